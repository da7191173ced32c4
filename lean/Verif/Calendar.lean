import Verif.Scalars
/-!
# The proleptic Gregorian calendar, as package time computes it

Days are counted from 1 January of year 1 (day 0), as in Go's internal representation.
-/

namespace Ics

/-- Leap years.  Go library, not in /repo; part of `time.Parse` and `Time.Format`, called at types.go:124, 142, 165-179, 201-205, 1385-1399, 1421-1425. -/
def isLeap (y : Int) : Bool := y % 4 == 0 && (y % 100 != 0 || y % 400 == 0)

/-- Number of days from day 0 to 1 January of year `y` (`time.daysSinceEpoch`).
Go library, not in /repo; part of `time.Parse` and `Time.Format`, called at types.go:124, 142, 165-179, 201-205, 1385-1399, 1421-1425. -/
def daysBeforeYear (y : Int) : Int := 365 * (y - 1) + (y - 1) / 4 - (y - 1) / 100 + (y - 1) / 400

/-- Number of days of the year before the first of the month (`time.daysBefore`).
Go library, not in /repo; part of `time.Parse` and `Time.Format`, called at types.go:124, 142, 165-179, 201-205, 1385-1399, 1421-1425. -/
def daysBeforeMonth (leap : Bool) (m : Nat) : Nat :=
  let l := if leap then 1 else 0
  match m with
  | 1 => 0 | 2 => 31 | 3 => 59 + l | 4 => 90 + l | 5 => 120 + l | 6 => 151 + l
  | 7 => 181 + l | 8 => 212 + l | 9 => 243 + l | 10 => 273 + l | 11 => 304 + l | _ => 334 + l

/-- `time.daysIn`.  Go library, not in /repo; part of `time.Parse` and `Time.Format`, called at types.go:124, 142, 165-179, 201-205, 1385-1399, 1421-1425. -/
def daysIn (leap : Bool) (m : Nat) : Nat :=
  match m with
  | 2 => if leap then 29 else 28
  | 4 => 30 | 6 => 30 | 9 => 30 | 11 => 30
  | _ => 31

/-- The day number of a date (`time.Date`).
Go library, not in /repo; part of `time.Parse` and `Time.Format`, called at types.go:124, 142, 165-179, 201-205, 1385-1399, 1421-1425. -/
def dayNumber (y : Int) (m d : Nat) : Int := daysBeforeYear y + daysBeforeMonth (isLeap y) m + (d - 1 : Nat)

/-- The year containing a day.  Go library, not in /repo; part of `time.Parse` and `Time.Format`, called at types.go:124, 142, 165-179, 201-205, 1385-1399, 1421-1425. -/
def yearOf (n : Int) : Int :=
  let y := n * 400 / 146097 + 1
  if n < daysBeforeYear y then y - 1
  else if daysBeforeYear (y + 1) ≤ n then y + 1
  else y

/-- The month containing a day of the year.
Go library, not in /repo; part of `time.Parse` and `Time.Format`, called at types.go:124, 142, 165-179, 201-205, 1385-1399, 1421-1425. -/
def monthOf (leap : Bool) (yd : Nat) : Nat :=
  let l := if leap then 1 else 0
  if yd < 31 then 1 else if yd < 59 + l then 2 else if yd < 90 + l then 3 else if yd < 120 + l then 4
  else if yd < 151 + l then 5 else if yd < 181 + l then 6 else if yd < 212 + l then 7 else if yd < 243 + l then 8
  else if yd < 273 + l then 9 else if yd < 304 + l then 10 else if yd < 334 + l then 11 else 12

/-- Year, month and day of a day number (`Time.Date`).
Go library, not in /repo; part of `time.Parse` and `Time.Format`, called at types.go:124, 142, 165-179, 201-205, 1385-1399, 1421-1425. -/
def civil (n : Int) : Int × Nat × Nat :=
  let y := yearOf n
  let yd := (n - daysBeforeYear y).toNat
  let m := monthOf (isLeap y) yd
  (y, m, yd - daysBeforeMonth (isLeap y) m + 1)

/-! ## Facts -/

theorem daysBeforeYear_succ (y : Int) : daysBeforeYear (y + 1) = daysBeforeYear y + (if isLeap y then 366 else 365) := by
  unfold daysBeforeYear isLeap
  simp only [Bool.and_eq_true, Bool.or_eq_true, beq_iff_eq, bne_iff_ne, ne_eq]
  split <;> omega

theorem daysBeforeYear_mono {y z : Int} (h : y < z) : daysBeforeYear (y + 1) ≤ daysBeforeYear z := by
  unfold daysBeforeYear
  omega

theorem yearOf_spec (n : Int) : daysBeforeYear (yearOf n) ≤ n ∧ n < daysBeforeYear (yearOf n + 1) := by
  unfold yearOf
  dsimp only
  split
  · next h => unfold daysBeforeYear at *; omega
  · next h1 =>
    split
    · next h => unfold daysBeforeYear at *; omega
    · next h2 => omega

theorem yearOf_unique {n y : Int} (h1 : daysBeforeYear y ≤ n) (h2 : n < daysBeforeYear (y + 1)) : yearOf n = y := by
  obtain ⟨a, b⟩ := yearOf_spec n
  rcases Int.lt_trichotomy (yearOf n) y with h | h | h
  · have := daysBeforeYear_mono h; omega
  · exact h
  · have := daysBeforeYear_mono h; omega

theorem monthOf_dayOf (leap : Bool) (m d : Nat) (h1 : 1 ≤ m) (h2 : m ≤ 12) (h3 : 1 ≤ d) (h4 : d ≤ daysIn leap m) :
    monthOf leap (daysBeforeMonth leap m + (d - 1)) = m ∧
      daysBeforeMonth leap m + (d - 1) < (if leap then 366 else 365) := by
  have key : ∀ (l : Bool) (m : Fin 13) (d : Fin 32), 1 ≤ m.1 → 1 ≤ d.1 → d.1 ≤ daysIn l m.1 →
      monthOf l (daysBeforeMonth l m.1 + (d.1 - 1)) = m.1 ∧
        daysBeforeMonth l m.1 + (d.1 - 1) < (if l then 366 else 365) := by decide +kernel
  have hd : daysIn leap m ≤ 31 := by
    unfold daysIn
    repeat' split
    all_goals omega
  exact key leap ⟨m, by omega⟩ ⟨d, by omega⟩ h1 h3 h4

theorem monthOf_spec (leap : Bool) (yd : Nat) (h : yd < (if leap then 366 else 365)) :
    1 ≤ monthOf leap yd ∧ monthOf leap yd ≤ 12 ∧ daysBeforeMonth leap (monthOf leap yd) ≤ yd ∧
      yd - daysBeforeMonth leap (monthOf leap yd) + 1 ≤ daysIn leap (monthOf leap yd) := by
  have key : ∀ (l : Bool) (yd : Fin 366), yd.1 < (if l then 366 else 365) →
      1 ≤ monthOf l yd.1 ∧ monthOf l yd.1 ≤ 12 ∧ daysBeforeMonth l (monthOf l yd.1) ≤ yd.1 ∧
        yd.1 - daysBeforeMonth l (monthOf l yd.1) + 1 ≤ daysIn l (monthOf l yd.1) := by decide +kernel
  exact key leap ⟨yd, by split at h <;> omega⟩ h

/-- Dates that exist.  Not in /repo: used to state what `daysIn` (types.go:124) checks. -/
def RealDate (y : Int) (m d : Nat) : Prop := 1 ≤ m ∧ m ≤ 12 ∧ 1 ≤ d ∧ d ≤ daysIn (isLeap y) m

theorem civil_dayNumber {y : Int} {m d : Nat} (h : RealDate y m d) : civil (dayNumber y m d) = (y, m, d) := by
  obtain ⟨h1, h2, h3, h4⟩ := h
  obtain ⟨e1, e2⟩ := monthOf_dayOf (isLeap y) m d h1 h2 h3 h4
  have hs := daysBeforeYear_succ y
  have hy : yearOf (dayNumber y m d) = y := by
    apply yearOf_unique
    · unfold dayNumber; omega
    · rw [hs]; unfold dayNumber
      split
      · next h => rw [h] at e2; simp at e2; rw [h]; omega
      · next h => rw [Bool.not_eq_true] at h; rw [h] at e2; simp at e2; rw [h]; omega
  unfold civil
  dsimp only
  rw [hy]
  have hyd : (dayNumber y m d - daysBeforeYear y).toNat = daysBeforeMonth (isLeap y) m + (d - 1) := by
    unfold dayNumber; omega
  rw [hyd, e1]
  congr 2
  omega

theorem civil_real (n : Int) : RealDate (civil n).1 (civil n).2.1 (civil n).2.2 ∧
    dayNumber (civil n).1 (civil n).2.1 (civil n).2.2 = n := by
  obtain ⟨a, b⟩ := yearOf_spec n
  rw [daysBeforeYear_succ] at b
  unfold civil
  dsimp only
  generalize hyd : (n - daysBeforeYear (yearOf n)).toNat = yd
  have hlt : yd < (if isLeap (yearOf n) then 366 else 365) := by
    split at b <;> simp_all <;> omega
  obtain ⟨m1, m2, m3, m4⟩ := monthOf_spec (isLeap (yearOf n)) yd hlt
  refine ⟨⟨m1, m2, by omega, m4⟩, ?_⟩
  unfold dayNumber
  omega

end Ics
