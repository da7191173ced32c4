import Verif.Basic
/-!
# Decimal numbers: `strconv.ParseUint/ParseInt/FormatUint/FormatInt`, `itoa` (types.go:321-336)
-/

namespace Ics

/-- ASCII digit test, the character class "0123456789" of types.go. -/
def isDigit (c : Char) : Bool := '0' ≤ c && c ≤ '9'

/-- Value of an ASCII digit (`c - '0'`).  In `strconv` and `time`; in /repo e.g. types.go:1487. -/
def digitVal (c : Char) : Nat := c.toNat - 48

/-- `'0' + n` for n < 10.  types.go:321-336, 1551-1559. -/
def digitChar (n : Nat) : Char := Char.ofNat (48 + n)

/-- Digits of `n`, least significant digit handled last, with fuel.  types.go:321-336; `strconv.FormatUint` at types.go:997, 1011. -/
def fmtNatF : Nat → Nat → Str
  | 0, _ => []
  | f + 1, n => if n < 10 then [digitChar n] else fmtNatF f (n / 10) ++ [digitChar (n % 10)]

/-- `strconv.FormatUint(n, 10)` and `itoa` (types.go:321-336): decimal digits without leading zeros, "0" for 0. -/
def fmtNat (n : Nat) : Str := fmtNatF (n + 1) n

/-- `strconv.FormatInt(i, 10)`.  Go library, not in /repo; called at types.go:499, 1059, 1089-1137. -/
def fmtInt (i : Int) : Str :=
  if i < 0 then '-' :: fmtNat i.natAbs else fmtNat i.natAbs

/-- Value of a digit string, accumulating.  Go library, not in /repo; part of `strconv.ParseUint`. -/
def digitsVal (acc : Nat) (s : Str) : Nat := s.foldl (fun a c => a * 10 + digitVal c) acc

/-- `strconv.ParseUint(s, 10, bits)`: digits only, at least one, value below `2^bits`.  Go library, not in /repo; called at types.go:248, 698, 709, 724, 742, 760, 905. -/
def parseUint (bits : Nat) (s : Str) : Option Nat :=
  if s ≠ [] ∧ s.all isDigit then
    let v := digitsVal 0 s
    if v < 2 ^ bits then some v else none
  else none

/-- `strconv.ParseInt(s, 10, bits)`: optional sign, then digits, result in the two's complement range.
Go library, not in /repo; called at types.go:483, 851, 869, 887, 923. -/
def parseInt (bits : Nat) (s : Str) : Option Int :=
  let (neg, ds) := match s with
    | '-' :: r => (true, r)
    | '+' :: r => (false, r)
    | r => (false, r)
  if ds ≠ [] ∧ ds.all isDigit then
    let v := digitsVal 0 ds
    if neg then (if v ≤ 2 ^ (bits - 1) then some (-(v : Int)) else none)
    else (if v < 2 ^ (bits - 1) then some (v : Int) else none)
  else none

/-! ## Lemmas -/

theorem digitChar_isDigit {n : Nat} (h : n < 10) : isDigit (digitChar n) = true := by
  have : ∀ m : Fin 10, isDigit (digitChar m.1) = true := by decide
  exact this ⟨n, h⟩

theorem digitVal_digitChar {n : Nat} (h : n < 10) : digitVal (digitChar n) = n := by
  have : ∀ m : Fin 10, digitVal (digitChar m.1) = m.1 := by decide
  exact this ⟨n, h⟩

theorem digitChar_ne_of_not_isDigit {n : Nat} (h : n < 10) {c : Char} (hc : isDigit c = false) :
    digitChar n ≠ c := by
  intro e; rw [← e, digitChar_isDigit h] at hc; exact absurd hc (by simp)

theorem digitsVal_nil (a : Nat) : digitsVal a [] = a := rfl
theorem digitsVal_cons (a : Nat) (c : Char) (s : Str) :
    digitsVal a (c :: s) = digitsVal (a * 10 + digitVal c) s := by
  simp only [digitsVal, List.foldl_cons]

theorem digitsVal_append (a : Nat) (s t : Str) :
    digitsVal a (s ++ t) = digitsVal (digitsVal a s) t := by
  simp only [digitsVal, List.foldl_append]

theorem fmtNatF_all {f n : Nat} : (fmtNatF f n).all isDigit = true := by
  induction f generalizing n with
  | zero => rfl
  | succ f ih =>
    unfold fmtNatF
    split
    · next h => simp [digitChar_isDigit h]
    · rw [List.all_append, ih]
      simp [digitChar_isDigit (Nat.mod_lt n (by decide : 10 > 0))]

theorem fmtNatF_val {f n : Nat} (h : n < f) : digitsVal 0 (fmtNatF f n) = n := by
  induction f generalizing n with
  | zero => omega
  | succ f ih =>
    unfold fmtNatF
    split
    · next h10 => rw [digitsVal_cons, digitVal_digitChar h10]; simp [digitsVal_nil]
    · next h10 =>
      rw [digitsVal_append, ih (by omega), digitsVal_cons,
        digitVal_digitChar (Nat.mod_lt n (by decide : 10 > 0)), digitsVal_nil]
      omega

theorem fmtNatF_ne_nil {f n : Nat} (h : n < f) : fmtNatF f n ≠ [] := by
  cases f with
  | zero => omega
  | succ f => unfold fmtNatF; split <;> simp

theorem fmtNat_all (n : Nat) : (fmtNat n).all isDigit = true := fmtNatF_all
theorem fmtNat_val (n : Nat) : digitsVal 0 (fmtNat n) = n := fmtNatF_val (by omega)
theorem fmtNat_ne_nil (n : Nat) : fmtNat n ≠ [] := fmtNatF_ne_nil (by omega)

theorem parseUint_fmtNat {bits n : Nat} (h : n < 2 ^ bits) : parseUint bits (fmtNat n) = some n := by
  unfold parseUint
  simp only [fmtNat_val]
  rw [if_pos ⟨fmtNat_ne_nil n, fmtNat_all n⟩, if_pos h]

theorem fmtNat_head_isDigit {n : Nat} {c : Char} {r : Str} (h : fmtNat n = c :: r) : isDigit c = true := by
  have := fmtNat_all n
  rw [h] at this
  simp at this
  exact this.1

theorem parseInt_fmtInt {bits : Nat} {i : Int}
    (h1 : -(2 ^ (bits - 1) : Nat) ≤ i) (h2 : i < (2 ^ (bits - 1) : Nat)) :
    parseInt bits (fmtInt i) = some i := by
  unfold fmtInt
  split
  · next hneg =>
    simp only [parseInt]
    rw [if_pos ⟨fmtNat_ne_nil _, fmtNat_all _⟩, fmtNat_val]
    simp only [if_true]
    rw [if_pos (by omega)]
    congr 1; omega
  · next hpos =>
    rcases hd : fmtNat i.natAbs with _ | ⟨c, r⟩
    · exact absurd hd (fmtNat_ne_nil _)
    · have hc := fmtNat_head_isDigit hd
      have hm : c ≠ '-' := by rintro rfl; exact absurd hc (by decide)
      have hp : c ≠ '+' := by rintro rfl; exact absurd hc (by decide)
      have hall := fmtNat_all i.natAbs
      have hval := fmtNat_val i.natAbs
      rw [hd] at hall hval
      unfold parseInt
      split
      next neg ds heq =>
      split at heq
      · next h => injection h with h _; exact absurd h hm
      · next h => injection h with h _; exact absurd h hp
      · injection heq with ha hb'; subst ha; subst hb'
        rw [if_pos ⟨by simp, hall⟩, hval]
        simp only [Bool.false_eq_true, if_false]
        rw [if_pos (by omega)]
        congr 1; omega

theorem parseUint_some {bits : Nat} {s : Str} {n : Nat} (h : parseUint bits s = some n) :
    s ≠ [] ∧ s.all isDigit = true ∧ digitsVal 0 s = n ∧ n < 2 ^ bits := by
  unfold parseUint at h
  split at h
  · next hc =>
    dsimp only at h
    split at h
    · next hlt => injection h with h; subst h; exact ⟨hc.1, hc.2, rfl, hlt⟩
    · cases h
  · cases h

theorem isDigit_not {c : Char} : isDigit c = true → c ≠ ',' ∧ c ≠ ';' ∧ c ≠ '=' ∧ c ≠ '-' ∧ c ≠ '+' ∧ c ≠ '/' := by
  intro h
  refine ⟨?_, ?_, ?_, ?_, ?_, ?_⟩ <;> (rintro rfl; exact absurd h (by decide))

end Ics
