import Verif.RecurLemmas
import Verif.Spec.Recur
/-!
# Decoded recurrence rules are in range; where decoding panics
-/

namespace Ics

open Spec

theorem mapRes_all {α β : Type} {f : α → Res β} {P : β → Prop} (hf : ∀ a b, f a = .ok b → P b) :
    ∀ {l : List α} {m : List β}, mapRes f l = .ok m → ∀ x ∈ m, P x := by
  intro l
  induction l with
  | nil => intro m h; simp only [mapRes] at h; injection h with h; subst h; simp
  | cons a l ih =>
    intro m h
    rw [mapRes, Res.bind_eq_ok] at h
    obtain ⟨b, hb, h⟩ := h
    rw [Res.bind_eq_ok] at h
    obtain ⟨bs, hbs, h⟩ := h
    rw [Res.pure_eq] at h
    injection h with h
    subst h
    intro x hx
    rcases List.mem_cons.1 hx with rfl | hx
    · exact hf _ _ hb
    · exact ih hbs x hx

theorem decU_range {lo hi : Nat} {s : Str} {n : Nat} (h : decU lo hi s = .ok n) : lo ≤ n ∧ n ≤ hi := by
  unfold decU at h
  split at h
  · split at h
    · injection h with h; subst h; assumption
    · cases h
  · cases h

theorem decI_range {bits : Nat} {b : Int} {s : Str} {i : Int} (h : decI bits b s = .ok i) : Ordinal b i := by
  unfold decI at h
  split at h
  · split at h
    · next hh => injection h with h; subst h; unfold Ordinal; omega
    · cases h
  · cases h

theorem decDayName_range {num : Int} {s : Str} {x : DayRecur} (h : decDayName num s = .ok x) :
    1 ≤ x.day ∧ x.day ≤ 7 ∧ x.occ = num := by
  unfold decDayName at h
  split at h
  · next i hi =>
    injection h with h
    subst h
    have := indexOf_some _ _ _ hi
    have hl := List.getElem?_eq_some_iff.1 this
    obtain ⟨hl, _⟩ := hl
    have : dayNames.length = 7 := by decide
    refine ⟨by simp, by simp only; omega, rfl⟩
  · cases h

theorem decDayNum_range {neg nc : Bool} {s : Str} {x : DayRecur} (h : decDayNum neg nc s = .ok x) :
    (1 ≤ x.day ∧ x.day ≤ 7) ∧ (x.occ = 0 ∨ Ordinal 53 x.occ) := by
  unfold decDayNum at h
  split at h
  · cases h
  · split at h
    · split at h
      · cases h
      · next c2 rest2 =>
        generalize (if isDigit c2 = true then (digitVal _ * 10 + digitVal c2, rest2) else (digitVal _, c2 :: rest2)) = q at h
        obtain ⟨k, day⟩ := q
        dsimp only at h
        split at h
        · cases h
        · next hr =>
          obtain ⟨h1, h2, h3⟩ := decDayName_range h
          refine ⟨⟨h1, h2⟩, Or.inr ?_⟩
          rw [h3]
          unfold Ordinal
          cases neg <;> simp <;> omega
    · split at h
      · obtain ⟨h1, h2, h3⟩ := decDayName_range h
        exact ⟨⟨h1, h2⟩, Or.inl h3⟩
      · cases h

theorem decDay_range {s : Str} {x : DayRecur} (h : decDay s = .ok x) :
    (1 ≤ x.day ∧ x.day ≤ 7) ∧ (x.occ = 0 ∨ Ordinal 53 x.occ) := by
  unfold decDay at h
  split at h
  · cases h
  · split at h
    · exact decDayNum_range h
    · split at h
      · cases h
      · exact decDayNum_range h
    · exact decDayNum_range h

theorem once_ok {α β : Type} {l : List α} {x : Res β} {b : β} (h : once l x = .ok b) : l = [] ∧ x = .ok b := by
  unfold once at h
  split at h
  · exact ⟨rfl, h⟩
  · cases h

theorem parseUint_lt {bits : Nat} {s : Str} {n : Nat} (h : parseUint bits s = some n) : n < 2 ^ bits := (Dec_parseUint h).2

theorem Recur.part_range {E : Env} {p : Nat} {tz : Option Str} {st st' : RState} {v : Str} {k : RKey}
    (h : Recur.part E p tz st v k = .ok st') (hr : RecurInRange st.1) : RecurInRange st'.1 := by
  obtain ⟨r, b⟩ := st
  obtain ⟨h1, h2, h3, h4, h5, h6, h7, h8, h9, h10, h11, h12, h13, h14⟩ := hr
  cases k with
  | freq =>
    simp only [Recur.part] at h
    split at h
    · next f hf =>
      injection h with h; subst h
      obtain ⟨hl, _⟩ := List.getElem?_eq_some_iff.1 (indexOf_some _ _ _ hf)
      have : freqNames.length = 7 := by decide
      exact ⟨by simp only; omega, h2, h3, h4, h5, h6, h7, h8, h9, h10, h11, h12, h13, h14⟩
    · cases h
  | «until» =>
    simp only [Recur.part] at h
    split at h
    · cases h
    · next hc =>
      have hc0 : r.count = 0 := by omega
      split at h
      · split at h
        · injection h with h; subst h
          exact ⟨h1, h2, Or.inl hc0, h4, h5, h6, h7, h8, h9, h10, h11, h12, h13, h14⟩
        · cases h
        · cases h
      · split at h
        · injection h with h; subst h
          exact ⟨h1, h2, Or.inl hc0, h4, h5, h6, h7, h8, h9, h10, h11, h12, h13, h14⟩
        · cases h
        · cases h
  | count =>
    simp only [Recur.part] at h
    split at h
    · cases h
    · next hc =>
      have hz : r.until_.isZero = true := by simpa using hc
      split at h
      · next n hn =>
        injection h with h; subst h
        exact ⟨h1, h2, Or.inr hz, parseUint_lt hn, h5, h6, h7, h8, h9, h10, h11, h12, h13, h14⟩
      · cases h
  | interval =>
    simp only [Recur.part] at h
    split at h
    · cases h
    · split at h
      · next n hn =>
        injection h with h; subst h
        exact ⟨h1, h2, h3, h4, parseUint_lt hn, h6, h7, h8, h9, h10, h11, h12, h13, h14⟩
      · cases h
  | weekStart =>
    simp only [Recur.part] at h
    split at h
    · cases h
    · split at h
      · next i hi =>
        injection h with h; subst h
        obtain ⟨hl, _⟩ := List.getElem?_eq_some_iff.1 (indexOf_some _ _ _ hi)
        have : dayNames.length = 7 := by decide
        exact ⟨h1, by simp only; omega, h3, h4, h5, h6, h7, h8, h9, h10, h11, h12, h13, h14⟩
      · cases h
  | bySecond =>
    obtain ⟨_, h⟩ := once_ok h
    obtain ⟨l, hl, h⟩ := Res.bind_eq_ok.1 h
    injection h with h; subst h
    exact ⟨h1, h2, h3, h4, h5, mapRes_all (fun _ _ h => (decU_range h).2) hl, h7, h8, h9, h10, h11, h12, h13, h14⟩
  | byMinute =>
    obtain ⟨_, h⟩ := once_ok h
    obtain ⟨l, hl, h⟩ := Res.bind_eq_ok.1 h
    injection h with h; subst h
    exact ⟨h1, h2, h3, h4, h5, h6, mapRes_all (fun _ _ h => (decU_range h).2) hl, h8, h9, h10, h11, h12, h13, h14⟩
  | byHour =>
    obtain ⟨_, h⟩ := once_ok h
    obtain ⟨l, hl, h⟩ := Res.bind_eq_ok.1 h
    injection h with h; subst h
    exact ⟨h1, h2, h3, h4, h5, h6, h7, mapRes_all (fun _ _ h => (decU_range h).2) hl, h9, h10, h11, h12, h13, h14⟩
  | byDay =>
    obtain ⟨_, h⟩ := once_ok h
    obtain ⟨l, hl, h⟩ := Res.bind_eq_ok.1 h
    injection h with h; subst h
    exact ⟨h1, h2, h3, h4, h5, h6, h7, h8, mapRes_all (fun _ _ h => decDay_range h) hl, h10, h11, h12, h13, h14⟩
  | byMonthDay =>
    obtain ⟨_, h⟩ := once_ok h
    obtain ⟨l, hl, h⟩ := Res.bind_eq_ok.1 h
    injection h with h; subst h
    exact ⟨h1, h2, h3, h4, h5, h6, h7, h8, h9, mapRes_all (fun _ _ h => decI_range h) hl, h11, h12, h13, h14⟩
  | byYearDay =>
    obtain ⟨_, h⟩ := once_ok h
    obtain ⟨l, hl, h⟩ := Res.bind_eq_ok.1 h
    injection h with h; subst h
    exact ⟨h1, h2, h3, h4, h5, h6, h7, h8, h9, h10, mapRes_all (fun _ _ h => decI_range h) hl, h12, h13, h14⟩
  | byWeekNum =>
    obtain ⟨_, h⟩ := once_ok h
    obtain ⟨l, hl, h⟩ := Res.bind_eq_ok.1 h
    injection h with h; subst h
    exact ⟨h1, h2, h3, h4, h5, h6, h7, h8, h9, h10, h11, mapRes_all (fun _ _ h => decI_range h) hl, h13, h14⟩
  | byMonth =>
    obtain ⟨_, h⟩ := once_ok h
    obtain ⟨l, hl, h⟩ := Res.bind_eq_ok.1 h
    injection h with h; subst h
    exact ⟨h1, h2, h3, h4, h5, h6, h7, h8, h9, h10, h11, h12, mapRes_all (fun _ _ h => decU_range h) hl, h14⟩
  | bySetPos =>
    obtain ⟨_, h⟩ := once_ok h
    obtain ⟨l, hl, h⟩ := Res.bind_eq_ok.1 h
    injection h with h; subst h
    exact ⟨h1, h2, h3, h4, h5, h6, h7, h8, h9, h10, h11, h12, h13, mapRes_all (fun _ _ h => decI_range h) hl⟩

theorem Recur.loop_range {E : Env} {p : Nat} {tz : Option Str} : ∀ {ps : List Str} {st st' : RState},
    Recur.loop E p tz st ps = .ok st' → RecurInRange st.1 → RecurInRange st'.1 := by
  intro ps
  induction ps with
  | nil => intro st st' h hr; simp only [Recur.loop] at h; injection h with h; subst h; exact hr
  | cons q ps ih =>
    intro st st' h hr
    rw [Recur.loop] at h
    split at h
    · cases h
    · split at h
      · cases h
      · obtain ⟨st2, h1, h2⟩ := Res.bind_eq_ok.1 h
        exact ih h2 (Recur.part_range h1 hr)

theorem RecurInRange_init : RecurInRange {} := by
  constructor <;> simp

theorem Recur.decode_range {E : Env} {p : Nat} {tz : Option Str} {s : Str} {r : Recur}
    (h : Recur.decode E p tz s = .ok r) : RecurInRange r := by
  unfold Recur.decode at h
  obtain ⟨⟨r', f⟩, h1, h2⟩ := Res.bind_eq_ok.1 h
  have := Recur.loop_range h1 RecurInRange_init
  dsimp only at h2
  split at h2
  · injection h2 with h2; subst h2; exact this
  · cases h2

theorem inBound_iff (b x : Int) : inBound b x = true ↔ Ordinal b x := by
  unfold inBound Ordinal
  simp
  omega

theorem checkAll_ok {α : Type} {e : Err} {p : α → Bool} {l : List α} : checkAll e p l = .ok () ↔ ∀ x ∈ l, p x = true := by
  unfold checkAll
  rw [Res.guard_eq_ok, List.all_eq_true]

theorem unit_bind_ok {β : Type} {x : Res Unit} {f : Unit → Res β} {b : β} : (x >>= f) = .ok b ↔ x = .ok () ∧ f () = .ok b := by
  rw [Res.bind_eq_ok]
  constructor
  · rintro ⟨⟨⟩, h1, h2⟩; exact ⟨h1, h2⟩
  · rintro ⟨h1, h2⟩; exact ⟨(), h1, h2⟩

/-- What validation checks: everything but the occurrence numbers and COUNT against UNTIL. -/
theorem Recur.valid_iff (r : Recur) : r.valid = .ok () ↔
    r.freq ≤ 6 ∧ (∀ x ∈ r.bySecond, x ≤ 60) ∧ (∀ x ∈ r.byMinute, x ≤ 59) ∧ (∀ x ∈ r.byHour, x ≤ 23) ∧
    (∀ x ∈ r.byDay, 1 ≤ x.day ∧ x.day ≤ 7) ∧ (∀ x ∈ r.byMonthDay, Ordinal 31 x) ∧ (∀ x ∈ r.byYearDay, Ordinal 366 x) ∧
    (∀ x ∈ r.byWeekNum, Ordinal 53 x) ∧ (∀ x ∈ r.byMonth, 1 ≤ x ∧ x ≤ 12) ∧ (∀ x ∈ r.bySetPos, Ordinal 366 x) ∧ r.weekStart ≤ 7 := by
  unfold Recur.valid
  simp only [unit_bind_ok, checkAll_ok, Res.guard_eq_ok, inBound_iff]
  have e : ∀ x : Nat, (!(x == 0 || decide (x > 12))) = true ↔ 1 ≤ x ∧ x ≤ 12 := by intro x; simp; omega
  simp only [e]
  simp

theorem Recur.valid_of_range {r : Recur} (h : RecurInRange r) : r.valid = .ok () :=
  (Recur.valid_iff r).2 ⟨h.freq, h.bySecond, h.byMinute, h.byHour, fun x hx => (h.byDay x hx).1, h.byMonthDay, h.byYearDay,
    h.byWeekNum, h.byMonth, h.bySetPos, h.weekStart⟩

/-! ## Panics -/

theorem decDayName_ne_panic (n : Int) (s : Str) : decDayName n s ≠ .panic := by
  unfold decDayName; split <;> simp

theorem decDay_panic_iff (s : Str) : decDay s = .panic ↔ ∃ c, isDigit c = true ∧ s = ['+', c] := by
  have num : ∀ (neg nc : Bool) (s : Str), decDayNum neg nc s = .panic ↔ s = [] ∨ ∃ c, isDigit c = true ∧ s = [c] := by
    intro neg nc s
    unfold decDayNum
    split
    · simp
    · next c rest =>
      split
      · next hc =>
        split
        · simp [hc]
        · next c2 rest2 =>
          generalize (if isDigit c2 = true then (digitVal _ * 10 + digitVal c2, rest2) else (digitVal _, c2 :: rest2)) = q
          obtain ⟨k, day⟩ := q
          dsimp only
          split
          · simp
          · simp [decDayName_ne_panic]
      · next hc =>
        split
        · simp only [decDayName_ne_panic, false_iff]
          rintro (h | ⟨d, hd, h⟩)
          · cases h
          · injection h with h _; subst h; exact hc hd
        · simp only [reduceCtorEq, false_iff]
          rintro (h | ⟨d, hd, h⟩)
          · cases h
          · injection h with h _; subst h; exact hc hd
  unfold decDay
  split
  · next hl =>
    simp only [reduceCtorEq, false_iff]
    rintro ⟨c, _, rfl⟩
    simp at hl
  · next hl =>
    split
    · next rest =>
      rw [num]
      constructor
      · rintro (rfl | ⟨c, hc, rfl⟩)
        · simp at hl
        · exact ⟨c, hc, rfl⟩
      · rintro ⟨c, hc, h⟩
        injection h with _ h
        exact Or.inr ⟨c, hc, h⟩
    · next rest =>
      split
      · simp only [reduceCtorEq, false_iff]
        rintro ⟨c, _, h⟩
        injection h with h _
        exact absurd h (by decide)
      · next hr =>
        rw [num]
        constructor
        · rintro (rfl | ⟨c, hc, rfl⟩)
          · simp at hr
          · simp at hr
        · rintro ⟨c, _, h⟩
          injection h with h _
          exact absurd h (by decide)
    · next hp hm =>
      rw [num]
      constructor
      · rintro (rfl | ⟨c, hc, rfl⟩)
        · simp at hl
        · simp at hl
      · rintro ⟨c, _, h⟩
        exact absurd h (hp [c])

theorem mapRes_panic {α β : Type} {f : α → Res β} : ∀ {l : List α}, mapRes f l = .panic → ∃ a ∈ l, f a = .panic := by
  intro l
  induction l with
  | nil => intro h; cases h
  | cons a l ih =>
    intro h
    rw [mapRes, Res.bind_eq_panic] at h
    rcases h with h | ⟨b, _, h⟩
    · exact ⟨a, by simp, h⟩
    · rw [Res.bind_eq_panic] at h
      rcases h with h | ⟨bs, _, h⟩
      · obtain ⟨x, hx, h⟩ := ih h
        exact ⟨x, by simp [hx], h⟩
      · cases h

theorem decU_ne_panic (a b : Nat) (s : Str) : decU a b s ≠ .panic := by
  unfold decU; repeat' split
  all_goals simp

theorem decI_ne_panic (a : Nat) (b : Int) (s : Str) : decI a b s ≠ .panic := by
  unfold decI; repeat' split
  all_goals simp

theorem Date.decode_ne_panic (s : Str) : Date.decode s ≠ .panic := Res.ofOption_ne_panic

theorem DateTime.decode_ne_panic (E : Env) (p : Nat) (tz : Option Str) (s : Str) : DateTime.decode E p tz s ≠ .panic := by
  unfold DateTime.decode
  split
  · rw [ne_eq, Res.bind_eq_panic]
    rintro (h | ⟨_, _, h⟩)
    · exact Res.ofOption_ne_panic h
    · exact Res.ofOption_ne_panic h
  · split <;> exact Res.ofOption_ne_panic

theorem once_panic {α β : Type} {l : List α} {x : Res β} (h : once l x = .panic) : x = .panic := by
  unfold once at h
  split at h
  · exact h
  · cases h

theorem Recur.part_panic {E : Env} {p : Nat} {tz : Option Str} {st : RState} {v : Str} {k : RKey}
    (h : Recur.part E p tz st v k = .panic) : k = .byDay ∧ ∃ c, isDigit c = true ∧ ['+', c] ∈ splitOn ',' v := by
  have nop : ∀ {α : Type} {f : Str → Res α} {g : List α → RState}, (∀ s, f s ≠ .panic) →
      ¬ ((mapRes f (splitOn ',' v) >>= fun l => (Res.ok (g l) : Res RState)) = .panic) := by
    intro α f g hf h
    rw [Res.bind_eq_panic] at h
    rcases h with h | ⟨_, _, h⟩
    · obtain ⟨a, _, h⟩ := mapRes_panic h
      exact hf a h
    · cases h
  cases k with
  | byDay =>
    refine ⟨rfl, ?_⟩
    have h := once_panic h
    rw [Res.bind_eq_panic] at h
    rcases h with h | ⟨_, _, h⟩
    · obtain ⟨a, ha, h⟩ := mapRes_panic h
      obtain ⟨c, hc, rfl⟩ := (decDay_panic_iff a).1 h
      exact ⟨c, hc, ha⟩
    · cases h
  | «until» =>
    simp only [Recur.part] at h
    split at h
    · cases h
    · split at h
      · split at h
        · cases h
        · cases h
        · next hd => exact absurd hd (DateTime.decode_ne_panic _ _ _ _)
      · split at h
        · cases h
        · cases h
        · next hd => exact absurd hd (Date.decode_ne_panic _)
  | bySecond => exact absurd (once_panic h) (nop (decU_ne_panic _ _))
  | byMinute => exact absurd (once_panic h) (nop (decU_ne_panic _ _))
  | byHour => exact absurd (once_panic h) (nop (decU_ne_panic _ _))
  | byMonthDay => exact absurd (once_panic h) (nop (decI_ne_panic _ _))
  | byYearDay => exact absurd (once_panic h) (nop (decI_ne_panic _ _))
  | byWeekNum => exact absurd (once_panic h) (nop (decI_ne_panic _ _))
  | byMonth => exact absurd (once_panic h) (nop (decU_ne_panic _ _))
  | bySetPos => exact absurd (once_panic h) (nop (decI_ne_panic _ _))
  | freq => simp only [Recur.part] at h; split at h <;> cases h
  | count => simp only [Recur.part] at h; repeat' split at h
             all_goals cases h
  | interval => simp only [Recur.part] at h; repeat' split at h
                all_goals cases h
  | weekStart => simp only [Recur.part] at h; repeat' split at h
                 all_goals cases h

theorem split2_some {sep : Char} : ∀ {s a b : Str}, split2 sep s = (a, some b) → s = a ++ sep :: b := by
  intro s
  induction s with
  | nil => intro a b h; simp [split2] at h
  | cons c s ih =>
    intro a b h
    rw [split2] at h
    split at h
    · next hc => injection h with h1 h2; injection h2 with h2; subst h1; subst h2; simp [hc]
    · cases hs : split2 sep s with
      | mk x y =>
        rw [hs] at h
        dsimp only at h
        injection h with h1 h2
        subst h1; subst h2
        rw [ih hs]; rfl

theorem mem_splitOn_infix {sep : Char} {s w : Str} (h : w ∈ splitOn sep s) : ∃ a b, s = a ++ w ++ b := by
  have : ∀ (ws : List Str) (w : Str), w ∈ ws → ∃ a b, join [sep] ws = a ++ w ++ b := by
    intro ws
    induction ws with
    | nil => intro w h; simp at h
    | cons v ws ih =>
      intro w h
      cases ws with
      | nil =>
        rw [List.mem_singleton] at h
        subst h
        exact ⟨[], [], by simp [join]⟩
      | cons v2 ws =>
        rcases List.mem_cons.1 h with rfl | h
        · exact ⟨[], [sep] ++ join [sep] (v2 :: ws), by simp [join]⟩
        · obtain ⟨a, b, e⟩ := ih w h
          refine ⟨v ++ [sep] ++ a, b, ?_⟩
          rw [join, e]
          · simp
          · simp
  obtain ⟨a, b, e⟩ := this _ w h
  rw [join_splitOn] at e
  exact ⟨a, b, e⟩

theorem rkeys_byDay {name : Str} (h : rkeys.lookup name = some .byDay) : name = c!"BYDAY" := by
  simp only [rkeys, List.lookup] at h
  repeat' split at h
  all_goals first
    | (next hb => exact beq_iff_eq.1 hb)
    | cases h

theorem Recur.decode_panic {E : Env} {p : Nat} {tz : Option Str} {s : Str} (h : Recur.decode E p tz s = .panic) : Spec.plusDay s = true := by
  have loop : ∀ (ps : List Str) (st : RState), Recur.loop E p tz st ps = .panic →
      ∃ q ∈ ps, ∃ v c, isDigit c = true ∧ q = c!"BYDAY=" ++ v ∧ ['+', c] ∈ splitOn ',' v := by
    intro ps
    induction ps with
    | nil => intro st h; cases h
    | cons q ps ih =>
      intro st h
      rw [Recur.loop] at h
      split at h
      · cases h
      · next name v hs =>
        split at h
        · cases h
        · next k hk =>
          rw [Res.bind_eq_panic] at h
          rcases h with h | ⟨st', _, h⟩
          · obtain ⟨rfl, c, hc, hm⟩ := Recur.part_panic h
            refine ⟨q, by simp, v, c, hc, ?_, hm⟩
            rw [split2_some hs, rkeys_byDay hk]
            rfl
          · obtain ⟨q, hq, h⟩ := ih st' h
            exact ⟨q, by simp [hq], h⟩
  unfold Recur.decode at h
  rw [Res.bind_eq_panic] at h
  rcases h with h | ⟨⟨r, f⟩, _, h⟩
  · obtain ⟨q, hq, v, c, hc, rfl, hm⟩ := loop _ _ h
    unfold Spec.plusDay
    refine List.any_eq_true.2 ⟨_, hq, ?_⟩
    rw [Bool.and_eq_true]
    refine ⟨by simp, List.any_eq_true.2 ⟨['+', c], by simpa using hm, ?_⟩⟩
    simpa [isDigit] using hc
  · dsimp only at h
    split at h <;> cases h

end Ics
