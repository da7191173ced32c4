import Verif.Spec.Recur
import Verif.TimeLemmas
/-!
# Lemmas about recurrence rules
-/

namespace Ics

open Spec

/-! ## Splitting and joining -/

theorem splitOn_append (sep : Char) : ∀ (w r : Str), sep ∉ w → splitOn sep (w ++ sep :: r) = w :: splitOn sep r := by
  intro w
  induction w with
  | nil => intro r _; simp [splitOn]
  | cons c w ih =>
    intro r h
    have hc : c ≠ sep := by intro e; exact h (by simp [e])
    have hw : sep ∉ w := by intro e; exact h (by simp [e])
    rw [List.cons_append, splitOn, if_neg hc, ih r hw]

theorem splitOn_single (sep : Char) : ∀ (w : Str), sep ∉ w → splitOn sep w = [w] := by
  intro w
  induction w with
  | nil => intro _; rfl
  | cons c w ih =>
    intro h
    have hc : c ≠ sep := by intro e; exact h (by simp [e])
    have hw : sep ∉ w := by intro e; exact h (by simp [e])
    rw [splitOn, if_neg hc, ih hw]

theorem splitOn_join (sep : Char) : ∀ (ws : List Str), ws ≠ [] → (∀ w ∈ ws, sep ∉ w) → splitOn sep (join [sep] ws) = ws := by
  intro ws
  induction ws with
  | nil => intro h _; exact absurd rfl h
  | cons w ws ih =>
    intro _ h
    cases ws with
    | nil => exact splitOn_single sep w (h w (by simp))
    | cons w2 ws =>
      have := ih (by simp) (fun x hx => h x (by simp [hx]))
      rw [join, List.append_assoc, List.singleton_append, splitOn_append sep w _ (h w (by simp)), this]
      simp

theorem splitOn_ne_nil (sep : Char) (s : Str) : splitOn sep s ≠ [] := by
  cases s with
  | nil => simp [splitOn]
  | cons c s =>
    rw [splitOn]
    split
    · simp
    · split <;> simp

theorem join_splitOn (sep : Char) : ∀ (s : Str), join [sep] (splitOn sep s) = s := by
  intro s
  induction s with
  | nil => rfl
  | cons c s ih =>
    rw [splitOn]
    split
    · next h =>
      subst h
      cases hs : splitOn c s with
      | nil => exact absurd hs (splitOn_ne_nil _ _)
      | cons w ws =>
        rw [hs] at ih
        rw [join, ih]
        · rfl
        · simp
    · cases hs : splitOn sep s with
      | nil => exact absurd hs (splitOn_ne_nil _ _)
      | cons w ws =>
        rw [hs] at ih
        cases ws with
        | nil => simpa [join] using ih
        | cons w2 ws => simpa [join] using ih

theorem split2_append (sep : Char) : ∀ (n v : Str), sep ∉ n → split2 sep (n ++ sep :: v) = (n, some v) := by
  intro n
  induction n with
  | nil => intro v _; simp [split2]
  | cons c n ih =>
    intro v h
    have hc : c ≠ sep := by intro e; exact h (by simp [e])
    have hw : sep ∉ n := by intro e; exact h (by simp [e])
    rw [List.cons_append, split2, if_neg hc, ih v hw]

theorem mem_join {sep : Str} {c : Char} : ∀ {ws : List Str}, c ∈ join sep ws → c ∈ sep ∨ ∃ w ∈ ws, c ∈ w := by
  intro ws
  induction ws with
  | nil => intro h; simp [join] at h
  | cons w ws ih =>
    intro h
    cases ws with
    | nil => exact Or.inr ⟨w, by simp, h⟩
    | cons w2 ws =>
      rw [join] at h
      · rcases List.mem_append.1 h with h | h
        · rcases List.mem_append.1 h with h | h
          · exact Or.inr ⟨w, by simp, h⟩
          · exact Or.inl h
        · rcases ih h with h | ⟨x, hx, h⟩
          · exact Or.inl h
          · exact Or.inr ⟨x, by simp [hx], h⟩
      · simp

/-! ## Characters of the encodings -/

theorem fmtNat_mem {n : Nat} {c : Char} (h : c ∈ fmtNat n) : isDigit c = true :=
  List.all_eq_true.1 (fmtNat_all n) c h

theorem fmtInt_mem {i : Int} {c : Char} (h : c ∈ fmtInt i) : isDigit c = true ∨ c = '-' := by
  unfold fmtInt at h
  split at h
  · rcases List.mem_cons.1 h with h | h
    · exact Or.inr h
    · exact Or.inl (fmtNat_mem h)
  · exact Or.inl (fmtNat_mem h)

theorem dd_mem {n : Nat} (hn : n < 100) {c : Char} (h : c ∈ dd n) : isDigit c = true := by
  have h1 := digitChar_isDigit (n := n / 10) (by omega)
  have h2 := digitChar_isDigit (n := n % 10) (by omega)
  rw [digitChar] at h1 h2
  simp only [dd, List.mem_cons, List.not_mem_nil, or_false] at h
  rcases h with rfl | rfl <;> assumption

theorem pad4_mem {n : Nat} {c : Char} (h : c ∈ pad4 n) : isDigit c = true := by
  unfold pad4 at h
  split at h
  · rcases List.mem_append.1 h with h | h
    · exact dd_mem (by omega) h
    · exact dd_mem (by omega) h
  · exact fmtNat_mem h

theorem fmtDate8_mem {n : Int} {c : Char} (h : c ∈ fmtDate8 n) : isDigit c = true ∨ c = '-' := by
  obtain ⟨hr, _⟩ := civil_real n
  unfold fmtDate8 at h
  generalize civil n = cv at *
  obtain ⟨y, m, d⟩ := cv
  dsimp only at *
  have hd : d < 100 := by
    have hd := hr.2.2.2
    rw [daysIn_eq] at hd
    unfold monthLen at hd
    repeat' split at hd
    all_goals omega
  have hm : m < 100 := by have := hr.2.1; omega
  rcases List.mem_append.1 h with h | h
  · rcases List.mem_append.1 h with h | h
    · unfold fmtYear at h
      rcases List.mem_append.1 h with h | h
      · split at h
        · exact Or.inr (by simpa using h)
        · simp at h
      · exact Or.inl (pad4_mem h)
    · exact Or.inl (dd_mem hm h)
  · exact Or.inl (dd_mem hd h)

theorem fmtClock_mem {n : Nat} (hn : n < 86400) {c : Char} (h : c ∈ fmtClock n) : isDigit c = true := by
  unfold fmtClock at h
  rcases List.mem_append.1 h with h | h
  · rcases List.mem_append.1 h with h | h
    · exact dd_mem (by omega) h
    · exact dd_mem (by omega) h
  · exact dd_mem (by omega) h

/-- The characters of dates and times. -/
def timeChar (c : Char) : Prop := isDigit c = true ∨ c = '-' ∨ c = 'T' ∨ c = 'Z'

theorem Date.encode_mem {E : Env} {t : GoTime} {c : Char} (h : c ∈ Date.encode E t) : timeChar c := by
  rcases fmtDate8_mem h with h | h
  · exact Or.inl h
  · exact Or.inr (Or.inl h)

theorem DateTime.encode_mem {E : Env} {t : GoTime} {c : Char} (h : c ∈ DateTime.encode E t) : timeChar c := by
  unfold DateTime.encode at h
  rcases List.mem_append.1 h with h | h
  · rcases List.mem_append.1 h with h | h
    · rcases fmtDate8_mem h with h | h
      · exact Or.inl h
      · exact Or.inr (Or.inl h)
    · rcases List.mem_cons.1 h with h | h
      · exact Or.inr (Or.inr (Or.inl h))
      · exact Or.inl (fmtClock_mem (by omega) h)
  · split at h
    · exact Or.inr (Or.inr (Or.inr (by simpa using h)))
    · simp at h

theorem timeChar_ne {c d : Char} (h : timeChar c) (hd : isDigit d = false) (h1 : d ≠ '-') (h2 : d ≠ 'T') (h3 : d ≠ 'Z') :
    c ≠ d := by
  intro e
  subst e
  rcases h with h | h | h | h
  · rw [h] at hd; cases hd
  · exact h1 h
  · exact h2 h
  · exact h3 h

theorem fmtFreq_mem {f : Nat} {c : Char} (h : c ∈ fmtFreq f) : 65 ≤ c.toNat ∧ c.toNat ≤ 90 := by
  unfold fmtFreq at h
  have key : ∀ w ∈ freqNames, ∀ c ∈ w, 65 ≤ c.toNat ∧ c.toNat ≤ 90 := by decide
  cases hf : freqNames[f]? with
  | none =>
    rw [hf] at h
    exact key c!"SECONDLY" (by decide) c h
  | some w =>
    rw [hf] at h
    exact key w (List.mem_of_getElem? hf) c h

theorem fmtDay_mem {d : Nat} {c : Char} (h : c ∈ fmtDay d) : 65 ≤ c.toNat ∧ c.toNat ≤ 90 := by
  unfold fmtDay at h
  have key : ∀ w ∈ dayNames, ∀ c ∈ w, 65 ≤ c.toNat ∧ c.toNat ≤ 90 := by decide
  split at h
  · simp at h
  · cases hf : dayNames[d - 1]? with
    | none => rw [hf] at h; simp at h
    | some w =>
      rw [hf] at h
      exact key w (List.mem_of_getElem? hf) c h

/-- The characters of a rule part. -/
def partChar (c : Char) : Prop := (48 ≤ c.toNat ∧ c.toNat ≤ 57) ∨ (65 ≤ c.toNat ∧ c.toNat ≤ 90) ∨ c = '-' ∨ c = ',' ∨ c = '='

theorem partChar_digit {c : Char} (h : isDigit c = true) : partChar c := Or.inl (dec_char_digit.1 h)

theorem partChar_time {c : Char} (h : timeChar c) : partChar c := by
  rcases h with h | rfl | rfl | rfl
  · exact partChar_digit h
  · exact Or.inr (Or.inr (Or.inl rfl))
  · exact Or.inr (Or.inl (by decide))
  · exact Or.inr (Or.inl (by decide))

theorem fmtDayRecur_mem {d : DayRecur} {c : Char} (h : c ∈ fmtDayRecur d) : partChar c ∧ c ≠ ',' := by
  unfold fmtDayRecur at h
  rcases List.mem_append.1 h with h | h
  · split at h
    · rcases fmtInt_mem h with h | rfl
      · exact ⟨partChar_digit h, (isDigit_not h).1⟩
      · exact ⟨Or.inr (Or.inr (Or.inl rfl)), by decide⟩
    · simp at h
  · have := fmtDay_mem h
    refine ⟨Or.inr (Or.inl this), ?_⟩
    rintro rfl
    revert this
    decide

theorem fmtInt_part {i : Int} {c : Char} (h : c ∈ fmtInt i) : partChar c ∧ c ≠ ',' := by
  rcases fmtInt_mem h with h | rfl
  · exact ⟨partChar_digit h, (isDigit_not h).1⟩
  · exact ⟨Or.inr (Or.inr (Or.inl rfl)), by decide⟩

theorem fmtNat_part {i : Nat} {c : Char} (h : c ∈ fmtNat i) : partChar c ∧ c ≠ ',' :=
  ⟨partChar_digit (fmtNat_mem h), (isDigit_not (fmtNat_mem h)).1⟩

theorem encList_mem {α : Type} {name : Str} {f : α → Str} {l : List α} (hn : ∀ c ∈ name, partChar c)
    (hf : ∀ x, ∀ c ∈ f x, partChar c ∧ c ≠ ',') {w : Str} (hw : w ∈ encList name f l) {c : Char} (h : c ∈ w) : partChar c := by
  unfold encList at hw
  split at hw
  · simp at hw
  · rw [List.mem_singleton] at hw
    subst hw
    rcases List.mem_append.1 h with h | h
    · exact hn c h
    · rcases List.mem_cons.1 h with rfl | h
      · exact Or.inr (Or.inr (Or.inr (Or.inr rfl)))
      · rcases mem_join h with h | ⟨w, hw, h⟩
        · rw [List.mem_singleton] at h; subst h
          exact Or.inr (Or.inr (Or.inr (Or.inl rfl)))
        · obtain ⟨x, _, rfl⟩ := List.mem_map.1 hw
          exact (hf x c h).1

instance (c : Char) : Decidable (partChar c) := by unfold partChar; infer_instance

theorem parts_mem {E : Env} {r : Recur} {w : Str} (hw : w ∈ r.parts E) {c : Char} (h : c ∈ w) : partChar c := by
  have lit : ∀ (p v : Str), (∀ c ∈ p, partChar c) → (∀ c ∈ v, partChar c) → c ∈ p ++ v → partChar c := by
    intro p v hp hv hc
    rcases List.mem_append.1 hc with hc | hc
    · exact hp c hc
    · exact hv c hc
  unfold Recur.parts at hw
  simp only [List.mem_append] at hw
  rcases hw with ((((((((((((hw | hw) | hw) | hw) | hw) | hw) | hw) | hw) | hw) | hw) | hw) | hw) | hw)
  · rw [List.mem_singleton] at hw; subst hw
    exact lit _ _ (by decide) (fun c hc => Or.inr (Or.inl (fmtFreq_mem hc))) h
  · split at hw
    · rw [List.mem_singleton] at hw; subst hw
      exact lit _ _ (by decide) (fun c hc => (fmtNat_part hc).1) h
    · split at hw
      · rw [List.mem_singleton] at hw; subst hw
        refine lit _ _ (by decide) (fun c hc => ?_) h
        split at hc
        · exact partChar_time (DateTime.encode_mem hc)
        · exact partChar_time (Date.encode_mem hc)
      · simp at hw
  · split at hw
    · rw [List.mem_singleton] at hw; subst hw
      exact lit _ _ (by decide) (fun c hc => (fmtNat_part hc).1) h
    · simp at hw
  · exact encList_mem (by decide) (fun _ _ h => fmtNat_part h) hw h
  · exact encList_mem (by decide) (fun _ _ h => fmtNat_part h) hw h
  · exact encList_mem (by decide) (fun _ _ h => fmtNat_part h) hw h
  · exact encList_mem (by decide) (fun _ _ h => fmtDayRecur_mem h) hw h
  · exact encList_mem (by decide) (fun _ _ h => fmtInt_part h) hw h
  · exact encList_mem (by decide) (fun _ _ h => fmtInt_part h) hw h
  · exact encList_mem (by decide) (fun _ _ h => fmtInt_part h) hw h
  · exact encList_mem (by decide) (fun _ _ h => fmtNat_part h) hw h
  · exact encList_mem (by decide) (fun _ _ h => fmtInt_part h) hw h
  · split at hw
    · rw [List.mem_singleton] at hw; subst hw
      exact lit _ _ (by decide) (fun c hc => Or.inr (Or.inl (fmtDay_mem hc))) h
    · simp at hw

theorem Recur.encode_mem {E : Env} {r : Recur} {c : Char} (h : c ∈ Recur.encode E r) : partChar c ∨ c = ';' := by
  rcases mem_join h with h | ⟨w, hw, h⟩
  · exact Or.inr (by simpa using h)
  · exact Or.inl (parts_mem hw h)

/-! ## Elements -/

theorem decU_fmt {lo hi n : Nat} (h : lo ≤ n) (h2 : n ≤ hi) (h3 : hi < 256) : decU lo hi (fmtNat n) = .ok n := by
  unfold decU
  rw [parseUint_fmtNat (by omega)]
  simp [h, h2]

theorem decI_fmt {bits : Nat} {b i : Int} (hb : b < ((2 ^ (bits - 1) : Nat) : Int)) (h : Ordinal b i) : decI bits b (fmtInt i) = .ok i := by
  unfold decI
  rw [parseInt_fmtInt (by rcases h with h | h <;> (rw [Int.natCast_pow] at hb; simp at hb ⊢; omega)) (by rcases h with h | h <;> (rw [Int.natCast_pow] at hb; simp at hb ⊢; omega))]
  simp only
  rw [if_pos (by rcases h with h | h <;> omega)]

theorem indexOf_get : ∀ (l : List Str) (i : Nat) (w : Str), l.Nodup → l[i]? = some w → indexOf w l = some i := by
  intro l
  induction l with
  | nil => intro i w _ h; simp at h
  | cons n ns ih =>
    intro i w hn h
    rw [List.nodup_cons] at hn
    cases i with
    | zero => simp at h; subst h; simp [indexOf]
    | succ i =>
      simp at h
      have hne : w ≠ n := by
        rintro rfl
        exact hn.1 (List.mem_of_getElem? h)
      rw [indexOf, if_neg hne, ih i w hn.2 h]
      rfl

theorem indexOf_some : ∀ (l : List Str) (i : Nat) (w : Str), indexOf w l = some i → l[i]? = some w := by
  intro l
  induction l with
  | nil => intro i w h; simp [indexOf] at h
  | cons n ns ih =>
    intro i w h
    rw [indexOf] at h
    split at h
    · next e => injection h with h; subst h; simp [e]
    · cases hh : indexOf w ns with
      | none => rw [hh] at h; simp at h
      | some j =>
        rw [hh] at h
        simp at h
        subst h
        simpa using ih j w hh

theorem fmtFreq_index {f : Nat} (h : f ≤ 6) : indexOf (fmtFreq f) freqNames = some f := by
  have : ∀ f : Fin 7, indexOf (fmtFreq f.1) freqNames = some f.1 := by decide
  exact this ⟨f, by omega⟩

theorem fmtDay_index {d : Nat} (h1 : 1 ≤ d) (h : d ≤ 7) : indexOf (fmtDay d) dayNames = some (d - 1) := by
  have : ∀ f : Fin 7, indexOf (fmtDay (f.1 + 1)) dayNames = some f.1 := by decide
  have := this ⟨d - 1, by omega⟩
  rw [show d = (d - 1) + 1 by omega]
  exact this

theorem fmtNat_small (n : Nat) (h1 : 1 ≤ n) (h2 : n ≤ 53) :
    (∃ c, isDigit c = true ∧ fmtNat n = [c] ∧ digitVal c = n) ∨
    (∃ c d, isDigit c = true ∧ isDigit d = true ∧ fmtNat n = [c, d] ∧ digitVal c * 10 + digitVal d = n) := by
  have : ∀ m : Fin 54, 1 ≤ m.1 → (m.1 < 10 → fmtNat m.1 = [digitChar m.1]) ∧
      (10 ≤ m.1 → fmtNat m.1 = [digitChar (m.1 / 10), digitChar (m.1 % 10)]) := by decide +kernel
  obtain ⟨a, b⟩ := this ⟨n, by omega⟩ h1
  by_cases hn : n < 10
  · exact Or.inl ⟨_, digitChar_isDigit hn, a hn, digitVal_digitChar hn⟩
  · refine Or.inr ⟨_, _, digitChar_isDigit (by omega), digitChar_isDigit (by omega), b (Nat.le_of_not_lt hn), ?_⟩
    simp only
    rw [digitVal_digitChar (by omega), digitVal_digitChar (by omega)]
    omega

theorem fmtDay_two (d : Nat) (h1 : 1 ≤ d) (h2 : d ≤ 7) :
    ∃ a b, fmtDay d = [a, b] ∧ isDigit a = false ∧ a ≠ '+' ∧ a ≠ '-' := by
  have : ∀ f : Fin 7, (fmtDay (f.1 + 1)).length = 2 ∧ (∀ c ∈ fmtDay (f.1 + 1), isDigit c = false ∧ c ≠ '+' ∧ c ≠ '-') := by
    decide
  obtain ⟨h3, h4⟩ := this ⟨d - 1, by omega⟩
  simp only [show d - 1 + 1 = d by omega] at h3 h4
  match hf : fmtDay d, h3 with
  | [a, b], _ => exact ⟨a, b, rfl, h4 a (by rw [hf]; simp)⟩

theorem decDayNum_fmt (neg nc : Bool) (n d : Nat) (h1 : 1 ≤ n) (h2 : n ≤ 53) (h3 : 1 ≤ d) (h4 : d ≤ 7) :
    decDayNum neg nc (fmtNat n ++ fmtDay d) = .ok ⟨d, if neg then -(n : Int) else n⟩ := by
  obtain ⟨a, b, hab, ha, _⟩ := fmtDay_two d h3 h4
  have hi := fmtDay_index h3 h4
  rcases fmtNat_small n h1 h2 with ⟨c, hc, e, hv⟩ | ⟨c, c2, hc, hc2, e, hv⟩
  · rw [e, hab]
    simp only [List.cons_append, List.nil_append, decDayNum]
    rw [if_pos hc]
    simp only [ha, Bool.false_eq_true, if_false, hv]
    rw [if_neg (by omega), ← hab, decDayName, hi]
    simp only
    rw [show d - 1 + 1 = d by omega]
  · rw [e, hab]
    simp only [List.cons_append, List.nil_append, decDayNum]
    rw [if_pos hc]
    simp only [hc2, if_true, hv]
    rw [if_neg (by omega), ← hab, decDayName, hi]
    simp only
    rw [show d - 1 + 1 = d by omega]

theorem fmtNat_head (n : Nat) : ∃ c r, fmtNat n = c :: r ∧ isDigit c = true := by
  cases h : fmtNat n with
  | nil => exact absurd h (fmtNat_ne_nil n)
  | cons c r => exact ⟨c, r, rfl, fmtNat_head_isDigit h⟩

theorem decDay_fmt (x : DayRecur) (h3 : 1 ≤ x.day) (h4 : x.day ≤ 7) (h : x.occ = 0 ∨ Ordinal 53 x.occ) :
    decDay (fmtDayRecur x) = .ok x := by
  obtain ⟨d, o⟩ := x
  simp only at h3 h4 h
  obtain ⟨a, b, hab, ha, hp, hm⟩ := fmtDay_two d h3 h4
  unfold fmtDayRecur
  simp only
  by_cases ho : o = 0
  · subst ho
    rw [if_neg (by simp), List.nil_append]
    unfold decDay
    rw [hab, if_neg (by simp)]
    split
    · next e => injection e with e; exact absurd e hp
    · next e => injection e with e; exact absurd e hm
    · simp only [decDayNum]
      rw [if_neg (by simp [ha]), if_pos trivial, ← hab, decDayName, fmtDay_index h3 h4]
      simp only
      rw [show d - 1 + 1 = d by omega]
  · rw [if_pos ho]
    obtain ⟨c, r, hc, hd⟩ := fmtNat_head o.natAbs
    have hcn := isDigit_not hd
    have hlen : (fmtDay d).length = 2 := by rw [hab]; rfl
    rcases h with h | h | h
    · exact absurd h ho
    · unfold fmtInt
      rw [if_neg (by omega)]
      have := decDayNum_fmt false true o.natAbs d (by omega) (by omega) h3 h4
      unfold decDay
      rw [if_neg (by rw [List.length_append, hlen]; omega)]
      rw [hc] at this ⊢
      split
      · next e => injection e with e; exact absurd e hcn.2.2.2.2.1
      · next e => injection e with e; exact absurd e hcn.2.2.2.1
      · rw [this]
        simp only [Bool.false_eq_true, if_false]
        rw [show ((o.natAbs : Nat) : Int) = o by omega]
    · unfold fmtInt
      rw [if_pos (by omega)]
      have := decDayNum_fmt true false o.natAbs d (by omega) (by omega) h3 h4
      unfold decDay
      rw [if_neg (by rw [List.length_append, hlen]; omega)]
      simp only [List.cons_append]
      rw [if_neg (by rw [List.length_append, hlen]; omega), this]
      simp only [if_true]
      rw [show -((o.natAbs : Nat) : Int) = o by omega]

theorem mapRes_map {α : Type} (dec : Str → Res α) (f : α → Str) : ∀ (l : List α), (∀ x ∈ l, dec (f x) = .ok x) →
    mapRes dec (l.map f) = .ok l := by
  intro l
  induction l with
  | nil => intro _; rfl
  | cons a l ih =>
    intro h
    rw [List.map_cons, mapRes, h a (by simp), Res.ok_bind, ih (fun x hx => h x (by simp [hx]))]
    rfl

theorem list_decode {α : Type} (dec : Str → Res α) (f : α → Str) (l : List α) (hl : l ≠ []) (h : ∀ x ∈ l, dec (f x) = .ok x)
    (hc : ∀ x, ',' ∉ f x) : mapRes dec (splitOn ',' (join [','] (l.map f))) = .ok l := by
  rw [splitOn_join ',' _ (by simpa using hl) (by intro w hw; obtain ⟨x, _, rfl⟩ := List.mem_map.1 hw; exact hc x)]
  exact mapRes_map dec f l h

/-! ## Round trip -/

theorem Recur.loop_part (E : Env) (p : Nat) (tz : Option Str) (st : RState) (name v : Str) (k : RKey) (ps : List Str)
    (hk : rkeys.lookup name = some k) (hn : '=' ∉ name) :
    Recur.loop E p tz st ((name ++ '=' :: v) :: ps) = Recur.part E p tz st v k >>= fun st' => Recur.loop E p tz st' ps := by
  rw [Recur.loop, split2_append '=' name v hn]
  simp only [hk]

theorem Recur.loop_list {α : Type} (E : Env) (p : Nat) (tz : Option Str) (st st' : RState) (name : Str) (k : RKey) (ps : List Str)
    (f : α → Str) (l : List α) (hk : rkeys.lookup name = some k) (hn : '=' ∉ name) (h0 : l = [] → st = st')
    (h1 : l ≠ [] → Recur.part E p tz st (join [','] (l.map f)) k = .ok st') :
    Recur.loop E p tz st (encList name f l ++ ps) = Recur.loop E p tz st' ps := by
  cases l with
  | nil => rw [h0 rfl]; rfl
  | cons x l =>
    have := h1 (by simp)
    simp only [encList, List.cons_append, List.nil_append]
    rw [Recur.loop_part E p tz st name _ k ps hk hn, this, Res.ok_bind]

/-- What survives of the UNTIL of a rule: a date-time or a date that comes back, or nothing. -/
structure UntilOk (E : Env) (r : Recur) : Prop where
  zero : r.until_.isZero = true → r.until_ = {} ∧ r.untilTime = false
  time : r.until_.isZero = false → r.untilTime = true → r.until_.nsec = 0 ∧ 0 ≤ yearOfWall (r.until_.wall E) ∧
    yearOfWall (r.until_.wall E) ≤ 9999 ∧ LocOk E r.until_.loc ∧ instant E r.until_.loc (r.until_.wall E) = r.until_.sec
  date : r.until_.isZero = false → r.untilTime = false → r.until_.nsec = 0 ∧ r.until_.loc = .utc ∧ r.until_.sec % 86400 = 0 ∧
    0 ≤ yearOfWall r.until_.sec ∧ yearOfWall r.until_.sec ≤ 9999

def Recur.withPtr (p : Nat) (r : Recur) : Recur := { r with until_ := { r.until_ with loc := r.until_.loc.withPtr p } }

theorem fmtDate8_length {n : Int} (h1 : 0 ≤ (civil n).1) (h2 : (civil n).1 ≤ 9999) : (fmtDate8 n).length = 8 := by
  obtain ⟨⟨a, b, c, e, ha, hb, hc, _⟩, _⟩ := fmtDate8_text n h1 h2
  have e1 := ha.2
  have e2 := hb.2
  have e3 := hc.2
  rw [e]
  simp only [List.length_append]
  omega

theorem DateTime.encode_length (E : Env) (t : GoTime) (h1 : 0 ≤ yearOfWall (t.wall E)) (h2 : yearOfWall (t.wall E) ≤ 9999) :
    15 ≤ (DateTime.encode E t).length := by
  unfold DateTime.encode
  simp only [List.length_append, List.length_cons, fmtDate8_length h1 h2, fmtClock, dd]
  simp

theorem Date.encode_length (E : Env) (t : GoTime) (h1 : 0 ≤ yearOfWall (t.wall E)) (h2 : yearOfWall (t.wall E) ≤ 9999) :
    (Date.encode E t).length = 8 := fmtDate8_length h1 h2

theorem Recur.decode_encode (E : Env) (p : Nat) (r : Recur) (h : RecurInRange r) (hu : UntilOk E r) :
    Recur.decode E p (tzidOf r.until_.loc) (Recur.encode E r) = .ok (r.withPtr p) := by
  have hsplit : splitOn ';' (Recur.encode E r) = r.parts E := by
    refine splitOn_join ';' _ (by simp [Recur.parts]) ?_
    intro w hw hc
    have := parts_mem hw hc
    revert this
    decide
  unfold Recur.decode
  rw [hsplit]
  have hcd : ∀ x : DayRecur, ',' ∉ fmtDayRecur x := fun x hx => (fmtDayRecur_mem hx).2 rfl
  have hcn : ∀ x : Nat, ',' ∉ fmtNat x := fun x hx => (fmtNat_part hx).2 rfl
  have hci : ∀ x : Int, ',' ∉ fmtInt x := fun x hx => (fmtInt_part hx).2 rfl
  obtain ⟨freq, ws, ut, u, cnt, iv, bs, bm, bh, bd, bmd, byd, bwn, bmo, bsp⟩ := r
  obtain ⟨h1, h2, h3, h4, h5, h6, h7, h8, h9, h10, h11, h12, h13, h14⟩ := h
  obtain ⟨u1, u2, u3⟩ := hu
  simp only at h1 h2 h3 h4 h5 h6 h7 h8 h9 h10 h11 h12 h13 h14 u1 u2 u3
  unfold Recur.parts
  simp only [List.append_assoc, Recur.withPtr]
  rw [List.singleton_append]
  generalize htz : tzidOf u.loc = tz
  -- FREQ
  have e := Recur.loop_part E p tz ({}, false) c!"FREQ" (fmtFreq freq) .freq
  rw [show c!"FREQ=" ++ fmtFreq freq = c!"FREQ" ++ '=' :: fmtFreq freq by simp, e _ (by decide) (by decide)]
  simp only [Recur.part, fmtFreq_index h1, Res.ok_bind]
  clear e
  -- COUNT or UNTIL
  have hcu : ∀ ps, Recur.loop E p tz ({ freq := freq }, true) ((if cnt ≠ 0 then [c!"COUNT=" ++ fmtNat cnt]
      else if (!u.isZero) = true then [c!"UNTIL=" ++ (if ut then DateTime.encode E u else Date.encode E u)] else []) ++ ps) =
      Recur.loop E p tz ({ freq := freq, untilTime := ut, until_ := { u with loc := u.loc.withPtr p }, count := cnt }, true) ps := by
    intro ps
    by_cases hc : cnt = 0
    · rw [if_neg (by simp [hc])]
      subst hc
      by_cases hz : u.isZero = true
      · obtain ⟨z1, z2⟩ := u1 hz
        subst z1; subst z2
        rfl
      · rw [Bool.not_eq_true] at hz
        rw [if_pos (by simp [hz]), List.singleton_append]
        have e := Recur.loop_part E p tz ({ freq := freq }, true) c!"UNTIL" (if ut then DateTime.encode E u else Date.encode E u) .until
        rw [show c!"UNTIL=" ++ (if ut then DateTime.encode E u else Date.encode E u) =
          c!"UNTIL" ++ '=' :: (if ut then DateTime.encode E u else Date.encode E u) by simp, e _ (by decide) (by decide)]
        cases ut with
        | true =>
          obtain ⟨a1, a2, a3, a4, a5⟩ := u2 hz rfl
          have hl := DateTime.encode_length E u a2 a3
          have hd := DateTime.decode_encode E p u a1 a2 a3 a4 a5
          rw [htz] at hd
          simp only [if_true, Recur.part]
          rw [if_neg (by simp), if_pos (by omega), hd]
          rfl
        | false =>
          obtain ⟨a1, a2, a3, a4, a5⟩ := u3 hz rfl
          have hw : u.wall E = u.sec := by simp [GoTime.wall, locOff, a2]
          have hl := Date.encode_length E u (by rw [hw]; exact a4) (by rw [hw]; exact a5)
          have hd := Date.decode_encode E u a1 a2 a3 a4 a5
          simp only [Bool.false_eq_true, if_false, Recur.part]
          rw [if_neg (by simp), if_neg (by omega), hd]
          simp only [Res.ok_bind]
          rw [a2]
          simp only [Loc.withPtr]
          rw [← a2]
    · rw [if_pos hc, List.singleton_append]
      have hz : u.isZero = true := by
        rcases h3 with h3 | h3
        · exact absurd h3 hc
        · exact h3
      obtain ⟨z1, z2⟩ := u1 hz
      subst z1; subst z2
      have e := Recur.loop_part E p tz ({ freq := freq }, true) c!"COUNT" (fmtNat cnt) .count
      rw [show c!"COUNT=" ++ fmtNat cnt = c!"COUNT" ++ '=' :: fmtNat cnt by simp, e _ (by decide) (by decide)]
      simp only [Recur.part]
      rw [if_neg (by decide), parseUint_fmtNat h4]
      rfl
  rw [hcu]
  clear hcu u1 u2 u3 htz h3
  generalize { u with loc := u.loc.withPtr p } = u'
  -- INTERVAL
  have hiv : ∀ ps, Recur.loop E p tz ({ freq := freq, untilTime := ut, until_ := u', count := cnt }, true)
      ((if iv ≠ 0 then [c!"INTERVAL=" ++ fmtNat iv] else []) ++ ps) =
      Recur.loop E p tz ({ freq := freq, untilTime := ut, until_ := u', count := cnt, interval := iv }, true) ps := by
    intro ps
    by_cases hc : iv = 0
    · subst hc; rfl
    · rw [if_pos hc, List.singleton_append]
      have e := Recur.loop_part E p tz ({ freq := freq, untilTime := ut, until_ := u', count := cnt }, true) c!"INTERVAL" (fmtNat iv) .interval
      rw [show c!"INTERVAL=" ++ fmtNat iv = c!"INTERVAL" ++ '=' :: fmtNat iv by simp, e _ (by decide) (by decide)]
      simp only [Recur.part]
      rw [if_neg (by simp), parseUint_fmtNat h5]
      rfl
  rw [hiv]
  clear hiv
  rw [Recur.loop_list E p tz _ ({ freq := freq, untilTime := ut, until_ := u', count := cnt, interval := iv, bySecond := bs }, true)
    c!"BYSECOND" .bySecond _ fmtNat bs (by decide) (by decide) (by rintro rfl; rfl) (fun hl => by
      simp only [Recur.part, once, list_decode (decU 0 60) fmtNat bs hl (fun x hx => decU_fmt (by omega) (h6 x hx) (by omega)) hcn]; rfl)]
  rw [Recur.loop_list E p tz _ ({ freq := freq, untilTime := ut, until_ := u', count := cnt, interval := iv, bySecond := bs, byMinute := bm }, true)
    c!"BYMINUTE" .byMinute _ fmtNat bm (by decide) (by decide) (by rintro rfl; rfl) (fun hl => by
      simp only [Recur.part, once, list_decode (decU 0 59) fmtNat bm hl (fun x hx => decU_fmt (by omega) (h7 x hx) (by omega)) hcn]; rfl)]
  rw [Recur.loop_list E p tz _ ({ freq := freq, untilTime := ut, until_ := u', count := cnt, interval := iv, bySecond := bs, byMinute := bm, byHour := bh }, true)
    c!"BYHOUR" .byHour _ fmtNat bh (by decide) (by decide) (by rintro rfl; rfl) (fun hl => by
      simp only [Recur.part, once, list_decode (decU 0 23) fmtNat bh hl (fun x hx => decU_fmt (by omega) (h8 x hx) (by omega)) hcn]; rfl)]
  rw [Recur.loop_list E p tz _ ({ freq := freq, untilTime := ut, until_ := u', count := cnt, interval := iv, bySecond := bs, byMinute := bm, byHour := bh, byDay := bd }, true)
    c!"BYDAY" .byDay _ fmtDayRecur bd (by decide) (by decide) (by rintro rfl; rfl) (fun hl => by
      simp only [Recur.part, once, list_decode decDay fmtDayRecur bd hl (fun x hx => decDay_fmt x (h9 x hx).1.1 (h9 x hx).1.2 (h9 x hx).2) hcd]; rfl)]
  rw [Recur.loop_list E p tz _ ({ freq := freq, untilTime := ut, until_ := u', count := cnt, interval := iv, bySecond := bs, byMinute := bm, byHour := bh, byDay := bd, byMonthDay := bmd }, true)
    c!"BYMONTHDAY" .byMonthDay _ fmtInt bmd (by decide) (by decide) (by rintro rfl; rfl) (fun hl => by
      simp only [Recur.part, once, list_decode (decI 8 31) fmtInt bmd hl (fun x hx => decI_fmt (by omega) (h10 x hx)) hci]; rfl)]
  rw [Recur.loop_list E p tz _ ({ freq := freq, untilTime := ut, until_ := u', count := cnt, interval := iv, bySecond := bs, byMinute := bm, byHour := bh, byDay := bd, byMonthDay := bmd, byYearDay := byd }, true)
    c!"BYYEARDAY" .byYearDay _ fmtInt byd (by decide) (by decide) (by rintro rfl; rfl) (fun hl => by
      simp only [Recur.part, once, list_decode (decI 16 366) fmtInt byd hl (fun x hx => decI_fmt (by omega) (h11 x hx)) hci]; rfl)]
  rw [Recur.loop_list E p tz _ ({ freq := freq, untilTime := ut, until_ := u', count := cnt, interval := iv, bySecond := bs, byMinute := bm, byHour := bh, byDay := bd, byMonthDay := bmd, byYearDay := byd, byWeekNum := bwn }, true)
    c!"BYWEEKNO" .byWeekNum _ fmtInt bwn (by decide) (by decide) (by rintro rfl; rfl) (fun hl => by
      simp only [Recur.part, once, list_decode (decI 8 53) fmtInt bwn hl (fun x hx => decI_fmt (by omega) (h12 x hx)) hci]; rfl)]
  rw [Recur.loop_list E p tz _ ({ freq := freq, untilTime := ut, until_ := u', count := cnt, interval := iv, bySecond := bs, byMinute := bm, byHour := bh, byDay := bd, byMonthDay := bmd, byYearDay := byd, byWeekNum := bwn, byMonth := bmo }, true)
    c!"BYMONTH" .byMonth _ fmtNat bmo (by decide) (by decide) (by rintro rfl; rfl) (fun hl => by
      simp only [Recur.part, once, list_decode (decU 1 12) fmtNat bmo hl (fun x hx => decU_fmt (h13 x hx).1 (h13 x hx).2 (by omega)) hcn]; rfl)]
  rw [Recur.loop_list E p tz _ ({ freq := freq, untilTime := ut, until_ := u', count := cnt, interval := iv, bySecond := bs, byMinute := bm, byHour := bh, byDay := bd, byMonthDay := bmd, byYearDay := byd, byWeekNum := bwn, byMonth := bmo, bySetPos := bsp }, true)
    c!"BYSETPOS" .bySetPos _ fmtInt bsp (by decide) (by decide) (by rintro rfl; rfl) (fun hl => by
      simp only [Recur.part, once, list_decode (decI 16 366) fmtInt bsp hl (fun x hx => decI_fmt (by omega) (h14 x hx)) hci]; rfl)]
  -- WKST
  by_cases hw : ws = 0
  · subst hw; rfl
  · rw [if_pos hw]
    have e := Recur.loop_part E p tz ({ freq := freq, untilTime := ut, until_ := u', count := cnt, interval := iv, bySecond := bs, byMinute := bm, byHour := bh, byDay := bd, byMonthDay := bmd, byYearDay := byd, byWeekNum := bwn, byMonth := bmo, bySetPos := bsp }, true) c!"WKST" (fmtDay ws) .weekStart
    rw [show c!"WKST=" ++ fmtDay ws = c!"WKST" ++ '=' :: fmtDay ws by simp, e _ (by decide) (by decide)]
    simp only [Recur.part]
    rw [if_neg (by simp), fmtDay_index (by omega) h2]
    simp only [Res.ok_bind, Recur.loop, show ws - 1 + 1 = ws by omega]
    rfl

end Ics
