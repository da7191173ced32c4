import Verif.WriterLemmas
/-!
# How many calls of the caller's writer one Write of the folder makes
-/

namespace Ics

/-- The calls `new` were made for `n` octets, with `m` folds.  Not in /repo: an invariant for folder.go:28-61. -/
def CallsFor (n m : Nat) (new : List Bytes) : Prop :=
  new.flatten.length = n + 3 * m ∧ (n = 0 → new = [] ∧ m = 0) ∧ (n ≠ 0 → 1 + m ≤ new.length ∧ new.length ≤ 1 + 2 * m)

theorem finish_count (f : WFolder) (n : Nat) (q : Bytes) (he : f.err = none) : ∃ new, (WFolder.finish taker f n q).1.log = f.log ++ new ∧ (WFolder.finish taker f n q).1.err = none ∧
    CallsFor q.length 0 new := by
  unfold WFolder.finish
  by_cases hq : q = []
  · subst hq
    exact ⟨[], by simp, by simpa using he, by simp [CallsFor]⟩
  · rw [if_pos hq, taker_sink]
    have : 0 < q.length := List.length_pos_iff.2 hq
    exact ⟨[q], rfl, rfl, by simp [CallsFor, hq]⟩

theorem loop_count : ∀ (fuel : Nat) (f : WFolder) (n : Nat) (pre suf : Bytes), f.err = none → suf.length ≤ fuel →
    ∃ m new, (WFolder.loop taker fuel f n pre suf).1.log = f.log ++ new ∧ (WFolder.loop taker fuel f n pre suf).1.err = none ∧ CallsFor (pre.length + suf.length) m new := by
  intro fuel
  induction fuel with
  | zero =>
    intro f n pre suf he hl
    have : suf = [] := List.length_eq_zero_iff.1 (by omega)
    subst this
    obtain ⟨new, h1, h2, h3⟩ := finish_count f n pre he
    exact ⟨0, new, h1, h2, h3⟩
  | succ fuel ih =>
    intro f n pre suf he hl
    cases suf with
    | nil =>
      obtain ⟨new, h1, h2, h3⟩ := finish_count f n pre he
      exact ⟨0, new, h1, h2, h3⟩
    | cons b suf =>
      have hs := decodeRune_size b suf
      rw [WFolder.loop]
      generalize decodeRune (b :: suf) = d at hs
      obtain ⟨r, s⟩ := d
      simp only at hs ⊢
      have hsum : ((b :: suf).take s).length + ((b :: suf).drop s).length = (b :: suf).length := by
        rw [← List.length_append, List.take_append_drop]
      have htl : ((b :: suf).take s).length = min s (b :: suf).length := List.length_take
      have hdl : ((b :: suf).drop s).length ≤ fuel := by
        rw [List.length_drop]
        simp only [List.length_cons] at hl ⊢
        omega
      have go : ∀ l : UInt8, ∃ m new, (WFolder.loop taker fuel { f with line := l } n (pre ++ (b :: suf).take s) ((b :: suf).drop s)).1.log = f.log ++ new ∧
          (WFolder.loop taker fuel { f with line := l } n (pre ++ (b :: suf).take s) ((b :: suf).drop s)).1.err = none ∧ CallsFor (pre.length + (b :: suf).length) m new := by
        intro l
        obtain ⟨m, new, h1, h2, h3⟩ := ih { f with line := l } n (pre ++ (b :: suf).take s) ((b :: suf).drop s) he hdl
        refine ⟨m, new, h1, h2, ?_⟩
        rw [List.length_append, Nat.add_assoc, hsum] at h3
        exact h3
      by_cases h10 : r = 10
      · rw [if_pos h10]
        exact go _
      · rw [if_neg h10]
        by_cases h13 : r = 13
        · rw [if_pos h13]
          exact go _
        · rw [if_neg h13]
          by_cases hline : f.line + UInt8.ofNat s > maxLineLength
          · rw [if_pos hline]
            by_cases hp : pre = []
            · subst hp
              simp only [ne_eq, not_true, if_false, he, Option.isSome_none, Bool.false_eq_true, taker_sink]
              obtain ⟨m, new, h1, h2, h3⟩ := ih ⟨UInt8.ofNat s + 1, none, f.log ++ [eol], f.out ++ eol⟩ (n + 0) ((b :: suf).take s) ((b :: suf).drop s) rfl hdl
              refine ⟨m + 1, eol :: new, by rw [h1]; simp, h2, ?_⟩
              rw [hsum] at h3
              obtain ⟨k1, _, k3⟩ := h3
              have k3 := k3 (by simp)
              refine ⟨?_, by simp, fun _ => ?_⟩
              · simp only [List.flatten_cons, List.length_append, k1, List.length_nil]
                have : eol.length = 3 := rfl
                omega
              · simp only [List.length_cons]
                omega
            · simp only [ne_eq, hp, not_false_eq_true, if_true, Option.isSome_none, Bool.false_eq_true, if_false, taker_sink]
              obtain ⟨m, new, h1, h2, h3⟩ := ih ⟨UInt8.ofNat s + 1, none, f.log ++ [pre] ++ [eol], f.out ++ pre ++ eol⟩ (n + pre.length) ((b :: suf).take s) ((b :: suf).drop s) rfl hdl
              refine ⟨m + 1, pre :: eol :: new, by rw [h1]; simp, h2, ?_⟩
              rw [hsum] at h3
              obtain ⟨k1, _, k3⟩ := h3
              have k3 := k3 (by simp)
              have hpl : 0 < pre.length := List.length_pos_iff.2 hp
              refine ⟨?_, by omega, fun _ => ?_⟩
              · simp only [List.flatten_cons, List.length_append, k1]
                have : eol.length = 3 := rfl
                omega
              · simp only [List.length_cons]
                omega
          · rw [if_neg hline]
            exact go _

theorem writes_count : ∀ (qs : List Bytes) (f : WFolder), f.err = none →
    ∃ m new, (f.writes taker qs).log = f.log ++ new ∧ (f.writes taker qs).err = none ∧ new.flatten.length = qs.flatten.length + 3 * m ∧
      (qs.filter (· ≠ [])).length + m ≤ new.length ∧ new.length ≤ (qs.filter (· ≠ [])).length + 2 * m := by
  intro qs
  induction qs with
  | nil => intro f he; exact ⟨0, [], by simp [WFolder.writes], by simpa [WFolder.writes] using he, by simp⟩
  | cons q qs ih =>
    intro f he
    obtain ⟨m, new, h1, h2, h3, h4, h5⟩ := loop_count q.length f 0 [] q he (Nat.le_refl _)
    have hw : (f.write taker q).1 = (WFolder.loop taker q.length f 0 [] q).1 := by
      unfold WFolder.write
      rw [he]
      rfl
    obtain ⟨m', new', g1, g2, g3, g4, g5⟩ := ih (f.write taker q).1 (by rw [hw]; exact h2)
    have e1 : f.writes taker (q :: qs) = ((f.write taker q).1).writes taker qs := rfl
    refine ⟨m + m', new ++ new', ?_, by rw [e1]; exact g2, ?_, ?_⟩
    · rw [e1, g1, hw, h1, List.append_assoc]
    · simp only [List.flatten_append, List.flatten_cons, List.length_append, h3, g3, List.length_nil]
      omega
    · simp only [List.length_nil, Nat.zero_add] at h4 h5
      by_cases hq : q = []
      · subst hq
        obtain ⟨rfl, rfl⟩ := h4 rfl
        rw [List.filter_cons_of_neg (by simp), List.nil_append, Nat.zero_add]
        exact ⟨g4, g5⟩
      · have h6 := h5 (fun h => hq (List.length_eq_zero_iff.1 h))
        rw [List.filter_cons_of_pos (by simpa using hq)]
        simp only [List.length_cons, List.length_append]
        omega

end Ics
