import Verif.RetryLemmas
/-!
# Octets in front of a calendar

Lemmas for C120: what is left of a calendar may break off in a character or in a fold.
-/

namespace Ics

open Spec

/-- No fold reaches over a letter. -/
theorem removeFolds_letter {l : UInt8} (l2 : l ≠ 10) (l3 : l ≠ 32) (w : Bytes) : ∀ (n : Nat) (a : Bytes), a.length ≤ n → removeFolds (a ++ l :: w) = removeFolds a ++ removeFolds (l :: w) := by
  have h66 : ∀ {x y : UInt8} {r u : Bytes}, x :: l :: r ≠ 13 :: 10 :: 32 :: u ∧ x :: y :: l :: r ≠ 13 :: 10 :: 32 :: u := by
    intro x y r u
    constructor <;> (intro h; simp [l2, l3] at h)
  intro n
  induction n with
  | zero =>
    intro a h
    have : a = [] := List.length_eq_zero_iff.1 (by omega)
    subst this
    rfl
  | succ n ih =>
    intro a h
    match a, h with
    | [], _ => rfl
    | [x], _ =>
      rw [List.cons_append, List.nil_append, removeFolds_ne _ _ (fun r => (h66 (y := 0)).1)]
      rfl
    | [x, y], _ =>
      rw [List.cons_append, List.cons_append, List.nil_append, removeFolds_ne _ _ (fun r => h66.2), removeFolds_ne _ _ (fun r => (h66 (y := 0)).1)]
      rfl
    | x :: y :: z :: r, h =>
      simp only [List.length_cons] at h
      simp only [List.cons_append]
      rw [removeFolds, removeFolds]
      split
      · exact ih r (by omega)
      · have := ih (y :: z :: r) (by simp; omega)
        simp only [List.cons_append] at this
        rw [this]
        rfl

theorem removeFolds_meet (w : Bytes) (n : Nat) (a : Bytes) (h : a.length ≤ n) : removeFolds (a ++ 66 :: w) = removeFolds a ++ removeFolds (66 :: w) :=
  removeFolds_letter (by decide) (by decide) w n a h

theorem runesF_cont' (R : Bytes) : ∀ (w : Bytes), (∀ b ∈ w, 128 ≤ b.toNat ∧ b.toNat < 192) → ∀ f, runesF (f + w.length) (w ++ R) = List.replicate w.length '�' ++ runesF f R := by
  intro w
  induction w with
  | nil => intro _ f; rfl
  | cons b r ih =>
    intro hw f
    have hb := hw b (by simp)
    have hd : decodeRune (b :: (r ++ R)) = badRune := by
      unfold decodeRune
      simp only
      rw [if_neg (by omega), if_pos (by omega)]
    rw [List.length_cons, ← Nat.add_assoc, List.cons_append, runesF, hd]
    simp only [badRune, List.drop_succ_cons, List.drop_zero]
    rw [ih (fun x hx => hw x (by simp [hx])) f]
    rfl

/-- The first octets of a character, and a letter behind: the octets count as invalid, one by one. -/
theorem runesF_cut {c : Char} {w v : Bytes} (h : encodeChar c = w ++ v) (hv : v ≠ []) (R : Bytes) (f : Nat) :
    runesF (f + w.length) (w ++ 66 :: R) = List.replicate w.length '�' ++ runesF f (66 :: R) := by
  cases w with
  | nil => rfl
  | cons b r =>
    have hc := char_range c
    have i66 : ∀ {x y : Nat}, 80 ≤ x → inRange 66 x y = false := by
      intro x y h
      simp only [inRange, Bool.and_eq_false_iff, decide_eq_false_iff_not]
      left
      have : (66 : UInt8).toNat = 66 := by decide
      omega
    have key : (∀ x ∈ r, 128 ≤ x.toNat ∧ x.toNat < 192) ∧ decodeRune (b :: (r ++ 66 :: R)) = badRune := by
      unfold encodeChar at h
      simp only at h
      split at h
      · simp only [List.cons_append, List.cons.injEq] at h
        exact absurd (List.append_eq_nil_iff.1 h.2.symm).2 hv
      split at h
      · match r, h with
        | [], h =>
          simp only [List.cons_append, List.nil_append, List.cons.injEq] at h
          obtain ⟨rfl, _⟩ := h
          have e := byte_toNat (n := 0xC0 + c.toNat / 64) (by omega)
          refine ⟨by simp, ?_⟩
          unfold decodeRune
          simp only [e, List.nil_append]
          rw [if_neg (by omega), if_neg (by omega), if_pos (by omega), i66 (by decide)]
          rfl
        | x :: r, h =>
          simp only [List.cons_append, List.cons.injEq] at h
          exact absurd (List.append_eq_nil_iff.1 h.2.2.symm).2 hv
      split at h
      · match r, h with
        | [], h =>
          simp only [List.cons_append, List.nil_append, List.cons.injEq] at h
          obtain ⟨rfl, _⟩ := h
          have e := byte_toNat (n := 0xE0 + c.toNat / 4096) (by omega)
          refine ⟨by simp, ?_⟩
          unfold decodeRune
          simp only [e, List.nil_append]
          rw [if_neg (by omega), if_neg (by omega), if_neg (by omega), if_pos (by omega)]
          cases R
          · rfl
          · simp only
            rw [i66 (by split <;> decide)]
            rfl
        | [x], h =>
          simp only [List.cons_append, List.nil_append, List.cons.injEq] at h
          obtain ⟨rfl, rfl, _⟩ := h
          have e := byte_toNat (n := 0xE0 + c.toNat / 4096) (by omega)
          have e2 := byte_toNat (n := 0x80 + c.toNat / 64 % 64) (by omega)
          refine ⟨?_, ?_⟩
          · simp only [List.mem_singleton, forall_eq, e2]; omega
          unfold decodeRune
          simp only [e, List.cons_append, List.nil_append]
          rw [if_neg (by omega), if_neg (by omega), if_neg (by omega), if_pos (by omega), i66 (by decide), Bool.and_false]
          rfl
        | x :: y :: r, h =>
          simp only [List.cons_append, List.cons.injEq] at h
          exact absurd (List.append_eq_nil_iff.1 h.2.2.2.symm).2 hv
      · match r, h with
        | [], h =>
          simp only [List.cons_append, List.nil_append, List.cons.injEq] at h
          obtain ⟨rfl, _⟩ := h
          have e := byte_toNat (n := 0xF0 + c.toNat / 262144) (by omega)
          refine ⟨by simp, ?_⟩
          unfold decodeRune
          simp only [e, List.nil_append]
          rw [if_neg (by omega), if_neg (by omega), if_neg (by omega), if_neg (by omega), if_pos (by omega)]
          match R with
          | [] => rfl
          | [_] => rfl
          | _ :: _ :: _ =>
            simp only
            rw [i66 (by split <;> decide)]
            rfl
        | [x], h =>
          simp only [List.cons_append, List.nil_append, List.cons.injEq] at h
          obtain ⟨rfl, rfl, _⟩ := h
          have e := byte_toNat (n := 0xF0 + c.toNat / 262144) (by omega)
          have e2 := byte_toNat (n := 0x80 + c.toNat / 4096 % 64) (by omega)
          refine ⟨?_, ?_⟩
          · simp only [List.mem_singleton, forall_eq, e2]; omega
          unfold decodeRune
          simp only [e, List.cons_append, List.nil_append]
          rw [if_neg (by omega), if_neg (by omega), if_neg (by omega), if_neg (by omega), if_pos (by omega)]
          cases R
          · rfl
          · simp only
            rw [i66 (x := 128) (by decide), Bool.and_false]
            rfl
        | [x, y], h =>
          simp only [List.cons_append, List.nil_append, List.cons.injEq] at h
          obtain ⟨rfl, rfl, rfl, _⟩ := h
          have e := byte_toNat (n := 0xF0 + c.toNat / 262144) (by omega)
          have e2 := byte_toNat (n := 0x80 + c.toNat / 4096 % 64) (by omega)
          have e3 := byte_toNat (n := 0x80 + c.toNat / 64 % 64) (by omega)
          refine ⟨?_, ?_⟩
          · simp only [List.mem_cons, List.not_mem_nil, or_false, forall_eq_or_imp, forall_eq, e2, e3]; omega
          unfold decodeRune
          simp only [e, List.cons_append, List.nil_append]
          rw [if_neg (by omega), if_neg (by omega), if_neg (by omega), if_neg (by omega), if_pos (by omega), i66 (x := 128) (by decide), Bool.and_false]
          rfl
        | x :: y :: z :: r, h =>
          simp only [List.cons_append, List.cons.injEq] at h
          exact absurd (List.append_eq_nil_iff.1 h.2.2.2.2.symm).2 hv
    obtain ⟨k2, k3⟩ := key
    rw [List.length_cons, ← Nat.add_assoc, List.cons_append, runesF, k3]
    simp only [badRune, List.drop_succ_cons, List.drop_zero]
    rw [runesF_cont' _ r k2 f]
    rfl

theorem runesF_append_fuel (s : Str) (w : Bytes) : ∀ f : Nat, (utf8 s).length ≤ f → ∃ f', runesF f (utf8 s ++ w) = s ++ runesF f' w ∧ f ≤ f' + (utf8 s).length := by
  induction s with
  | nil => intro f _; exact ⟨f, rfl, Nat.le_add_right _ _⟩
  | cons c cs ih =>
    intro f h
    rw [utf8_cons] at h ⊢
    have hl := encodeChar_length c
    rw [List.length_append] at h
    rcases f with _ | f
    · omega
    rcases he : encodeChar c with _ | ⟨b, r⟩
    · exact absurd he (encodeChar_ne_nil c)
    have hd := decodeRune_encodeChar c (utf8 cs ++ w)
    rw [he] at hd
    obtain ⟨f', hf', hle⟩ := ih f (by omega)
    refine ⟨f', ?_, by rw [List.length_append, List.length_cons]; omega⟩
    simp only [List.cons_append, List.append_assoc] at hd ⊢
    simp only [runesF, hd]
    rw [Char_ofNat_toNat]
    congr 1
    have : (b :: (r ++ (utf8 cs ++ w))).drop (b :: r).length = utf8 cs ++ w := by
      rw [← List.cons_append, List.drop_left]
    rw [this, hf']

/-- Octets of a folded text cut off, and another text behind: characters of the first text, then what is left of a character or of a fold, then the second text. -/
theorem unfold_meet {s t : Str} (h : FoldOf s t) (hno : ¬ ['\r', '\n', ' '] <:+: s) {b : Bytes} (hb : b <+: utf8 t) (hlt : b.length < (utf8 t).length) {F : Bytes} {u : Str}
    (hF : removeFolds (66 :: F) = utf8 ('B' :: u)) :
    ∃ p y, runes (removeFolds (b ++ 66 :: F)) = p ++ (y ++ 'B' :: u) ∧ p <+: s ∧ p ≠ s ∧
      (((∀ c ∈ y, c = '�') ∧ (y = [] → removeFolds b = utf8 p)) ∨ y = ['\r'] ∨ (y = ['\r', '\n'] ∧ ∃ d, d ≠ '\n' ∧ d ≠ '\r' ∧ p ++ [d] <+: s)) := by
  obtain ⟨t1, c, t2, w, v, h1, h2, h3, h4⟩ := utf8_cut hb hlt
  obtain ⟨w1, w2⟩ := encodeChar_cut h3 h4
  obtain ⟨pre, s2, x, g1, g2, g3, g4⟩ := h.cut h1 hno
  have hrb : removeFolds b = utf8 (pre ++ x) ++ w := by
    rw [h2, removeFolds_append' w w1 _ _ (Nat.le_refl _), removeFolds_utf8 _ _ (Nat.le_refl _), g2]
  have hr : removeFolds (b ++ 66 :: F) = utf8 (pre ++ x) ++ (w ++ utf8 ('B' :: u)) := by
    rw [removeFolds_meet _ _ _ (Nat.le_refl _), hrb, hF, List.append_assoc]
  have hB : utf8 ('B' :: u) = 66 :: utf8 u := rfl
  have hrunes : runes (removeFolds (b ++ 66 :: F)) = (pre ++ x) ++ (List.replicate w.length '�' ++ 'B' :: u) := by
    unfold runes
    rw [hr]
    obtain ⟨k, hk⟩ : ∃ k, (utf8 (pre ++ x) ++ (w ++ utf8 ('B' :: u))).length = k := ⟨_, rfl⟩
    rw [hk]
    rw [List.length_append, List.length_append] at hk
    obtain ⟨n, hn⟩ : ∃ n, k = n := ⟨_, rfl⟩
    have := runesF_append_fuel (pre ++ x) (w ++ utf8 ('B' :: u)) k (by omega)
    obtain ⟨f', hf', hle⟩ := this
    rw [hf']
    obtain ⟨f'', rfl⟩ : ∃ f'', f' = f'' + w.length := ⟨f' - w.length, by omega⟩
    rw [hB, runesF_cut h3 h4, ← hB, runesF_utf8 _ _ (by omega)]
  have hs2 : s2 ≠ [] := by
    rintro rfl
    generalize hq : x ++ c :: t2 = q at g4
    cases g4
    simp at hq
  have hps : pre ≠ s := by
    intro e
    rw [← e] at g1
    exact hs2 (List.append_right_eq_self.1 g1.symm)
  have single : ∀ {d : Char} {r : Str}, c = d → d.toNat < 128 → w = [] := by
    intro d _ hd h
    subst hd
    unfold encodeChar at h3
    simp only at h3
    rw [if_pos h] at h3
    cases w with
    | nil => rfl
    | cons b w =>
      simp only [List.cons_append, List.cons.injEq] at h3
      exact absurd (List.append_eq_nil_iff.1 h3.2.symm).2 h4
  rcases g3 with rfl | rfl | rfl
  · refine ⟨pre, List.replicate w.length '�', by rw [hrunes, List.append_nil], ⟨s2, g1.symm⟩, hps, .inl ⟨fun c hc => (List.mem_replicate.1 hc).2, fun hy => ?_⟩⟩
    have : w = [] := by simpa using hy
    rw [hrb, this]
    simp
  · -- a carriage return: kept, or of a fold
    have g4 : FoldOf s2 ('\r' :: c :: t2) := g4
    generalize hq : '\r' :: c :: t2 = q at g4
    cases g4 with
    | nil => cases hq
    | @keep c' s3 t3 g =>
      simp only [List.cons.injEq] at hq
      obtain ⟨rfl, rfl⟩ := hq
      refine ⟨pre ++ ['\r'], List.replicate w.length '�', hrunes, ⟨s3, by rw [g1]; simp⟩, ?_, .inl ⟨fun c hc => (List.mem_replicate.1 hc).2, fun hy => ?_⟩⟩
      · intro e
        rw [g1] at e
        have := List.append_cancel_left e
        simp only [List.cons.injEq, true_and] at this
        subst this
        cases g
      · have : w = [] := by simpa using hy
        rw [hrb, this]
        simp
    | @fold d s3 t3 hd1 hd2 g =>
      simp only [List.cons.injEq, true_and] at hq
      have hw : w = [] := single (r := []) hq.1 (by decide)
      exact ⟨pre, ['\r'], by rw [hrunes, hw]; simp, ⟨_, g1.symm⟩, hps, .inr (.inl rfl)⟩
  · have g4 : FoldOf s2 ('\r' :: '\n' :: c :: t2) := g4
    generalize hq : '\r' :: '\n' :: c :: t2 = q at g4
    cases g4 with
    | nil => cases hq
    | @keep c' s3 t3 g =>
      simp only [List.cons.injEq] at hq
      obtain ⟨rfl, rfl⟩ := hq
      generalize hq : '\n' :: c :: t2 = q at g
      cases g with
      | nil => cases hq
      | @keep c' s4 t4 g =>
        simp only [List.cons.injEq] at hq
        obtain ⟨rfl, rfl⟩ := hq
        refine ⟨pre ++ ['\r', '\n'], List.replicate w.length '�', hrunes, ⟨s4, by rw [g1]; simp⟩, ?_, .inl ⟨fun c hc => (List.mem_replicate.1 hc).2, fun hy => ?_⟩⟩
        · intro e
          rw [g1] at e
          have := List.append_cancel_left e
          simp only [List.cons.injEq, true_and] at this
          subst this
          cases g
        · have : w = [] := by simpa using hy
          rw [hrb, this]
          simp
      | fold => simp at hq
    | @fold d s3 t3 hd1 hd2 g =>
      simp only [List.cons.injEq, true_and] at hq
      have hw : w = [] := single (r := []) hq.1 (by decide)
      exact ⟨pre, ['\r', '\n'], by rw [hrunes, hw]; simp, ⟨_, g1.symm⟩, hps, .inr (.inr ⟨rfl, d, hd1, hd2, ⟨s3, by rw [g1]; simp⟩⟩)⟩

end Ics
