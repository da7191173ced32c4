import Verif.FolderLemmas
import Verif.Spec.Folding
/-!
# Proofs connecting the folder model with the folding specification
-/

namespace Ics

open Spec

theorem stepCol_cases (col : UInt8) (c : Char) :
    (c = '\n' ∧ stepCol col c = (0, [c])) ∨
    (c ≠ '\n' ∧ stepCol col c = (col + UInt8.ofNat (encodeChar c).length, [c]) ∧
      (c = '\r' ∨ ¬ col + UInt8.ofNat (encodeChar c).length > maxLineLength)) ∨
    (c ≠ '\n' ∧ c ≠ '\r' ∧
      stepCol col c = (UInt8.ofNat (encodeChar c).length + 1, ['\r', '\n', ' ', c])) := by
  unfold stepCol
  by_cases h1 : c = '\n'
  · left; exact ⟨h1, by simp [h1]⟩
  · right
    by_cases h2 : c = '\r'
    · left; exact ⟨h1, by simp [h2], Or.inl h2⟩
    · by_cases h3 : col + UInt8.ofNat (encodeChar c).length > maxLineLength
      · right; exact ⟨h1, h2, by simp [h1, h2, h3]⟩
      · left; exact ⟨h1, by simp [h1, h2, h3], Or.inr h3⟩

/-- Folding only inserts fold markers in front of characters. -/
theorem foldStr_FoldOf (s : Str) : ∀ col, FoldOf s (foldStr col s) := by
  induction s with
  | nil => intro col; exact .nil
  | cons c s ih =>
    intro col
    simp only [foldStr]
    rcases stepCol_cases col c with ⟨_, h⟩ | ⟨_, h, _⟩ | ⟨h1, h2, h⟩
    · rw [h]; exact .keep c (ih _)
    · rw [h]; exact .keep c (ih _)
    · rw [h]; exact .fold c h1 h2 (ih _)

theorem physLinesAux_append (p : Bytes) (hp : ∀ b ∈ p, b ≠ 13) : ∀ (cur rest : Bytes),
    physLinesAux cur (p ++ rest) = physLinesAux (cur ++ p) rest := by
  induction p with
  | nil => intro cur rest; simp
  | cons b p ih =>
    intro cur rest
    have hb : b ≠ 13 := hp b (by simp)
    have ih' := ih (fun x hx => hp x (by simp [hx])) (cur ++ [b]) rest
    rw [List.cons_append]
    rw [show cur ++ b :: p = cur ++ [b] ++ p by simp, ← ih']
    cases hq : p ++ rest with
    | nil => simp [physLinesAux]
    | cons x xs => rw [physLinesAux]; simp [hb]

theorem crlfClean_cr {c : Char} {r : Str} (h : crlfClean ('\r' :: c :: r) = true) :
    c = '\n' ∧ crlfClean r = true := by
  simpa [crlfClean] using h

theorem crlfClean_cons {c : Char} {r : Str} (h : crlfClean (c :: r) = true) (hc : c ≠ '\r') :
    c ≠ '\n' ∧ crlfClean r = true := by
  rw [crlfClean.eq_def] at h
  split at h
  · next h' => cases h'
  · cases h
  · next h' => injection h' with h1 _; exact absurd h1 hc
  · cases h
  · next h1 h2 h3 heq =>
    injection heq with ha hb
    subst ha; subst hb
    exact ⟨by rintro rfl; exact h3 rfl, h⟩

theorem uadd_toNat (col : UInt8) (n : Nat) (h : col.toNat + n < 256) :
    (col + UInt8.ofNat n).toNat = col.toNat + n := by
  rw [UInt8.toNat_add, UInt8.toNat_ofNat']
  omega

theorem enc_len (c : Char) : 1 ≤ (encodeChar c).length ∧ (encodeChar c).length ≤ 4 := by
  have := encodeChar_length c; omega

/-- The column invariant gives the bound on every physical line. -/
theorem physLines_foldStr : ∀ (n : Nat) (s : Str), s.length ≤ n → crlfClean s = true →
    ∀ (col : UInt8) (cur : Bytes), cur.length = col.toNat → col.toNat ≤ 75 →
    ∀ l ∈ physLinesAux cur (utf8 (foldStr col s)), l.length ≤ 75 := by
  intro n
  induction n with
  | zero =>
    intro s hs _ col cur hc hl l hm
    have : s = [] := by cases s with
      | nil => rfl
      | cons _ _ => simp at hs
    subst this
    simp [foldStr, utf8_nil, physLinesAux] at hm
    subst hm; omega
  | succ n ih =>
    intro s hs hclean col cur hc hl l hm
    rcases s with _ | ⟨c, s⟩
    · simp [foldStr, utf8_nil, physLinesAux] at hm
      subst hm; omega
    by_cases hcr : c = '\r'
    · subst hcr
      rcases s with _ | ⟨d, s⟩
      · simp [crlfClean] at hclean
      · obtain ⟨rfl, hclean⟩ := crlfClean_cr hclean
        have : utf8 (foldStr col ('\r' :: '\n' :: s)) = 13 :: 10 :: utf8 (foldStr 0 s) := by
          have hstep : stepCol col '\r' = (col + 1, ['\r']) := by
            simp [stepCol, encodeChar]
          have hstep2 : stepCol (col + 1) '\n' = (0, ['\n']) := by
            simp [stepCol]
          simp only [foldStr, hstep, hstep2]
          rfl
        rw [this] at hm
        simp only [physLinesAux, and_self, if_true, List.mem_cons] at hm
        rcases hm with rfl | hm
        · omega
        · simp at hs
          exact ih s (by omega) hclean 0 [] (by simp) (by simp) l hm
    · obtain ⟨hnl, hclean⟩ := crlfClean_cons hclean hcr
      have hlen := enc_len c
      have hne : ∀ b ∈ encodeChar c, b ≠ 13 :=
        encodeChar_no_byte c 13 (by decide) (by
          intro h; exact hcr ((toNat_eq_iff c '\r').1 h))
      simp only [List.length_cons] at hs
      simp only [foldStr] at hm
      rcases stepCol_cases col c with ⟨h, _⟩ | ⟨_, h, h3⟩ | ⟨_, _, h⟩
      · exact absurd h hnl
      · rw [h] at hm
        rcases h3 with h3 | h3
        · exact absurd h3 hcr
        simp only [List.cons_append, List.nil_append, utf8_cons] at hm
        rw [physLinesAux_append _ hne] at hm
        have hadd := uadd_toNat col (encodeChar c).length (by omega)
        have h3' : (col + UInt8.ofNat (encodeChar c).length).toNat ≤ 75 := by
          have h4 := UInt8.not_lt.1 h3
          have h5 := UInt8.le_iff_toNat_le.1 h4
          exact h5
        refine ih s (by omega) hclean _ _ ?_ h3' l hm
        rw [hadd, List.length_append, hc]
      · rw [h] at hm
        have hx : utf8 (['\r', '\n', ' ', c] ++ foldStr (UInt8.ofNat (encodeChar c).length + 1) s) =
            13 :: 10 :: ((32 :: encodeChar c) ++
              utf8 (foldStr (UInt8.ofNat (encodeChar c).length + 1) s)) := by
          rfl
        rw [hx] at hm
        simp only [physLinesAux, and_self, if_true, List.mem_cons] at hm
        rcases hm with rfl | hm
        · omega
        rw [physLinesAux_append _ (by
          intro b hb
          simp only [List.mem_cons] at hb
          rcases hb with rfl | hb
          · decide
          · exact hne b hb)] at hm
        have hcol : (UInt8.ofNat (encodeChar c).length + 1).toNat = (encodeChar c).length + 1 := by
          rw [UInt8.toNat_add, UInt8.toNat_ofNat']
          have : (1 : UInt8).toNat = 1 := rfl
          omega
        refine ih s (by omega) hclean _ _ ?_ ?_ l hm
        · rw [hcol]; simp
        · rw [hcol]; omega

/-! ## Unfolding a folded text -/

theorem Spec.FoldOf.nl {s t : Str} (h : FoldOf s ('\n' :: t)) : ∃ s', s = '\n' :: s' ∧ FoldOf s' t := by
  generalize hu : '\n' :: t = u at h
  cases h with
  | nil => cases hu
  | keep c h => injection hu with h1 h2; subst h1; subst h2; exact ⟨_, rfl, h⟩
  | fold c _ _ h => injection hu with h1 _; exact absurd h1 (by decide)

theorem Spec.FoldOf.sp {s t : Str} (h : FoldOf s (' ' :: t)) : ∃ s', s = ' ' :: s' ∧ FoldOf s' t := by
  generalize hu : ' ' :: t = u at h
  cases h with
  | nil => cases hu
  | keep c h => injection hu with h1 h2; subst h1; subst h2; exact ⟨_, rfl, h⟩
  | fold c _ _ h => injection hu with h1 _; exact absurd h1 (by decide)

theorem removeFoldsC_cons (c : Char) (t : Str) (h : ∀ r, c :: t ≠ '\r' :: '\n' :: ' ' :: r) :
    removeFoldsC (c :: t) = c :: removeFoldsC t := by
  rcases t with _ | ⟨d, _ | ⟨e, t⟩⟩
  · rfl
  · simp [removeFoldsC]
  · rw [removeFoldsC, if_neg]
    rintro ⟨rfl, rfl, rfl⟩
    exact h t rfl

theorem removeFoldsC_FoldOf {s t : Str} (h : FoldOf s t) (hno : ¬ ['\r', '\n', ' '] <:+: s) :
    removeFoldsC t = s := by
  induction h with
  | nil => rfl
  | @keep c s t h ih =>
    rw [removeFoldsC_cons, ih]
    · intro hi; exact hno (hi.trans (List.infix_cons (List.infix_refl _)))
    · intro r hr
      injection hr with h1 h2
      subst h1; subst h2
      obtain ⟨s', rfl, h'⟩ := h.nl
      obtain ⟨s'', rfl, _⟩ := h'.sp
      exact hno ⟨[], s'', by simp⟩
  | @fold c s t hc hc' h ih =>
    rw [removeFoldsC, if_pos ⟨rfl, rfl, rfl⟩, removeFoldsC_cons, ih]
    · intro hi; exact hno (hi.trans (List.infix_cons (List.infix_refl _)))
    · intro r hr; injection hr with h1 _; exact hc' h1

theorem removeFolds_ne (b : UInt8) (t : Bytes) (h : ∀ r, b :: t ≠ 13 :: 10 :: 32 :: r) :
    removeFolds (b :: t) = b :: removeFolds t := by
  rcases t with _ | ⟨d, _ | ⟨e, t⟩⟩
  · rfl
  · simp [removeFolds]
  · rw [removeFolds, if_neg]
    rintro ⟨rfl, rfl, rfl⟩
    exact h t rfl

theorem removeFolds_append (p : Bytes) (hp : ∀ b ∈ p, b ≠ 13) (rest : Bytes) :
    removeFolds (p ++ rest) = p ++ removeFolds rest := by
  induction p with
  | nil => rfl
  | cons b p ih =>
    rw [List.cons_append, removeFolds_ne, ih (fun x hx => hp x (by simp [hx]))]
    · rfl
    · intro r hr; injection hr with h _; exact hp b (by simp) h

theorem utf8_head_eq (k : Nat) (hk : k < 128) (s : Str) (r : Bytes)
    (h : utf8 s = UInt8.ofNat k :: r) : ∃ c s', s = c :: s' ∧ c.toNat = k ∧ r = utf8 s' := by
  rcases s with _ | ⟨c, s⟩
  · simp [utf8_nil] at h
  refine ⟨c, s, rfl, ?_⟩
  rw [utf8_cons] at h
  by_cases hc : c.toNat = k
  · rw [encodeChar_ascii c (by omega), hc] at h
    simp only [List.cons_append, List.nil_append, List.cons.injEq, true_and] at h
    exact ⟨hc, h.symm⟩
  · exfalso
    rcases he : encodeChar c with _ | ⟨b, bs⟩
    · exact encodeChar_ne_nil c he
    · have := encodeChar_no_byte c k hk hc b (by rw [he]; simp)
      rw [he] at h
      injection h with h1 _
      exact this h1

theorem removeFolds_utf8 : ∀ (n : Nat) (t : Str), t.length ≤ n →
    removeFolds (utf8 t) = utf8 (removeFoldsC t) := by
  intro n
  induction n with
  | zero =>
    intro t ht
    have : t = [] := by cases t with
      | nil => rfl
      | cons _ _ => simp at ht
    subst this; rfl
  | succ n ih =>
    intro t ht
    rcases t with _ | ⟨c, t⟩
    · rfl
    simp only [List.length_cons] at ht
    by_cases hm : ∃ r, c :: t = '\r' :: '\n' :: ' ' :: r
    · obtain ⟨r, hr⟩ := hm
      rw [hr, removeFoldsC, if_pos ⟨rfl, rfl, rfl⟩, ← ih r (by
        have := congrArg List.length hr; simp at this; omega)]
      show removeFolds (13 :: 10 :: 32 :: utf8 r) = _
      rw [removeFolds, if_pos ⟨rfl, rfl, rfl⟩]
    · rw [removeFoldsC_cons _ _ (fun r hr => hm ⟨r, hr⟩), utf8_cons, utf8_cons, ← ih t (by omega)]
      by_cases hcr : c = '\r'
      · subst hcr
        show removeFolds (13 :: utf8 t) = 13 :: removeFolds (utf8 t)
        apply removeFolds_ne
        intro r hr
        injection hr with _ hr
        obtain ⟨c1, t1, rfl, hc1, h1⟩ := utf8_head_eq 10 (by decide) t _ hr
        obtain ⟨c2, t2, rfl, hc2, h2⟩ := utf8_head_eq 32 (by decide) t1 _ h1.symm
        have e1 : c1 = '\n' := (toNat_eq_iff _ _).1 hc1
        have e2 : c2 = ' ' := (toNat_eq_iff _ _).1 hc2
        subst e1; subst e2
        exact hm ⟨t2, rfl⟩
      · exact removeFolds_append _ (encodeChar_no_byte c 13 (by decide) (by
          intro h; exact hcr ((toNat_eq_iff c '\r').1 h))) _

theorem hasFold_of_infix {s : Str} (h : ['\r', '\n', ' '] <:+: s) : hasFold (utf8 s) := by
  obtain ⟨a, b, rfl⟩ := h
  exact ⟨utf8 a, utf8 b, by simp only [utf8_append]; rfl⟩

end Ics
