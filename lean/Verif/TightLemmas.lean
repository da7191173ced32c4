import Verif.FoldingProofs
import Verif.Spec.Tight
/-!
# Lemmas: folds only where they are needed
-/

namespace Ics

open Spec

/-- What has been collected of a line is the beginning of the first line. -/
theorem physLinesAux_first : ∀ (x cur : Bytes), ∃ r ls, physLinesAux cur x = (cur ++ r) :: ls
  | [], cur => ⟨[], [], by simp [physLinesAux]⟩
  | [b], cur => ⟨[b], [], by simp [physLinesAux]⟩
  | b :: b' :: x, cur => by
    rw [physLinesAux]
    split
    · exact ⟨[], physLinesAux [] x, by simp⟩
    · obtain ⟨r, ls, h⟩ := physLinesAux_first (b' :: x) (cur ++ [b])
      exact ⟨[b] ++ r, ls, by rw [h]; simp⟩

theorem foldStr_crlf (col : UInt8) (s : Str) : foldStr col ('\r' :: '\n' :: s) = '\r' :: '\n' :: foldStr 0 s := by
  have hstep : stepCol col '\r' = (col + 1, ['\r']) := by
    simp [stepCol, encodeChar]
  have hstep2 : stepCol (col + 1) '\n' = (0, ['\n']) := by
    simp [stepCol]
  simp only [foldStr, hstep, hstep2]
  rfl

theorem physLinesAux_crlf (cur x : Bytes) : physLinesAux cur (13 :: 10 :: x) = cur :: physLinesAux [] x := by
  simp [physLinesAux]

theorem utf8_crlf (s : Str) : utf8 ('\r' :: '\n' :: s) = 13 :: 10 :: utf8 s := rfl

theorem noCR_char {c : Char} (h : c ≠ '\r') : ∀ b ∈ encodeChar c, b ≠ 13 :=
  encodeChar_no_byte c 13 (by decide) fun h' => h ((toNat_eq_iff c '\r').1 h')

/-- A character that is no line end, and may need a fold. -/
theorem stepCol_char (col : UInt8) (hl : col.toNat ≤ 75) {c : Char} (h1 : c ≠ '\r') (h2 : c ≠ '\n') :
    (col.toNat + (encodeChar c).length ≤ 75 ∧ (stepCol col c).2 = [c] ∧ (stepCol col c).1.toNat = col.toNat + (encodeChar c).length) ∨
    (75 < col.toNat + (encodeChar c).length ∧ (stepCol col c).2 = ['\r', '\n', ' ', c] ∧ (stepCol col c).1.toNat = (encodeChar c).length + 1) := by
  have hlen := enc_len c
  have hadd := uadd_toNat col (encodeChar c).length (by omega)
  unfold stepCol
  by_cases h3 : col + UInt8.ofNat (encodeChar c).length > maxLineLength
  · right
    have h4 := UInt8.lt_iff_toNat_lt.1 h3
    rw [hadd] at h4
    have h75 : maxLineLength.toNat = 75 := rfl
    simp only [if_neg h2, if_neg h1, if_pos h3]
    refine ⟨by omega, trivial, ?_⟩
    rw [UInt8.toNat_add, UInt8.toNat_ofNat']
    have : (1 : UInt8).toNat = 1 := rfl
    omega
  · left
    have h4 := UInt8.le_iff_toNat_le.1 (UInt8.not_lt.1 h3)
    rw [hadd] at h4
    have h75 : maxLineLength.toNat = 75 := rfl
    simp only [if_neg h2, if_neg h1, if_neg h3]
    exact ⟨by omega, trivial, hadd⟩

/-- Lines that are short enough stay as they are. -/
theorem foldStr_short : ∀ (n : Nat) (s : Str), s.length ≤ n → crlfClean s = true → ∀ (col : UInt8) (cur : Bytes), cur.length = col.toNat → col.toNat ≤ 75 →
    (∀ l ∈ physLinesAux cur (utf8 s), l.length ≤ 75) → foldStr col s = s := by
  intro n
  induction n with
  | zero =>
    intro s hs _ col cur _ _ _
    have : s = [] := List.eq_nil_of_length_eq_zero (by omega)
    subst this
    rfl
  | succ n ih =>
    intro s hs hclean col cur hc hl h
    rcases s with _ | ⟨c, s⟩
    · rfl
    by_cases hcr : c = '\r'
    · subst hcr
      rcases s with _ | ⟨d, s⟩
      · simp [crlfClean] at hclean
      · obtain ⟨rfl, hclean⟩ := crlfClean_cr hclean
        rw [utf8_crlf, physLinesAux_crlf] at h
        rw [foldStr_crlf, ih s (by simp at hs; omega) hclean 0 [] rfl (Nat.zero_le _) fun l hl => h l (.tail _ hl)]
    · obtain ⟨hnl, hclean⟩ := crlfClean_cons hclean hcr
      rw [utf8_cons, physLinesAux_append _ (noCR_char hcr)] at h
      simp only [List.length_cons] at hs
      obtain ⟨r, ls, hf⟩ := physLinesAux_first (utf8 s) (cur ++ encodeChar c)
      have h0 := h _ (by rw [hf]; exact .head _)
      simp only [List.length_append] at h0
      rcases stepCol_char col hl hcr hnl with ⟨g1, g2, g3⟩ | ⟨g1, _⟩
      · rw [foldStr, g2, ih s (by omega) hclean _ (cur ++ encodeChar c) (by rw [g3, List.length_append, hc]) (by omega) h]
        rfl
      · omega

theorem Spec.Tight.cons {l : Bytes} {ls : List Bytes} (h : Tight ls) (h' : ∀ l' b, ls = l' :: b → l'.head? = some 32 → ∃ c r, l' = 32 :: (encodeChar c ++ r) ∧ 75 < l.length + (encodeChar c).length) :
    Tight (l :: ls) := by
  intro a x y b e hy
  cases a with
  | nil =>
    obtain ⟨rfl, e2⟩ := List.cons.inj e
    exact h' y b e2 hy
  | cons z a => exact h a x y b (List.cons.inj e).2 hy

theorem encodeChar_head_ne_space {c : Char} (h : c ≠ ' ') (x : Bytes) : (encodeChar c ++ x).head? ≠ some 32 := by
  have h1 : ∀ b ∈ encodeChar c, b ≠ 32 := encodeChar_no_byte c 32 (by decide) fun h' => h ((toNat_eq_iff c ' ').1 h')
  rcases he : encodeChar c with _ | ⟨b, r⟩
  · exact absurd he (encodeChar_ne_nil c)
  · intro e
    simp only [List.cons_append, List.head?_cons, Option.some.injEq] at e
    exact h1 b (by rw [he]; exact .head _) e

theorem tight_foldStr : ∀ (n : Nat) (s : Str), s.length ≤ n → crlfClean s = true → ¬ ['\r', '\n', ' '] <:+: s → ∀ (col : UInt8) (cur : Bytes), cur.length = col.toNat → col.toNat ≤ 75 →
    Tight (physLinesAux cur (utf8 (foldStr col s))) := by
  intro n
  induction n with
  | zero =>
    intro s hs _ _ col cur _ _
    have : s = [] := List.eq_nil_of_length_eq_zero (by omega)
    subst this
    intro a l l' b e
    have := congrArg List.length e
    simp [foldStr, utf8_nil, physLinesAux] at this
    omega
  | succ n ih =>
    intro s hs hclean hno col cur hc hl
    rcases s with _ | ⟨c, s⟩
    · intro a l l' b e
      have := congrArg List.length e
      simp [foldStr, utf8_nil, physLinesAux] at this
      omega
    by_cases hcr : c = '\r'
    · subst hcr
      rcases s with _ | ⟨d, s⟩
      · simp [crlfClean] at hclean
      · obtain ⟨rfl, hcl⟩ := crlfClean_cr hclean
        rw [foldStr_crlf, utf8_crlf, physLinesAux_crlf]
        refine Tight.cons (ih s (by simp at hs; omega) hcl (fun h => hno (h.trans ⟨['\r', '\n'], [], by simp⟩)) 0 [] rfl (Nat.zero_le _)) fun l' b e hy => ?_
        exfalso
        rcases s with _ | ⟨d, s⟩
        · simp only [foldStr, utf8_nil, physLinesAux, List.cons.injEq] at e
          rw [← e.1] at hy
          cases hy
        · have hd : d ≠ ' ' := by
            rintro rfl
            exact hno ⟨[], s, rfl⟩
          by_cases hdr : d = '\r'
          · subst hdr
            rcases s with _ | ⟨d, s⟩
            · simp [crlfClean] at hcl
            · obtain ⟨rfl, _⟩ := crlfClean_cr hcl
              rw [foldStr_crlf, utf8_crlf, physLinesAux_crlf] at e
              rw [← (List.cons.inj e).1] at hy
              cases hy
          · obtain ⟨hnl, _⟩ := crlfClean_cons hcl hdr
            have := enc_len d
            rcases stepCol_char 0 (Nat.zero_le _) hdr hnl with ⟨_, g2, _⟩ | ⟨g1, _⟩
            · rw [foldStr, g2, List.singleton_append, utf8_cons, physLinesAux_append _ (noCR_char hdr)] at e
              obtain ⟨r, ls, hf⟩ := physLinesAux_first (utf8 (foldStr (stepCol 0 d).1 s)) ([] ++ encodeChar d)
              rw [hf] at e
              rw [← (List.cons.inj e).1, List.nil_append] at hy
              exact encodeChar_head_ne_space hd _ hy
            · have h0 : (0 : UInt8).toNat = 0 := rfl
              omega
    · obtain ⟨hnl, hclean⟩ := crlfClean_cons hclean hcr
      have hno' : ¬ ['\r', '\n', ' '] <:+: s := fun h => hno (h.trans ⟨[c], [], by simp⟩)
      simp only [List.length_cons] at hs
      have hlen := enc_len c
      rcases stepCol_char col hl hcr hnl with ⟨g1, g2, g3⟩ | ⟨g1, g2, g3⟩
      · rw [foldStr, g2, List.singleton_append, utf8_cons, physLinesAux_append _ (noCR_char hcr)]
        exact ih s (by omega) hclean hno' _ _ (by rw [g3, List.length_append, hc]) (by omega)
      · rw [foldStr, g2]
        have hx : ∀ t, utf8 (['\r', '\n', ' ', c] ++ t) = 13 :: 10 :: ((32 :: encodeChar c) ++ utf8 t) := fun t => rfl
        have hns : ∀ b ∈ 32 :: encodeChar c, b ≠ 13 := by
          intro b hb
          rcases List.mem_cons.1 hb with rfl | hb
          · decide
          · exact noCR_char hcr b hb
        rw [hx, physLinesAux_crlf, physLinesAux_append _ hns]
        refine Tight.cons (ih s (by omega) hclean hno' _ _ (by rw [g3]; simp) (by omega)) fun l' b e hy => ?_
        obtain ⟨r, ls, hf⟩ := physLinesAux_first (utf8 (foldStr (stepCol col c).1 s)) ([] ++ 32 :: encodeChar c)
        rw [hf] at e
        exact ⟨c, r, by rw [← (List.cons.inj e).1]; simp, by rw [hc]; exact g1⟩

theorem encodeChar_first {c d : Char} {x y : Bytes} (h : encodeChar c ++ x = encodeChar d ++ y) : c = d := by
  have h1 := decodeRune_encodeChar c x
  rw [h, decodeRune_encodeChar] at h1
  exact (toNat_eq_iff c d).1 (Prod.mk.inj h1).1.symm

theorem Spec.Tight.tail {l : Bytes} {ls : List Bytes} (h : Tight (l :: ls)) : Tight ls := fun a x y b e hy => h (l :: a) x y b (by rw [e]; rfl) hy

/-- A text with folds is the one that is written, if its lines are short enough and all of its folds are needed. -/
theorem tight_unique {s t : Str} (hf : FoldOf s t) : crlfClean s = true → ∀ (col : UInt8) (cur : Bytes), cur.length = col.toNat → col.toNat ≤ 75 →
    (∀ l ∈ physLinesAux cur (utf8 t), l.length ≤ 75) → Tight (physLinesAux cur (utf8 t)) → t = foldStr col s := by
  generalize hn : s.length = n
  induction n using Nat.strongRecOn generalizing s t with
  | ind n ih =>
  intro hclean col cur hc hl h75 ht
  cases hf with
  | nil => rfl
  | @keep c s t hf =>
    by_cases hcr : c = '\r'
    · subst hcr
      rcases s with _ | ⟨d, s⟩
      · simp [crlfClean] at hclean
      · obtain ⟨rfl, hclean⟩ := crlfClean_cr hclean
        cases hf with
        | fold _ h => exact absurd rfl h
        | @keep _ _ t hf =>
          rw [utf8_crlf, physLinesAux_crlf] at h75 ht
          rw [foldStr_crlf, ← ih s.length (by rw [← hn]; simp only [List.length_cons]; omega) hf rfl hclean 0 [] rfl (Nat.zero_le _) (fun l hl => h75 l (.tail _ hl)) ht.tail]
    · obtain ⟨hnl, hclean⟩ := crlfClean_cons hclean hcr
      rw [utf8_cons, physLinesAux_append _ (noCR_char hcr)] at h75 ht
      obtain ⟨r, ls, hfi⟩ := physLinesAux_first (utf8 t) (cur ++ encodeChar c)
      have h0 := h75 _ (by rw [hfi]; exact .head _)
      simp only [List.length_append] at h0
      rcases stepCol_char col hl hcr hnl with ⟨g1, g2, g3⟩ | ⟨g1, _⟩
      · rw [foldStr, g2, ← ih s.length (by rw [← hn]; simp only [List.length_cons]; omega) hf rfl hclean _ (cur ++ encodeChar c) (by rw [g3, List.length_append, hc]) (by omega) h75 ht]
        rfl
      · omega
  | @fold c s t hnl hcr hf =>
    obtain ⟨_, hclean⟩ := crlfClean_cons hclean hcr
    have hx : utf8 ('\r' :: '\n' :: ' ' :: c :: t) = 13 :: 10 :: ((32 :: encodeChar c) ++ utf8 t) := rfl
    have hns : ∀ b ∈ 32 :: encodeChar c, b ≠ 13 := by
      intro b hb
      rcases List.mem_cons.1 hb with rfl | hb
      · decide
      · exact noCR_char hcr b hb
    rw [hx, physLinesAux_crlf, physLinesAux_append _ hns] at h75 ht
    obtain ⟨r, ls, hfi⟩ := physLinesAux_first (utf8 t) ([] ++ 32 :: encodeChar c)
    obtain ⟨c', r', h1, h2⟩ := ht [] cur _ ls (by rw [hfi]; rfl) rfl
    have hcc : c = c' := by
      simp only [List.nil_append, List.cons_append, List.cons.injEq, true_and] at h1
      exact encodeChar_first h1
    subst hcc
    rcases stepCol_char col hl hcr hnl with ⟨g1, _⟩ | ⟨g1, g2, g3⟩
    · omega
    · have := enc_len c
      rw [foldStr, g2, ← ih s.length (by rw [← hn]; simp only [List.length_cons]; omega) hf rfl hclean _ ([] ++ 32 :: encodeChar c) (by rw [g3]; simp) (by omega)
        (fun l hl => h75 l (.tail _ hl)) ht.tail]
      rfl

/-- No other way to fold is shorter.  With less room left in the line than the other way has, it may need a fold more. -/
theorem fold_least {s t : Str} (hf : FoldOf s t) : crlfClean s = true → ∀ (col : UInt8) (cur : Bytes), col.toNat ≤ 75 → (∀ l ∈ physLinesAux cur (utf8 t), l.length ≤ 75) →
    (col.toNat ≤ cur.length → (utf8 (foldStr col s)).length ≤ (utf8 t).length) ∧ (1 ≤ cur.length → (utf8 (foldStr col s)).length ≤ (utf8 t).length + 3) := by
  generalize hn : s.length = n
  induction n using Nat.strongRecOn generalizing s t with
  | ind n ih =>
  intro hclean col cur hl h75
  cases hf with
  | nil => exact ⟨fun _ => Nat.le_refl _, fun _ => Nat.le_add_right _ _⟩
  | @keep c s t hf =>
    by_cases hcr : c = '\r'
    · subst hcr
      rcases s with _ | ⟨d, s⟩
      · simp [crlfClean] at hclean
      · obtain ⟨rfl, hclean⟩ := crlfClean_cr hclean
        cases hf with
        | fold _ h => exact absurd rfl h
        | @keep _ _ t hf =>
          rw [utf8_crlf, physLinesAux_crlf] at h75
          have := (ih s.length (by rw [← hn]; simp only [List.length_cons]; omega) hf rfl hclean 0 [] (Nat.zero_le _) fun l hl => h75 l (.tail _ hl)).1 (Nat.le_refl _)
          rw [foldStr_crlf, utf8_crlf, utf8_crlf]
          simp only [List.length_cons]
          exact ⟨fun _ => by omega, fun _ => by omega⟩
    · obtain ⟨hnl, hclean⟩ := crlfClean_cons hclean hcr
      rw [utf8_cons, physLinesAux_append _ (noCR_char hcr)] at h75
      obtain ⟨r, ls, hfi⟩ := physLinesAux_first (utf8 t) (cur ++ encodeChar c)
      have h0 := h75 _ (by rw [hfi]; exact .head _)
      simp only [List.length_append] at h0
      have hlen := enc_len c
      rcases stepCol_char col hl hcr hnl with ⟨g1, g2, g3⟩ | ⟨g1, g2, g3⟩
      · have := ih s.length (by rw [← hn]; simp only [List.length_cons]; omega) hf rfl hclean (stepCol col c).1 (cur ++ encodeChar c) (by omega) h75
        rw [g3, List.length_append] at this
        rw [foldStr, g2, List.singleton_append, utf8_cons, utf8_cons, List.length_append, List.length_append]
        exact ⟨fun h => by have := this.1 (by omega); omega, fun h => by have := this.2 (by omega); omega⟩
      · have := ih s.length (by rw [← hn]; simp only [List.length_cons]; omega) hf rfl hclean (stepCol col c).1 (cur ++ encodeChar c) (by omega) h75
        rw [g3, List.length_append] at this
        have hx : ∀ t, utf8 (['\r', '\n', ' ', c] ++ t) = 13 :: 10 :: 32 :: (encodeChar c ++ utf8 t) := fun t => rfl
        rw [foldStr, g2, hx, utf8_cons]
        simp only [List.length_append, List.length_cons]
        exact ⟨fun h => by omega, fun h => by have := this.1 (by omega); omega⟩
  | @fold c s t hnl hcr hf =>
    obtain ⟨_, hclean⟩ := crlfClean_cons hclean hcr
    have hx : ∀ t, utf8 ('\r' :: '\n' :: ' ' :: c :: t) = 13 :: 10 :: ((32 :: encodeChar c) ++ utf8 t) := fun _ => rfl
    have hns : ∀ b ∈ 32 :: encodeChar c, b ≠ 13 := by
      intro b hb
      rcases List.mem_cons.1 hb with rfl | hb
      · decide
      · exact noCR_char hcr b hb
    rw [hx, physLinesAux_crlf, physLinesAux_append _ hns] at h75
    have hlen := enc_len c
    rcases stepCol_char col hl hcr hnl with ⟨g1, g2, g3⟩ | ⟨g1, g2, g3⟩ <;>
      have := ih s.length (by rw [← hn]; simp only [List.length_cons]; omega) hf rfl hclean (stepCol col c).1 ([] ++ 32 :: encodeChar c) (by omega) (fun l hl => h75 l (.tail _ hl))
    · have := this.2 (by simp)
      rw [foldStr, g2, List.singleton_append, utf8_cons, hx]
      simp only [List.length_append, List.length_cons]
      exact ⟨fun _ => by omega, fun _ => by omega⟩
    · have := this.1 (by rw [g3]; simp)
      rw [foldStr, g2]
      simp only [List.cons_append, List.nil_append]
      rw [hx, hx]
      simp only [List.length_append, List.length_cons]
      exact ⟨fun _ => by omega, fun _ => by omega⟩

end Ics
