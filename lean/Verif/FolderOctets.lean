import Verif.FoldingProofs
import Verif.TextOctets
import Verif.Spec.FoldingOctets
/-!
# Lemmas about the folding writer for all octets
-/

namespace Ics

open Spec

/-- The octet strings that the folder takes as one: a character, or an octet that is part of none.  folder.go:28-53. -/
def IsPiece (u : Bytes) : Prop := (∃ c, u = encodeChar c) ∨ ∃ b : UInt8, 128 ≤ b.toNat ∧ u = [b]

theorem IsPiece.length {u : Bytes} (h : IsPiece u) : 1 ≤ u.length ∧ u.length ≤ 4 := by
  rcases h with ⟨c, rfl⟩ | ⟨b, _, rfl⟩
  · exact enc_len c
  · simp

theorem not_rune {b : UInt8} {r : Bytes} (h : decodeRune (b :: r) = (0xFFFD, 1)) (c : Char) (q : Bytes) : b :: r ≠ encodeChar c ++ q := by
  intro e
  rw [e, decodeRune_encodeChar] at h
  injection h with h1 h2
  have : c = '�' := by rw [← Char_ofNat_toNat c, h1]
  subst this
  exact absurd h2 (by decide)

theorem pieces_exist (q : Bytes) : ∃ us, Pieces q us := by
  induction q using runes_induction with
  | nil => exact ⟨_, .nil⟩
  | bad b r _ h ih => exact ⟨_, .bad b (not_rune h) ih.choose_spec⟩
  | good c r ih => exact ⟨_, .rune c ih.choose_spec⟩

theorem allPieces_exist : ∀ qs : List Bytes, ∃ us, AllPieces qs us
  | [] => ⟨_, .nil⟩
  | q :: qs => ⟨_, .cons (pieces_exist q).choose_spec (allPieces_exist qs).choose_spec⟩

theorem Spec.Pieces.flatten {q : Bytes} {us : List Bytes} (h : Pieces q us) : us.flatten = q := by
  induction h with
  | nil => rfl
  | rune c _ ih => rw [List.flatten_cons, ih]
  | bad b _ _ ih => rw [List.flatten_cons, ih]; rfl

theorem Spec.AllPieces.flatten {qs us : List Bytes} (h : AllPieces qs us) : us.flatten = qs.flatten := by
  induction h with
  | nil => rfl
  | cons h _ ih => rw [List.flatten_append, h.flatten, ih, List.flatten_cons]

theorem Spec.Pieces.piece {q : Bytes} {us : List Bytes} (h : Pieces q us) : ∀ u ∈ us, IsPiece u := by
  induction h with
  | nil => simp
  | rune c _ ih =>
    intro u hu
    rcases List.mem_cons.1 hu with rfl | hu
    · exact Or.inl ⟨c, rfl⟩
    · exact ih u hu
  | bad b hb _ ih =>
    intro u hu
    rcases List.mem_cons.1 hu with rfl | hu
    · refine Or.inr ⟨b, ?_, rfl⟩
      rcases decodeRune_step b _ with ⟨_, h⟩ | ⟨c, _, r, h⟩
      · exact h
      · exact absurd h (hb c r)
    · exact ih u hu

theorem Spec.AllPieces.piece {qs us : List Bytes} (h : AllPieces qs us) : ∀ u ∈ us, IsPiece u := by
  induction h with
  | nil => simp
  | cons h _ ih =>
    intro u hu
    rcases List.mem_append.1 hu with hu | hu
    · exact h.piece u hu
    · exact ih u hu

/-- One round of the loop of the folder, for a piece: the column behind it, and the octets written for it.  folder.go:28-53. -/
def stepU (col : UInt8) (u : Bytes) : UInt8 × Bytes :=
  let w := UInt8.ofNat u.length
  if u = [10] then (0, u)
  else if u = [13] then (col + w, u)
  else if col + w > maxLineLength then (w + 1, eol ++ u)
  else (col + w, u)

/-- The octets written for all of them.  folder.go:28-53. -/
def foldU (col : UInt8) : List Bytes → Bytes
  | [] => []
  | u :: us => (stepU col u).2 ++ foldU (stepU col u).1 us

/-- The column behind all of them.  folder.go:28-53. -/
def endU (col : UInt8) : List Bytes → UInt8
  | [] => col
  | u :: us => endU (stepU col u).1 us

theorem foldU_append (col : UInt8) (s t : List Bytes) : foldU col (s ++ t) = foldU col s ++ foldU (endU col s) t := by
  induction s generalizing col with
  | nil => rfl
  | cons c cs ih => simp [foldU, endU, ih]

theorem endU_append (col : UInt8) (s t : List Bytes) : endU col (s ++ t) = endU (endU col s) t := by
  induction s generalizing col with
  | nil => rfl
  | cons c cs ih => simp [endU, ih]

/-- What the folder sees of a piece: its length, and whether it is LF or CR. -/
theorem decodeRune_piece {q : Bytes} {u : Bytes} {us : List Bytes} (h : Pieces q (u :: us)) : ∃ t v, q = u ++ t ∧ Pieces t us ∧ decodeRune q = (v, u.length) ∧
    (v = 10 ↔ u = [10]) ∧ (v = 13 ↔ u = [13]) := by
  generalize hus : u :: us = w at h
  cases h with
  | nil => cases hus
  | rune c h =>
    injection hus with e1 e2
    subst e1; subst e2
    have key : ∀ k : Nat, k < 128 → (c.toNat = k ↔ encodeChar c = [UInt8.ofNat k]) := by
      intro k hk
      constructor
      · intro e
        rw [encodeChar_ascii c (by omega), e]
      · intro e
        by_cases hc : c.toNat = k
        · exact hc
        · exact absurd rfl (encodeChar_no_byte c k hk hc (UInt8.ofNat k) (by rw [e]; simp))
    exact ⟨_, c.toNat, rfl, h, decodeRune_encodeChar c _, key 10 (by decide), key 13 (by decide)⟩
  | bad b hb h =>
    injection hus with e1 e2
    subst e1; subst e2
    rcases decodeRune_step b _ with ⟨h1, h2⟩ | ⟨c, _, r, h1⟩
    · refine ⟨_, 0xFFFD, rfl, h, h1, ?_, ?_⟩
      · refine ⟨fun e => absurd e (by decide), fun e => ?_⟩
        injection e with e _
        subst e
        exact absurd h2 (by decide)
      · refine ⟨fun e => absurd e (by decide), fun e => ?_⟩
        injection e with e _
        subst e
        exact absurd h2 (by decide)
    · exact absurd h1 (hb c r)

theorem loop_pieces (us : List Bytes) : ∀ (q : Bytes) (fuel : Nat) (f : Folder) (n : Nat) (pre : Bytes), Pieces q us → q.length ≤ fuel → f.err = none →
    ∃ k, Folder.loop okSink fuel f n pre q =
      ({ line := endU f.line us, err := none, calls := k, out := f.out ++ pre ++ foldU f.line us }, n + pre.length + q.length) := by
  induction us with
  | nil =>
    intro q fuel f n pre h _ hf
    have hq := h.flatten
    simp only [List.flatten_nil] at hq
    subst hq
    obtain ⟨k, hk⟩ := finish_ok f n pre hf
    refine ⟨k, ?_⟩
    have : Folder.loop okSink fuel f n pre [] = Folder.finish okSink f n pre := by
      cases fuel <;> rfl
    rw [this, hk]
    simp [endU, foldU, hf]
  | cons u us ih =>
    intro q fuel f n pre h hfuel hf
    have hu := (h.piece u (by simp)).length
    obtain ⟨t, v, rfl, ht, hd, hn, hr⟩ := decodeRune_piece h
    rw [List.length_append] at hfuel
    rcases fuel with _ | fuel
    · omega
    rcases u with _ | ⟨b, r⟩
    · simp at hu
    have hfuel' : t.length ≤ fuel := by simp only [List.length_cons] at hfuel; omega
    have htake : (b :: (r ++ t)).take (b :: r).length = b :: r := by
      rw [← List.cons_append, List.take_left]
    have hdrop : (b :: (r ++ t)).drop (b :: r).length = t := by
      rw [← List.cons_append, List.drop_left]
    simp only [List.cons_append] at hd ⊢
    unfold Folder.loop
    simp only [hd, htake, hdrop]
    simp only [hn, hr, foldU, endU, stepU]
    by_cases h1 : b :: r = [10]
    · simp only [if_pos h1]
      obtain ⟨k, hk⟩ := ih t fuel { f with line := 0 } n (pre ++ b :: r) ht hfuel' hf
      refine ⟨k, ?_⟩
      rw [hk]
      simp [List.append_assoc]
      omega
    · simp only [if_neg h1]
      by_cases h2 : b :: r = [13]
      · simp only [if_pos h2]
        obtain ⟨k, hk⟩ := ih t fuel { f with line := f.line + UInt8.ofNat (b :: r).length } n (pre ++ b :: r) ht hfuel' hf
        refine ⟨k, ?_⟩
        rw [hk]
        simp [List.append_assoc]
        omega
      · simp only [if_neg h2]
        by_cases h3 : f.line + UInt8.ofNat (b :: r).length > maxLineLength
        · simp only [h3, if_true]
          by_cases hp : pre = []
          · subst hp
            simp only [ne_eq, not_true_eq_false, if_false, hf, Option.isSome_none, Bool.false_eq_true, sink_ok]
            obtain ⟨k, hk⟩ := ih t fuel ⟨UInt8.ofNat (b :: r).length + 1, none, f.calls + 1, f.out ++ eol⟩ (n + 0) (b :: r) ht hfuel' rfl
            refine ⟨k, ?_⟩
            rw [hk]
            simp [List.append_assoc]
            omega
          · simp only [ne_eq, hp, not_false_eq_true, if_true, sink_ok, Option.isSome_none, Bool.false_eq_true, if_false]
            obtain ⟨k, hk⟩ := ih t fuel
              { line := UInt8.ofNat (b :: r).length + 1, err := none, calls := f.calls + 1 + 1, out := f.out ++ pre ++ eol } (n + pre.length) (b :: r) ht hfuel' rfl
            refine ⟨k, ?_⟩
            rw [hk]
            simp [List.append_assoc]
            omega
        · simp only [h3, if_false]
          obtain ⟨k, hk⟩ := ih t fuel { f with line := f.line + UInt8.ofNat (b :: r).length } n (pre ++ b :: r) ht hfuel' hf
          refine ⟨k, ?_⟩
          rw [hk]
          simp [List.append_assoc]
          omega

theorem write_pieces {q : Bytes} {us : List Bytes} (h : Pieces q us) (f : Folder) (hf : f.err = none) :
    ∃ k, f.write okSink q = ({ line := endU f.line us, err := none, calls := k, out := f.out ++ foldU f.line us }, q.length) := by
  unfold Folder.write
  simp only [hf, Option.isSome_none, Bool.false_eq_true, if_false]
  obtain ⟨k, hk⟩ := loop_pieces us q q.length f 0 [] h (Nat.le_refl _) hf
  exact ⟨k, by simpa using hk⟩

theorem writes_pieces {qs us : List Bytes} (h : AllPieces qs us) : ∀ (f : Folder), f.err = none →
    ∃ k, f.writes okSink qs = { line := endU f.line us, err := none, calls := k, out := f.out ++ foldU f.line us } := by
  induction h with
  | nil =>
    intro f hf
    refine ⟨f.calls, ?_⟩
    simp [Folder.writes, endU, foldU, ← hf]
  | @cons q qs us vs h _ ih =>
    intro f hf
    obtain ⟨k, hk⟩ := write_pieces h f hf
    obtain ⟨k', hk'⟩ := ih _ (show ({ line := endU f.line us, err := none, calls := k, out := f.out ++ foldU f.line us } : Folder).err = none from rfl)
    refine ⟨k', ?_⟩
    simp only [Folder.writes, List.foldl_cons, hk] at hk' ⊢
    rw [hk']
    simp [endU_append, foldU_append]

theorem foldU_folded (us : List Bytes) : ∀ col, FoldedAt us (foldU col us) := by
  induction us with
  | nil => intro col; exact .nil
  | cons u us ih =>
    intro col
    simp only [foldU]
    unfold stepU
    by_cases h1 : u = [10]
    · simp only [if_pos h1]; exact .keep u (ih _)
    · by_cases h2 : u = [13]
      · simp only [if_neg h1, if_pos h2]; exact .keep u (ih _)
      · simp only [if_neg h1, if_neg h2]
        split
        · exact .fold u h1 h2 (ih _)
        · exact .keep u (ih _)

/-! ## Length of lines -/

theorem IsPiece.no {u : Bytes} (h : IsPiece u) (k : Nat) (hk : k < 128) (hu : u ≠ [UInt8.ofNat k]) : ∀ b ∈ u, b ≠ UInt8.ofNat k := by
  rcases h with ⟨c, rfl⟩ | ⟨b, hb, rfl⟩
  · refine encodeChar_no_byte c k hk fun e => hu ?_
    rw [encodeChar_ascii c (by omega), e]
  · intro x hx
    simp only [List.mem_singleton] at hx
    subst hx
    intro e
    rw [e, UInt8.toNat_ofNat'] at hb
    omega

theorem crlfCleanB_drop {u r : Bytes} (h : crlfCleanB (u ++ r) = true) (h1 : ∀ b ∈ u, b ≠ 13) : crlfCleanB r = true ∧ ∀ b ∈ u, b ≠ 10 := by
  induction u with
  | nil => exact ⟨h, by simp⟩
  | cons x u ih =>
    have hx : x ≠ 13 := h1 x (by simp)
    rw [List.cons_append] at h
    have : x ≠ 10 ∧ crlfCleanB (u ++ r) = true := by
      cases hq : u ++ r with
      | nil => rw [hq] at h; simp [crlfCleanB] at h; exact ⟨h.2, rfl⟩
      | cons y q => rw [hq] at h; simp [crlfCleanB, hx] at h; exact h
    obtain ⟨h2, h3⟩ := ih this.2 (fun b hb => h1 b (by simp [hb]))
    refine ⟨h2, fun b hb => ?_⟩
    rcases List.mem_cons.1 hb with rfl | hb
    · exact this.1
    · exact h3 b hb

theorem physLines_foldU : ∀ (n : Nat) (us : List Bytes), us.length ≤ n → (∀ u ∈ us, IsPiece u) → crlfCleanB us.flatten = true →
    ∀ (col : UInt8) (cur : Bytes), cur.length = col.toNat → col.toNat ≤ 75 → ∀ l ∈ physLinesAux cur (foldU col us), l.length ≤ 75 := by
  intro n
  induction n with
  | zero =>
    intro s hs _ _ col cur hc hl l hm
    have : s = [] := List.length_eq_zero_iff.1 (by omega)
    subst this
    simp [foldU, physLinesAux] at hm
    subst hm; omega
  | succ n ih =>
    intro s hs hp hclean col cur hc hl l hm
    rcases s with _ | ⟨u, s⟩
    · simp [foldU, physLinesAux] at hm
      subst hm; omega
    by_cases hcr : u = [13]
    · subst hcr
      rcases s with _ | ⟨d, s⟩
      · simp [crlfCleanB] at hclean
      · have hd : d = [10] ∧ crlfCleanB s.flatten = true := by
          have hpd := hp d (by simp)
          have hld := hpd.length
          rcases d with _ | ⟨x, d⟩
          · simp at hld
          have hx : x = 10 ∧ crlfCleanB (d ++ s.flatten) = true := by simpa [crlfCleanB] using hclean
          obtain ⟨rfl, hx⟩ := hx
          have : (10 : UInt8) :: d = [10] := by
            by_cases hd : (10 : UInt8) :: d = [10]
            · exact hd
            · exact absurd rfl (hpd.no 10 (by decide) hd 10 (by simp))
          injection this with _ this
          subst this
          exact ⟨rfl, hx⟩
        obtain ⟨rfl, hclean⟩ := hd
        have : foldU col ([13] :: [10] :: s) = 13 :: 10 :: foldU 0 s := by
          have hstep : stepU col [13] = (col + 1, [13]) := by simp [stepU]
          have hstep2 : stepU (col + 1) [10] = (0, [10]) := by simp [stepU]
          simp only [foldU, hstep, hstep2]
          rfl
        rw [this] at hm
        simp only [physLinesAux, and_self, if_true, List.mem_cons] at hm
        rcases hm with rfl | hm
        · omega
        · simp at hs
          exact ih s (by omega) (fun u hu => hp u (by simp [hu])) hclean 0 [] (by simp) (by simp) l hm
    · have hne : ∀ b ∈ u, b ≠ 13 := (hp u (by simp)).no 13 (by decide) hcr
      rw [List.flatten_cons] at hclean
      obtain ⟨hclean, hnl'⟩ := crlfCleanB_drop hclean hne
      have hnl : u ≠ [10] := by rintro rfl; exact hnl' 10 (by simp) rfl
      have hlen := (hp u (by simp)).length
      simp only [List.length_cons] at hs
      simp only [foldU, stepU, if_neg hcr, if_neg hnl] at hm
      have hp' : ∀ u ∈ s, IsPiece u := fun u hu => hp u (by simp [hu])
      split at hm
      · have hx : eol ++ u ++ foldU (UInt8.ofNat u.length + 1) s = 13 :: 10 :: ((32 :: u) ++ foldU (UInt8.ofNat u.length + 1) s) := rfl
        rw [hx] at hm
        simp only [physLinesAux, and_self, if_true, List.mem_cons] at hm
        rcases hm with rfl | hm
        · omega
        rw [physLinesAux_append _ (by
          intro b hb
          simp only [List.mem_cons] at hb
          rcases hb with rfl | hb
          · decide
          · exact hne b hb)] at hm
        have hcol : (UInt8.ofNat u.length + 1).toNat = u.length + 1 := by
          rw [UInt8.toNat_add, UInt8.toNat_ofNat']
          have : (1 : UInt8).toNat = 1 := rfl
          omega
        refine ih s (by omega) hp' hclean _ _ ?_ ?_ l hm
        · rw [hcol]; simp
        · rw [hcol]; omega
      · next h3 =>
        rw [physLinesAux_append _ hne] at hm
        have hadd := uadd_toNat col u.length (by omega)
        have h3' : (col + UInt8.ofNat u.length).toNat ≤ 75 := UInt8.le_iff_toNat_le.1 (UInt8.not_lt.1 h3)
        refine ih s (by omega) hp' hclean _ _ ?_ h3' l hm
        rw [hadd, List.length_append, hc]

/-! ## Unfolding -/

theorem folded_head {us : List Bytes} {t : Bytes} (h : FoldedAt us t) (hp : ∀ u ∈ us, IsPiece u) {x : UInt8} {r : Bytes} (hx : x ≠ 13) (hk : x.toNat < 128) (e : t = x :: r) :
    ∃ vs, us = [x] :: vs ∧ FoldedAt vs r := by
  cases h with
  | nil => cases e
  | @keep u us t h =>
    have hu := hp u (by simp)
    have hl := hu.length
    rcases u with _ | ⟨y, u⟩
    · simp at hl
    rw [List.cons_append] at e
    injection e with e1 e2
    subst e1
    have : y :: u = [y] := by
      by_cases hd : y :: u = [UInt8.ofNat y.toNat]
      · simpa using hd
      · exact absurd (by simp) (hu.no y.toNat hk hd y (by simp))
    injection this with _ this
    subst this
    exact ⟨us, rfl, by rw [List.nil_append] at e2; rw [← e2]; exact h⟩
  | fold u _ _ h =>
    injection e with e1 _
    exact absurd e1.symm hx

theorem removeFolds_folded {us : List Bytes} {t : Bytes} (h : FoldedAt us t) (hp : ∀ u ∈ us, IsPiece u) (hno : ¬ hasFold us.flatten) : removeFolds t = us.flatten := by
  induction h with
  | nil => rfl
  | @keep u us t h ih =>
    have hi := ih (fun u hu => hp u (by simp [hu])) fun hi => hno (by
      rw [List.flatten_cons]
      exact hi.trans (List.suffix_append _ _ |>.isInfix))
    by_cases hu : u = [13]
    · subst hu
      rw [List.flatten_cons, List.singleton_append, removeFolds_ne, hi]
      · rfl
      · intro r hr
        injection hr with _ h2
        obtain ⟨vs, rfl, h3⟩ := folded_head h (fun u hu => hp u (by simp [hu])) (by decide) (by decide) h2
        obtain ⟨ws, rfl, h4⟩ := folded_head h3 (fun u hu => hp u (by simp [hu])) (by decide) (by decide) rfl
        exact hno ⟨[], ws.flatten, by simp⟩
    · rw [removeFolds_append u ((hp u (by simp)).no 13 (by decide) hu), hi, List.flatten_cons]
  | @fold u us t _ hu h ih =>
    have hi := ih (fun u hu => hp u (by simp [hu])) fun hi => hno (by
      rw [List.flatten_cons]
      exact hi.trans (List.suffix_append _ _ |>.isInfix))
    rw [show [13, 10, 32] ++ u ++ t = 13 :: 10 :: 32 :: (u ++ t) from rfl, removeFolds, if_pos ⟨rfl, rfl, rfl⟩,
      removeFolds_append u ((hp u (by simp)).no 13 (by decide) hu), hi, List.flatten_cons]

end Ics
