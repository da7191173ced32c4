import Verif.FolderOctets
/-!
# Theorems about folding octets that need not be UTF-8: C96
-/

namespace Ics.Props

open Spec

/-- C96.  Every string of octets has its pieces, and one way to have them only. -/
theorem C96_pieces (q : Bytes) : ∃ us, Pieces q us ∧ ∀ vs, Pieces q vs → vs = us := by
  obtain ⟨us, h⟩ := pieces_exist q
  refine ⟨us, h, ?_⟩
  have key : ∀ (us : List Bytes) (q : Bytes), Pieces q us → ∀ vs, Pieces q vs → vs = us := by
    intro us
    induction us with
    | nil =>
      intro q h vs hv
      have e := h.flatten
      simp only [List.flatten_nil] at e
      subst e
      cases vs with
      | nil => rfl
      | cons v vs =>
        have h1 := (hv.piece v (by simp)).length
        have h2 := congrArg List.length hv.flatten
        rw [List.flatten_cons, List.length_append, List.length_nil] at h2
        omega
    | cons u us ih =>
      intro q h vs hv
      cases vs with
      | nil =>
        have h1 := (h.piece u (by simp)).length
        have h2 := hv.flatten
        simp only [List.flatten_nil] at h2
        subst h2
        have h3 := congrArg List.length h.flatten
        rw [List.flatten_cons, List.length_append, List.length_nil] at h3
        omega
      | cons v vs =>
        obtain ⟨t, x, e1, ht, hx, _⟩ := decodeRune_piece h
        obtain ⟨t', y, e2, ht', hy, _⟩ := decodeRune_piece hv
        rw [hx] at hy
        injection hy with _ hy
        obtain ⟨e3, e4⟩ := List.append_inj (e1.symm.trans e2) hy
        subst e3; subst e4
        rw [ih t ht vs ht']
  exact fun vs hv => key us q h vs hv

/-- C96.  Whatever octets are written, in whatever strings: the writer receives the octets, with CR LF SPACE in front of some of the pieces of the strings; a character is never
broken up, unless it is written in two strings. -/
theorem C96_broken_between_pieces (qs us : List Bytes) (h : AllPieces qs us) : FoldedAt us (({} : Folder).writes okSink qs).out := by
  obtain ⟨k, hk⟩ := writes_pieces h {} rfl
  rw [hk]
  exact foldU_folded us 0

/-- C96.  No line is longer than 75 octets, if CR and LF are written as CR LF only. -/
theorem C96_lines_at_most_75_octets (qs : List Bytes) (h : crlfCleanB qs.flatten = true) : ∀ l ∈ physLines (({} : Folder).writes okSink qs).out, l.length ≤ 75 := by
  obtain ⟨us, hu⟩ := allPieces_exist qs
  obtain ⟨k, hk⟩ := writes_pieces hu {} rfl
  rw [hk]
  exact physLines_foldU _ us (Nat.le_refl _) hu.piece (by rw [hu.flatten]; exact h) 0 [] rfl (by decide)

/-- C96.  The octets are had back by removing the markers, if there were none in what was written. -/
theorem C96_transparent (qs : List Bytes) (h : ¬ hasFold qs.flatten) : removeFolds (({} : Folder).writes okSink qs).out = qs.flatten := by
  obtain ⟨us, hu⟩ := allPieces_exist qs
  rw [removeFolds_folded (C96_broken_between_pieces qs us hu) hu.piece (by rw [hu.flatten]; exact h), hu.flatten]

/-- C96.  A write to a writer that does not fail returns the number of octets it was given and no error. -/
theorem C96_write_returns_length (f : Folder) (hf : f.err = none) (q : Bytes) : (f.write okSink q).2 = q.length ∧ (f.write okSink q).1.err = none := by
  obtain ⟨us, hu⟩ := pieces_exist q
  obtain ⟨k, hk⟩ := write_pieces hu f hf
  rw [hk]
  exact ⟨rfl, rfl⟩

/-- C96.  Strings with the same pieces are written alike; so the strings may be divided at every place that is not within a character. -/
theorem C96_granularity_partial (qs qs' us : List Bytes) (h : AllPieces qs us) (h' : AllPieces qs' us) :
    (({} : Folder).writes okSink qs).out = (({} : Folder).writes okSink qs').out := by
  obtain ⟨k, hk⟩ := writes_pieces h {} rfl
  obtain ⟨k', hk'⟩ := writes_pieces h' {} rfl
  rw [hk, hk']

/-- The full claim: what is written does not depend on the strings in which it is. -/
def C96_claim : Prop := ∀ qs qs' : List Bytes, qs.flatten = qs'.flatten → (({} : Folder).writes okSink qs).out = (({} : Folder).writes okSink qs').out

/-- C96.  A character that is written in two strings may be broken up: the octets of "é" behind 74 others. -/
theorem C96_character_broken : (({} : Folder).writes okSink [List.replicate 74 97 ++ [0xc3], [0xa9]]).out = List.replicate 74 97 ++ [0xc3, 13, 10, 32, 0xa9] ∧
    (({} : Folder).writes okSink [List.replicate 74 97 ++ [0xc3, 0xa9]]).out = List.replicate 74 97 ++ [13, 10, 32, 0xc3, 0xa9] := by
  decide +kernel

/-- C96.  The claim as stated in full is false: a counterexample. -/
theorem C96_full_claim_is_false : ¬ C96_claim := by
  intro h
  have := h [List.replicate 74 97 ++ [0xc3], [0xa9]] [List.replicate 74 97 ++ [0xc3, 0xa9]] (by decide)
  rw [C96_character_broken.1, C96_character_broken.2] at this
  exact absurd this (by decide)

/-! ## Concrete cases -/

/-- A parameter with octets that are not UTF-8 at the place where the line is broken. -/
def wildOctets : List Bytes := [List.replicate 73 97, [0xe2, 0x82], [0x82, 0xac, 0xff], [0xe2, 0x82, 0xac, 13, 10]]

example : crlfCleanB wildOctets.flatten = true ∧ (({} : Folder).writes okSink wildOctets).out = List.replicate 73 97 ++ [0xe2, 0x82, 13, 10, 32, 0x82, 0xac, 0xff, 0xe2, 0x82, 0xac, 13, 10] := by
  decide +kernel

example : ¬ hasFold wildOctets.flatten := fun h => by
  obtain ⟨a, b, e⟩ := h
  have : (32 : UInt8) ∈ wildOctets.flatten := by rw [← e]; simp
  exact absurd this (by decide)

example : Pieces [0xe2, 0x82, 0xff] [[0xe2], [0x82], [0xff]] := by
  have h : ∀ (b : UInt8) (t : Bytes), decodeRune (b :: t) = (0xFFFD, 1) → ∀ c r, b :: t ≠ encodeChar c ++ r := fun b t => not_rune
  exact .bad _ (h _ _ (by decide)) (.bad _ (h _ _ (by decide)) (.bad _ (h _ _ (by decide)) .nil))

end Ics.Props
