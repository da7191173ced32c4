import Verif.FoldingProofs
/-!
# Properties C01 - C05: the folding writer

`Folder.writes W {} qs` is the state after the encoder made the writes `qs` on a fresh folder over the
caller's writer `W`; `.out` is what the writer received.  `okSink` is a writer that never fails.
-/

namespace Ics.Props

open Ics Spec

/-- C01.  Whatever text the encoder writes, in whatever pieces, no physical line (the octets between CR LF pairs) received by
the caller's writer is longer than 75 octets, as long as CR and LF occur in the text only as CR LF pairs. -/
theorem C01_lines_at_most_75_octets (ss : List Str) (h : crlfClean ss.flatten = true) :
    ∀ l ∈ physLines (({} : Folder).writes okSink (ss.map utf8)).out, l.length ≤ 75 := by
  obtain ⟨k, hk⟩ := writes_ok ss {} rfl
  rw [hk]
  simp only [List.nil_append]
  exact physLines_foldStr _ ss.flatten (Nat.le_refl _) h 0 [] rfl (by decide)

/-- C02.  What reaches the writer is the UTF-8 encoding of a sequence of whole characters: the text with CR LF SPACE inserted
in front of some characters; no character is split and nothing else changes. -/
theorem C02_fold_never_splits_characters (ss : List Str) :
    ∃ t, (({} : Folder).writes okSink (ss.map utf8)).out = utf8 t ∧ FoldOf ss.flatten t := by
  obtain ⟨k, hk⟩ := writes_ok ss {} rfl
  exact ⟨foldStr 0 ss.flatten, by rw [hk]; rfl, foldStr_FoldOf _ _⟩

/-- C03.  Deleting each CR LF SPACE from what was written gives back exactly the text, if the text itself holds no CR LF
SPACE. -/
theorem C03_folding_is_transparent (ss : List Str) (h : ¬ hasFold (utf8 ss.flatten)) :
    removeFolds (({} : Folder).writes okSink (ss.map utf8)).out = utf8 ss.flatten := by
  obtain ⟨k, hk⟩ := writes_ok ss {} rfl
  rw [hk]
  show removeFolds (utf8 (foldStr 0 ss.flatten)) = _
  rw [removeFolds_utf8 _ _ (Nat.le_refl _), removeFoldsC_FoldOf (foldStr_FoldOf _ _)]
  intro hi
  exact h (hasFold_of_infix hi)

/-- C04.  Only the text counts, not the pieces in which it is written. -/
theorem C04_write_granularity_irrelevant (ss ss' : List Str) (h : ss.flatten = ss'.flatten) :
    (({} : Folder).writes okSink (ss.map utf8)).out = (({} : Folder).writes okSink (ss'.map utf8)).out := by
  obtain ⟨k, hk⟩ := writes_ok ss {} rfl
  obtain ⟨k', hk'⟩ := writes_ok ss' {} rfl
  rw [hk, hk', h]

/-- C04, return values: a write to a writer that does not fail returns the number of octets it was given and no error. -/
theorem C04_write_returns_length (f : Folder) (hf : f.err = none) (s : Str) :
    (f.write okSink (utf8 s)).2 = (utf8 s).length ∧ (f.write okSink (utf8 s)).1.err = none := by
  obtain ⟨k, hk⟩ := write_ok f hf s
  rw [hk]
  exact ⟨rfl, rfl⟩

/-- C05.  For every writer `W` (failing at any call, having accepted any part of the octets offered) and every sequence
of writes: either none of the calls made failed, no error is recorded and the writer received what a writer
that never fails receives; or the last call made is the first one that failed, its error is recorded, and what
the writer accepted is a prefix of what a writer that never fails receives. -/
theorem C05_failing_writer (W : Sink) (qs : List Bytes) :
    let f := ({} : Folder).writes W qs
    let g := ({} : Folder).writes okSink qs
    (f.err = none ∧ f.out = g.out ∧ ∀ k < f.calls, W k = none) ∨
    (∃ a e, f.err = some e ∧ 0 < f.calls ∧ W (f.calls - 1) = some (a, e) ∧
      (∀ k < f.calls - 1, W k = none) ∧ f.out <+: g.out) := by
  intro f g
  rcases sim_writes W qs {} rfl with ⟨h1, h2, _, h4⟩ | ⟨a, e, h1, h2, h3, h4, h5⟩
  · exact Or.inl ⟨h2, congrArg Folder.out h1, fun k hk => h4 k (Nat.zero_le _) hk⟩
  · exact Or.inr ⟨a, e, h1, h2, h3, fun k hk => h4 k (Nat.zero_le _) hk, h5⟩

/-- C05, stickiness: once an error is recorded, later writes change nothing and do not touch the writer. -/
theorem C05_error_is_sticky (W : Sink) (f : Folder) (hf : f.err.isSome = true) (qs : List Bytes) :
    f.writes W qs = f := writes_err W qs f hf

/-! ## Concrete cases -/

/-- A summary of 80 characters, among them a two octet one right at the fold position. -/
def sampleText : List Str :=
  [c!"SUMMARY:", List.replicate 66 'a', ['é'], List.replicate 20 'b', c!"\r\n"]

example : crlfClean sampleText.flatten = true := by decide

example : (physLines (({} : Folder).writes okSink (sampleText.map utf8)).out).map List.length = [74, 23, 0] := by
  decide +kernel

example : removeFolds (({} : Folder).writes okSink (sampleText.map utf8)).out = utf8 sampleText.flatten := by
  decide +kernel

/-- A writer accepting 5 octets of the second call and then reporting error 7. -/
example : (({} : Folder).writes (fun k => if k = 1 then some (5, 7) else none) (sampleText.map utf8)).err = some 7 ∧
    (({} : Folder).writes (fun k => if k = 1 then some (5, 7) else none) (sampleText.map utf8)).calls = 2 ∧
    (({} : Folder).writes (fun k => if k = 1 then some (5, 7) else none) (sampleText.map utf8)).out.length = 13 := by
  decide +kernel

end Ics.Props
