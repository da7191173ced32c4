import Verif.ExactLemmas
import Verif.Spec.ExactEach
import Verif.DecodedLemmas
import Verif.Props.Decode
/-!
# Theorems about exactly what Decode accepts: C74
-/

namespace Ics.Props

open Spec

/-! ## C74 Exactly the documents that are accepted, and what they are read as -/

/-- C74.  `Decode` returns a calendar exactly if the document begins with lines that are read as this calendar by the grammar of Spec/Exact.lean; for all documents, whatever the case
of their names. -/
theorem C74_exact (E : Env) (s : Str) (c : Cal) : decodeDoc E s = .ok c ↔ ∃ p r, (tokenise s).lines = p ++ r ∧ ExactDoc E p c := decodeStream_grammar

/-- C74.  The grammar is not ambiguous: a document begins with one calendar at most, and is read in one way. -/
theorem C74_one (E : Env) (p p' r r' : List Line) (c c' : Cal) (h : ExactDoc E p c) (h' : ExactDoc E p' c') (e : p ++ r = p' ++ r') : p = p' ∧ c = c' := exactDoc_unique h h' e

/-- C74.  For documents with the names of components, BEGIN, END and ACTION in upper case, this is the structure of RFC 5545. -/
theorem C74_rfc (E : Env) (p : List Line) (c : Cal) (hl : Loud p) : ExactDoc E p c ↔ DocReads E p c := exactDoc_reads hl

/-- The document of C13, in which an alarm is ended by `end:VALARM` and by the END line behind it, which belongs to something else. -/
example : ∃ p r, (tokenise extraEnd).lines = p ++ r ∧ ExactDoc sampleEnv p noneAlarmCal := (C74_exact ..).1 C13_extra_end

example : Skipped c!"X-FOO" [⟨c!"A", [], c!"1"⟩, ⟨c!"Begin", [], c!"BAR"⟩, ⟨c!"END", [], c!"bar"⟩, ⟨c!"end", [], c!"x-foo"⟩] :=
  .line (by decide) (by decide) (.block (k := [_]) (by decide) (.fin (by decide) (by decide)) (.fin (by decide) (by decide)))

/-- A component in an unknown component whose name is not in upper case never ends. -/
example : ∀ k, ¬ Skipped c!"bar" k := by
  have : ∀ n k, Skipped n k → upper n = n := by
    intro n k h
    induction h with
    | fin _ h => rw [← h, upper_idem]
    | line _ _ _ ih => exact ih
    | block _ _ _ _ ih => exact ih
  intro k h
  exact absurd (this _ _ h) (by decide)

/-! ## C39 Order, for all documents -/

theorem ExactSect.each {κ σ : Type} {E : Env} {T : Tab κ} {R : κ → List Line → σ → Prop} {k : List Line} {s : Sect σ} (h : ExactSect E T R k s) :
    ∃ is, Cut T k is ∧ InOrder E T.fields is s.fields ∧ ∀ (i : Nat) (x : Str × κ), T.subs[i]? = some x → Pairwise2 (R x.2) (blocksNamed is x.1) (s.subs.getD i []) := by
  obtain ⟨k, e, is, rfl, he, hv, hp, _, _, hf, hs, _⟩ := h
  refine ⟨is, ⟨k, e, rfl, he, hv, hp⟩, fun i f hi => ?_, hs⟩
  obtain ⟨h3, _⟩ := hf i f hi
  exact ⟨(Pairwise2.length h3).symm, fun j l hl => pairwise2_get h3 j l hl⟩

/-- C39, for all documents: in every accepted document, whatever the case of its names, the blocks (divided as the decoder does) are the components of the calendar, in their order;
and in each of them, every property that is known has one value for each of its lines, in the order of the lines, decoded from that line. -/
theorem C39_every_document (E : Env) (s : Str) (c : Cal) (h : decodeDoc E s = .ok c) : ∃ pre rest, (tokenise s).lines = pre ++ rest ∧ CalEach (InOrder E) pre c := by
  obtain ⟨p, r, h1, b, k, rfl, hb, hk⟩ := (C74_exact E s c).1 h
  obtain ⟨is, h2, h3, h4⟩ := ExactSect.each hk
  refine ⟨b :: k, r, h1, b, k, is, rfl, hb, h2, h3, fun i x hx => Pairwise2.imp (fun k s hs => ?_) (h4 i x hx)⟩
  obtain ⟨js, j2, j3, j4⟩ := ExactSect.each hs
  refine ⟨js, j2, j3, fun i x hx => Pairwise2.imp (fun k s hs => ?_) (j4 i x hx)⟩
  match x.2, s, hs with
  | .leaf T, .leaf s, hs =>
    obtain ⟨is, i2, i3, _⟩ := ExactSect.each hs
    exact ⟨is, i2, i3⟩
  | .alarm, .alarm (some (a, s)), hs =>
    obtain ⟨_, _, _, _, _, _, p, q, hp, hs⟩ := hs
    obtain ⟨is, i2, i3, _⟩ := ExactSect.each hs
    exact ⟨p, q, is, hp, i2, i3⟩
  | .leaf _, .alarm _, hs => exact hs.elim
  | .alarm, .leaf _, hs => exact hs.elim
  | .alarm, .alarm none, hs => exact hs.elim

example : ∃ pre rest, (tokenise extraEnd).lines = pre ++ rest ∧ CalEach (InOrder sampleEnv) pre noneAlarmCal := C39_every_document _ _ _ C13_extra_end

end Ics.Props
