import Verif.Props.Cuts
import Verif.Props.LineEnds
/-!
# Theorems about Decode and readers whose calls do not cut a marker: C07, C95

They carry what is proved of `Decode` for texts over to readers.
-/

namespace Ics.Props

open Ics Spec

/-- C07, for `Decode`.  If no marker is cut and the unfolded document has no marker itself, `Decode` returns what it returns for the unfolded text. -/
theorem C07_decode_partial (E : Env) (R : Reader) (hok : ReaderOk R) (hL : LazyErr R) (hE : Eager R) (ks : List Nat) (hks : ∀ k ∈ ks, 5 ≤ k) (fuel : Nat) (out : Bytes) (e : Nat) (u : Unfolder)
    (h : readAll R fuel ks {} [] = .done (out, some e, u)) (ht : ¬ hasFold (removeFolds (delivered R u.hist))) (hs : ¬ MarkerSplit R u.hist) :
    decodeReader E R fuel ks = .done (decodeDoc E (runes (removeFolds (delivered R u.hist)))) := by
  unfold decodeReader
  rw [h, C07_uncut_partial R hok hL hE ks hks fuel out e u h ht hs]
  rfl

/-- C07, for `Decode`.  So two readers that deliver the same octets in whatever pieces, with buffers of whatever sizes, give the same result. -/
theorem C07_same_result_partial (E : Env) (R R' : Reader) (hok : ReaderOk R) (hL : LazyErr R) (hE : Eager R) (hok' : ReaderOk R') (hL' : LazyErr R') (hE' : Eager R') (ks ks' : List Nat)
    (hks : ∀ k ∈ ks, 5 ≤ k) (hks' : ∀ k ∈ ks', 5 ≤ k) (fuel fuel' : Nat) (out out' : Bytes) (e e' : Nat) (u u' : Unfolder)
    (h : readAll R fuel ks {} [] = .done (out, some e, u)) (h' : readAll R' fuel' ks' {} [] = .done (out', some e', u')) (hd : delivered R u.hist = delivered R' u'.hist)
    (ht : ¬ hasFold (removeFolds (delivered R u.hist))) (hs : ¬ MarkerSplit R u.hist) (hs' : ¬ MarkerSplit R' u'.hist) :
    decodeReader E R fuel ks = decodeReader E R' fuel' ks' := by
  rw [C07_decode_partial E R hok hL hE ks hks fuel out e u h ht hs, C07_decode_partial E R' hok' hL' hE' ks' hks' fuel' out' e' u' h' (hd ▸ ht) hs', hd]

/-- C95, for readers.  `Decode` returns a calendar exactly if the octets delivered, without the markers CR LF SPACE, are those of a text of which C95 says so. -/
theorem C95_readers_partial (E : Env) (R : Reader) (hok : ReaderOk R) (hL : LazyErr R) (hE : Eager R) (ks : List Nat) (hks : ∀ k ∈ ks, 5 ≤ k) (fuel : Nat) (out : Bytes) (e : Nat) (u : Unfolder)
    (h : readAll R fuel ks {} [] = .done (out, some e, u)) (ht : ¬ hasFold (removeFolds (delivered R u.hist))) (hs : ¬ MarkerSplit R u.hist) (c : Cal) :
    decodeReader E R fuel ks = .done (.ok c) ↔ ∃ ls, TextBegins ls (runes (removeFolds (delivered R u.hist))) ∧ ExactDoc E ls c := by
  rw [C07_decode_partial E R hok hL hE ks hks fuel out e u h ht hs, ← C95_exactly]
  constructor
  · intro h
    injection h
  · intro h
    rw [h]

/-! ## Concrete cases -/

/-- A calendar with one event, folded once. -/
def foldedOnce : Bytes := utf8 (c!"BEGIN:VCAL" ++ c!"\r\n " ++ (endedBy c!"\r\n").drop 10)

theorem foldedOnce_noMore : ¬ [13, 10, 32, 32] <:+: foldedOnce := by
  rintro ⟨a, b, hab⟩
  have hl := congrArg (fun l => (l.filter (· = 32)).length) hab
  have h1 : (foldedOnce.filter (· = 32)).length = 1 := by decide +kernel
  simp only [List.filter_append, List.length_append, h1] at hl
  have h2 : (([13, 10, 32, 32] : Bytes).filter (· = 32)).length = 2 := by decide
  omega

theorem foldedOnce_unfolded : ¬ hasFold (removeFolds foldedOnce) := noFold_decide (by decide +kernel)

/-- Read from memory with a buffer of 50 octets, no marker is cut. -/
theorem foldedOnce_read : ∃ out u, readAll (fullReader foldedOnce 0) 300 (List.replicate 6 50) {} [] = .done (out, some 0, u) ∧ delivered (fullReader foldedOnce 0) u.hist = foldedOnce ∧
    ¬ MarkerSplit (fullReader foldedOnce 0) u.hist := by
  have h : ∃ out u, readAll (fullReader foldedOnce 0) 300 (List.replicate 6 50) {} [] = .done (out, some 0, u) ∧ delivered (fullReader foldedOnce 0) u.hist = foldedOnce ∧
      out = removeFolds (delivered (fullReader foldedOnce 0) u.hist) := by
    refine ⟨utf8 (endedBy c!"\r\n"), ⟨[], [1, 50, 50, 3, 50]⟩, ?_, ?_, ?_⟩ <;> decide +kernel
  obtain ⟨out, u, h1, h2, h3⟩ := h
  exact ⟨out, u, h1, h2, (C07_exactly_partial _ (fullReader_ok _ _) (fullReader_lazy _ _) (fullReader_eager _ _) _ (by decide) _ _ _ _ h1
    (by rw [h2]; exact foldedOnce_unfolded) (by rw [h2]; exact foldedOnce_noMore)).1 h3⟩

example : (∃ c, decodeReader sampleEnv (fullReader foldedOnce 0) 300 (List.replicate 6 50) = .done (.ok c)) := by
  obtain ⟨out, u, h1, h2, h3⟩ := foldedOnce_read
  have h := C07_decode_partial sampleEnv _ (fullReader_ok _ _) (fullReader_lazy _ _) (fullReader_eager _ _) _ (by decide) _ _ _ _ h1 (by rw [h2]; exact foldedOnce_unfolded) h3
  rw [h, h2]
  have : (decodeDoc sampleEnv (runes (removeFolds foldedOnce))).isOk = true := by decide +kernel
  cases hd : decodeDoc sampleEnv (runes (removeFolds foldedOnce)) with
  | ok c => exact ⟨c, rfl⟩
  | err e => rw [hd] at this; cases this
  | panic => rw [hd] at this; cases this

end Ics.Props
