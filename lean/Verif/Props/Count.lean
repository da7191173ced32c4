import Verif.UnfolderCount
import Verif.ReadingLemmas
/-!
# Theorems about what a `Read` of the unfolding reader returns: C93

`r.m` is the count it returns, `r.q` the content of the buffer, `r.err` the error.
-/

namespace Ics.Props

open Spec

/-- The full claim: for every reader that keeps to the contract of `io.Reader`, in every state and with every buffer, a call that returns gives a count between zero and
the size of the buffer, and no call panics. -/
def C93_claim : Prop := ∀ (R : Reader), ReaderOk R → ∀ (fuel : Nat) (u : Unfolder) (k : Nat),
  Unfolder.read R fuel u k ≠ .panic ∧ ∀ r, Unfolder.read R fuel u k = .done r → 0 ≤ r.m ∧ r.m ≤ k

/-- C93.  No call panics, whatever the reader. -/
theorem C93_never_panics (R : Reader) (fuel : Nat) (u : Unfolder) (k : Nat) : Unfolder.read R fuel u k ≠ .panic := (read_settle_ne_panic fuel).1 u k

/-- C93.  The count is at most the size of the buffer, whatever the reader. -/
theorem C93_at_most_the_buffer (R : Reader) (hok : ReaderOk R) (fuel : Nat) (u : Unfolder) (k : Nat) (r : ReadRes) (h : Unfolder.read R fuel u k = .done r) : r.m ≤ k := by
  have := (count_le hok fuel).1 u k r h
  omega

/-- C93 for readers that deliver something with every call that returns no error: the count is not negative, and if no error is returned, all of the buffer that was written to is
counted.  Missing from the full claim: readers that return nothing and no error. -/
theorem C93_count_partial (R : Reader) (hok : ReaderOk R) (hE : Eager R) (fuel : Nat) (u : Unfolder) (k : Nat) (r : ReadRes) (h : Unfolder.read R fuel u k = .done r) :
    0 ≤ r.m ∧ r.m ≤ r.q.length ∧ r.q.length ≤ k ∧ (r.err = none → r.m = r.q.length) := by
  have h1 := (count_le hok fuel).1 u k r h
  have h2 := (count_ge hok hE fuel).1 u k r h
  exact ⟨h2.1, h1.2, h1.1, h2.2⟩

/-- CR, then LF SPACE, then nothing without an error, then LF SPACE again, then the end. -/
def emptyReader : Reader
  | [_] => ([13], none)
  | [k, _] => ([10, 32].take k, none)
  | [_, _, _] => ([], none)
  | [k, _, _, _] => ([10, 32].take k, none)
  | _ => ([], some 0)

/-- What this reader does for buffers of at least one octet. -/
theorem emptyReader_ok (k : Nat) (h : List Nat) (hk : 0 < k) : (emptyReader (k :: h)).1.length ≤ k := by
  match h with
  | [] => simp only [emptyReader, List.length_singleton]; exact hk
  | [_] => simp only [emptyReader]; exact List.length_take_le _ _
  | [_, _] => simp [emptyReader]
  | [_, _, _] => simp only [emptyReader]; exact List.length_take_le _ _
  | _ :: _ :: _ :: _ :: _ => simp [emptyReader]

/-- The same, delivering nothing into an empty buffer. -/
def emptyReader' : Reader
  | 0 :: _ => ([], none)
  | h => emptyReader h

theorem emptyReader'_ok : ReaderOk emptyReader' := by
  intro k h
  cases k with
  | zero => simp [emptyReader']
  | succ k => exact emptyReader_ok (k + 1) h (by omega)

/-- C93 fails: the second time that the rest of a marker is found, a CR that was removed already is counted again. -/
theorem C93_negative_count : Unfolder.read emptyReader' 20 {} 9 = .done ⟨⟨[], [1, 2, 1, 2, 9]⟩, [13], -1, some 0⟩ := by
  decide +kernel

/-- C93.  The claim as stated in full is false: a counterexample. -/
theorem C93_full_claim_is_false : ¬ C93_claim := by
  intro h
  have := ((h emptyReader' emptyReader'_ok 20 {} 9).2 _ C93_negative_count).1
  simp at this

/-! ## Concrete cases -/

/-- "a" CR LF SPACE "b" from memory, with a buffer of two octets: the hypotheses of `C93_count_partial` hold, and the count is two. -/
example : ReaderOk (fullReader [97, 13, 10, 32, 98] 0) ∧ Eager (fullReader [97, 13, 10, 32, 98] 0) ∧
    Unfolder.read (fullReader [97, 13, 10, 32, 98] 0) 20 {} 2 = .done ⟨⟨[], [1, 2, 2]⟩, [97, 98], 2, none⟩ :=
  ⟨fullReader_ok _ _, fullReader_eager _ _, by decide +kernel⟩

end Ics.Props
