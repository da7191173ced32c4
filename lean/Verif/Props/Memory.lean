import Verif.MemoryLemmas
import Verif.Spec.Memory
import Verif.Props.Count
import Verif.Props.Readers
/-!
# Property C107: what the rest of the buffers holds does not matter

`u.read R S fuel mem` is `Read` of the unfolding reader with a buffer that holds `mem`; `R` is what the caller's reader delivers and `S` what it does with the rest of the slices it is given.
-/

namespace Ics.Props

open Ics Spec

/-- C107, the full claim: the count, the error and the octets counted do not depend on what the buffer held before, and not on what the caller's reader does with the rest of the slice. -/
def C107_claim : Prop := ∀ (R : Reader), ReaderOk R → ∀ (S S' : Scratch), ScratchOk S → ScratchOk S' → ∀ (fuel : Nat) (u : MUnfolder), MUnfolderOk u → ∀ (mem mem' : Bytes),
  mem.length = mem'.length → Spec.Run.map MRes.seen (u.read R S fuel mem) = Spec.Run.map MRes.seen (u.read R S' fuel mem')

theorem seen_sim {R : Reader} {S : Scratch} (hok : ReaderOk R) (hS : ScratchOk S) (hL : LeavesAlone R S) (fuel : Nat) {a : MUnfolder} (ha : MUnfolderOk a) (mem : Bytes) :
    Spec.Run.map MRes.seen (a.read R S fuel mem) = Spec.Run.map ReadRes.seen (Unfolder.read R fuel ⟨a.buf.take a.bufLen, a.hist⟩ mem.length) := by
  have h := (read_settle_sim hok hS hL fuel).1 a ⟨a.buf.take a.bufLen, a.hist⟩ mem ⟨ha.1, ha.2, rfl, rfl⟩
  revert h
  generalize a.read R S fuel mem = x, Unfolder.read R fuel ⟨a.buf.take a.bufLen, a.hist⟩ mem.length = y
  intro h
  cases h with
  | done h => simp only [Spec.Run.map, MRes.seen, ReadRes.seen, h.1.m, h.1.err, h.1.got]
  | panic => rfl
  | running => rfl

/-- C107 for readers that leave the slice alone when they deliver nothing and return no error; with all other results they may use it as they like. -/
theorem C107_read_partial (R : Reader) (hok : ReaderOk R) (S S' : Scratch) (hS : ScratchOk S) (hS' : ScratchOk S') (hL : LeavesAlone R S) (hL' : LeavesAlone R S') (fuel : Nat)
    (u : MUnfolder) (hu : MUnfolderOk u) (mem mem' : Bytes) (hm : mem.length = mem'.length) :
    Spec.Run.map MRes.seen (u.read R S fuel mem) = Spec.Run.map MRes.seen (u.read R S' fuel mem') := by
  rw [seen_sim hok hS hL fuel hu, seen_sim hok hS' hL' fuel hu, hm]

/-- C107.  These are the results of the model that has of the buffers only what was delivered into them, for which the other properties are shown. -/
theorem C107_same (R : Reader) (hok : ReaderOk R) (S : Scratch) (hS : ScratchOk S) (hL : LeavesAlone R S) (fuel : Nat) (u : MUnfolder) (hu : MUnfolderOk u) (mem : Bytes) :
    Spec.Run.map MRes.seen (u.read R S fuel mem) = Spec.Run.map ReadRes.seen (Unfolder.read R fuel ⟨u.buf.take u.bufLen, u.hist⟩ mem.length) := seen_sim hok hS hL fuel hu mem

/-- C107.  A reader that always delivers something or returns an error may use the rest of the slice as it likes. -/
theorem C107_eager (R : Reader) (hE : Eager R) (S : Scratch) : LeavesAlone R S := fun k h _ hk h1 h2 => absurd h2 (hE k h hk h1)

/-- C107.  One that never uses it may deliver nothing. -/
theorem C107_untouched (R : Reader) : LeavesAlone R fun _ x => x := fun _ _ _ _ _ _ => rfl

/-- C107.  The same of a consumer that reads into any buffers, one after the other, until there is an error. -/
theorem C107_all_partial (R : Reader) (hok : ReaderOk R) (S : Scratch) (hS : ScratchOk S) (hL : LeavesAlone R S) (fuel : Nat) (mems : List Bytes) :
    Spec.Run.map (fun x => (x.1, x.2.1)) (readAllM R S fuel mems {} []) = Spec.Run.map (fun x => (x.1, x.2.1)) (readAll R fuel (mems.map List.length) {} []) := by
  have h := readAllM_sim hok hS hL fuel mems {} {} [] ⟨rfl, Nat.zero_le _, rfl, rfl⟩
  revert h
  generalize readAllM R S fuel mems {} [] = x, readAll R fuel (mems.map List.length) {} [] = y
  intro h
  cases h with
  | done h => simp only [Spec.Run.map, h.1, h.2.1]
  | panic => rfl
  | running => rfl

/-- C107.  So `Decode` returns what it returns in the model without the rest of the buffers. -/
theorem C107_decode_partial (E : Env) (R : Reader) (hok : ReaderOk R) (S : Scratch) (hS : ScratchOk S) (hL : LeavesAlone R S) (fuel : Nat) (mems : List Bytes) :
    decodeMemory E R S fuel mems = decodeReader E R fuel (mems.map List.length) := by
  have h := readAllM_sim hok hS hL fuel mems {} {} [] ⟨rfl, Nat.zero_le _, rfl, rfl⟩
  unfold decodeMemory decodeReader
  revert h
  generalize readAllM R S fuel mems {} [] = x, readAll R fuel (mems.map List.length) {} [] = y
  intro h
  cases h with
  | done h => simp only [Run.bind, h.1]
  | panic => rfl
  | running => rfl

/-- C107.  For every reader that always delivers something or returns an error: what `Decode` returns depends neither on what the buffers held nor on what the reader does with the rest of
them. -/
theorem C107_decode_eager_partial (E : Env) (R : Reader) (hok : ReaderOk R) (hE : Eager R) (S S' : Scratch) (hS : ScratchOk S) (hS' : ScratchOk S') (fuel : Nat) (mems mems' : List Bytes)
    (hm : mems.map List.length = mems'.map List.length) : decodeMemory E R S fuel mems = decodeMemory E R S' fuel mems' := by
  rw [C107_decode_partial E R hok S hS (C107_eager R hE S), C107_decode_partial E R hok S' hS' (C107_eager R hE S'), hm]

/-! ## Where it is false -/

/-- It puts this octet everywhere. -/
def scribble (b : UInt8) : Scratch := fun _ x => x.map fun _ => b

theorem scribble_ok (b : UInt8) : ScratchOk (scribble b) := fun _ _ => by simp [scribble]

/-- C107.  A reader that delivers nothing, returns no error, and has put another octet in the place of the CR: the CR is not found again. -/
theorem C107_scribbled : ((({} : MUnfolder).read emptyReader' (scribble 97) 20 (List.replicate 9 0))) = .done ⟨⟨[10, 32], 0, [1, 2, 9]⟩, 97 :: List.replicate 8 97, 0, none⟩ ∧
    Spec.Run.map MRes.seen (({} : MUnfolder).read emptyReader' (fun _ x => x) 20 (List.replicate 9 0)) = .done (-1, some 0, []) := by decide +kernel

/-- C107.  The claim as stated in full is false. -/
theorem C107_full_claim_is_false : ¬ C107_claim := by
  intro h
  have h1 := h emptyReader' emptyReader'_ok (scribble 97) (fun _ x => x) (scribble_ok 97) (fun _ _ => rfl) 20 {} ⟨rfl, Nat.zero_le _⟩ (List.replicate 9 0) (List.replicate 9 0) rfl
  rw [C107_scribbled.1, C107_scribbled.2] at h1
  revert h1
  decide

/-! ## Concrete cases -/

/-- "a" CR LF SPACE "b" from memory into a buffer of eight octets: the reader fills all it delivers nothing into with "z", and there was "y" in the buffer. -/
example : Spec.Run.map MRes.seen (({} : MUnfolder).read (fullReader [97, 13, 10, 32, 98] 0) (scribble 122) 20 (List.replicate 8 121)) = .done (2, some 0, [97, 98]) ∧
    Spec.Run.map MRes.seen (({} : MUnfolder).read (fullReader [97, 13, 10, 32, 98] 0) (scribble 122) 20 (List.replicate 8 121)) =
      Spec.Run.map MRes.seen (({} : MUnfolder).read (fullReader [97, 13, 10, 32, 98] 0) (fun _ x => x) 20 (List.replicate 8 0)) :=
  ⟨by decide +kernel, C107_read_partial _ (fullReader_ok _ _) _ _ (scribble_ok _) (fun _ _ => rfl) (C107_eager _ (fullReader_eager _ _) _) (C107_untouched _) _ _ ⟨rfl, Nat.zero_le _⟩ _ _ rfl⟩

example (E : Env) := C107_decode_eager_partial E _ (fullReader_ok (utf8 c!"BEGIN:VCALENDAR\r\n") 0) (fullReader_eager _ _) (scribble 13) (scribble 10) (scribble_ok _) (scribble_ok _) 99
  [List.replicate 8 121, List.replicate 8 32] [List.replicate 8 13, List.replicate 8 10] rfl

example : LeavesAlone emptyReader' (fun _ x => x) ∧ Spec.Run.map (fun x => (x.1, x.2.1)) (readAllM emptyReader' (fun _ x => x) 20 [List.replicate 9 7] {} []) =
    Spec.Run.map (fun x => (x.1, x.2.1)) (readAll emptyReader' 20 [9] {} []) :=
  ⟨C107_untouched _, C107_all_partial _ emptyReader'_ok _ (fun _ _ => rfl) (C107_untouched _) 20 [List.replicate 9 7]⟩

end Ics.Props
