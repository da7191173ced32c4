import Verif.CallsLemmas
import Verif.Props.Cases
/-!
# Property C100: how the caller's reader is called

`readAll R fuel ks {} []` is a consumer that reads through the unfolding reader with buffers of the sizes `ks` until it sees an error; `u.hist` are the sizes of the buffers that the
caller's reader `R` was called with, the last call first.
-/

namespace Ics.Props

open Ics Spec

/-- C100.  One `Read`: the caller's reader is called with buffers that are not empty and not larger than the one given (or of two octets), not after it returned an error, and the
error of the last call is returned. -/
theorem C100_read (R : Reader) (hok : ReaderOk R) (fuel : Nat) (u : Unfolder) (k : Nat) (r : ReadRes) (h : Unfolder.read R fuel u k = .done r) :
    Calls R (max k 2) u.hist r.u.hist r.err := (read_settle_calls hok fuel).1 _ u k r (Nat.le_max_left ..) (Nat.le_max_right ..) h

/-- C100.  All of the reading. -/
theorem C100_calls (R : Reader) (hok : ReaderOk R) (fuel b : Nat) (hb : 2 ≤ b) (ks : List Nat) (hk : ∀ k ∈ ks, k ≤ b) (out : Bytes) (e : Option Nat) (u : Unfolder)
    (h : readAll R fuel ks {} [] = .done (out, e, u)) : Calls R b [] u.hist e := readAll_calls hok fuel hb ks {} [] out e u hk h

/-- C100.  A reader that returned an error is not called again, whatever it delivered with it. -/
theorem C100_not_after_an_error (R : Reader) (hok : ReaderOk R) (fuel : Nat) (ks : List Nat) (out : Bytes) (e : Option Nat) (u : Unfolder)
    (h : readAll R fuel ks {} [] = .done (out, e, u)) (later earlier : List Nat) (hl : later ≠ []) (he : earlier ≠ []) (hh : u.hist = later ++ earlier) : (R earlier).2 = none := by
  have hk : ∀ k ∈ ks, k ≤ ks.foldr max 2 := by
    clear h
    induction ks with
    | nil => nofun
    | cons a ks ih =>
      intro k hk
      rw [List.foldr_cons]
      rcases List.mem_cons.1 hk with rfl | hk
      · exact Nat.le_max_left ..
      · exact Nat.le_trans (ih k hk) (Nat.le_max_right ..)
  have hb : 2 ≤ ks.foldr max 2 := by
    clear h hk
    induction ks with
    | nil => exact Nat.le_refl _
    | cons a ks ih => exact Nat.le_trans ih (Nat.le_max_right ..)
  have c := C100_calls R hok fuel _ hb ks hk out e u h
  clear h hk hb
  generalize u.hist = hist at *
  have key : ∀ {hist e}, Calls R (ks.foldr max 2) [] hist e → (hist = [] ∧ e = none ∨ e = (R hist).2) ∧ ∀ later earlier, later ≠ [] → earlier ≠ [] → hist = later ++ earlier →
      (R earlier).2 = none := by
    intro hist e c
    induction c with
    | none => exact ⟨.inl ⟨rfl, rfl⟩, fun l r hl hr h => absurd (List.append_eq_nil_iff.1 h.symm).1 hl⟩
    | @call h' k c _ _ ih =>
      refine ⟨.inr rfl, fun l r hl hr h => ?_⟩
      rcases l with _ | ⟨a, l⟩
      · exact absurd rfl hl
      · injection h with _ h
        by_cases hl' : l = []
        · subst hl'
          replace h : h' = r := h
          subst h
          rcases ih.1 with ⟨h, _⟩ | h
          · exact absurd h hr
          · exact h.symm
        · exact ih.2 l r hl' hr h
  exact (key c).2 later earlier hl he hh

/-- C100.  The consumer sees an error exactly if the last call of the reader returned one, and it is that one. -/
theorem C100_error_passed_on (R : Reader) (hok : ReaderOk R) (fuel b : Nat) (hb : 2 ≤ b) (ks : List Nat) (hk : ∀ k ∈ ks, k ≤ b) (out : Bytes) (e : Option Nat) (u : Unfolder)
    (h : readAll R fuel ks {} [] = .done (out, e, u)) : u.hist = [] ∧ e = none ∨ u.hist ≠ [] ∧ e = (R u.hist).2 := by
  have c := C100_calls R hok fuel b hb ks hk out e u h
  generalize u.hist = hist at c
  cases c with
  | none => exact .inl ⟨rfl, rfl⟩
  | call _ _ _ => exact .inr ⟨nofun, rfl⟩

/-! ## Concrete cases -/

/-- The reader is called with five octets, then with two for the rest of a marker, with one for what comes after it, and with five again, when it returns error 0. -/
example := C100_calls (fullReader markedA 0) (fullReader_ok _ _) 40 5 (by decide) [5, 5] (by decide) _ _ _ markedA_whole.1

example := C100_not_after_an_error (fullReader markedA 0) (fullReader_ok _ _) 40 [5, 5] _ _ _ markedA_whole.1 [5] [1, 2, 5] (by decide) (by decide) rfl

example : some 0 = (fullReader markedA 0 [5, 1, 2, 5]).2 :=
  ((C100_error_passed_on (fullReader markedA 0) (fullReader_ok _ _) 40 5 (by decide) [5, 5] (by decide) _ _ _ markedA_whole.1).resolve_left (fun h => absurd h.1 (by decide))).2

example := C100_read (fullReader [97, 13, 10, 32, 98] 0) (fullReader_ok _ _) 20 {} 2 ⟨⟨[], [1, 2, 2]⟩, [97, 98], 2, none⟩ (by decide +kernel)

/-- A reader that fails with error 7 in the middle of a fold marker, having delivered a part of it with the error: it is not called again. -/
def brokenReader : Reader
  | [_] => ([97, 98, 13], none)
  | [_, _] => ([10], some 7)
  | _ => ([], some 8)

theorem brokenReader_read : readAll (fun h => ((brokenReader h).1.take (h.headD 0), (brokenReader h).2)) 40 [3, 3, 3] {} [] = .done ([97, 98, 13], some 7, ⟨[10], [2, 3]⟩) := by decide +kernel

example := C100_calls (fun h => ((brokenReader h).1.take (h.headD 0), (brokenReader h).2)) (fun k h => by simp [List.length_take]; omega) 40 3 (by decide) [3, 3, 3] (by decide) _ _ _
  brokenReader_read

end Ics.Props
