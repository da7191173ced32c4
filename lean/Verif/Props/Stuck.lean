import Verif.HangExact
import Verif.Props.Unfolding
import Verif.Props.Demand
/-!
# C08, exactly: the readers with which `Decode` does not return
-/

namespace Ics.Props

open Spec

/-- C08, exact, for one `Read`, in every state and with every buffer size.  It does not return if and only if one of the calls that it makes is answered with a piece that has a fold in it and
whose last three octets are those of a fold, in order or turned round.  That the call is made is said by what would be if it failed: the `Read` would return, with this as the last call. -/
theorem C08_read_hangs_iff (R : Reader) (hok : ReaderOk R) (hfin : ∃ N, ∀ h, (delivered R h).length ≤ N) (u : Unfolder) (k : Nat) :
    (∀ fuel, Unfolder.read R fuel u k = .running) ↔
      ∃ j h fuel r, u.hist <:+ h ∧ Stuck (R (j :: h)).1 ∧ Unfolder.read (failsAt R (j :: h)) fuel u k = .done r ∧ r.u.hist = j :: h := by
  have key : ∀ (R : Reader) fuel, readAll R fuel [k] u [] = (Unfolder.read R fuel u k).bind fun r => .done (r.q.take r.m.toNat, r.err, r.u) := fun R fuel => by
    rw [readAll]
    cases Unfolder.read R fuel u k with
    | running => rfl
    | panic => rfl
    | done r =>
      simp only [Run.bind_done, List.nil_append]
      split
      · rfl
      · next he =>
        rw [readAll]
        cases hr : r.err with
        | none => rfl
        | some e => rw [hr] at he; exact absurd rfl he
  have h := readAll_hangs_iff hok hfin [k] u []
  constructor
  · intro hh
    obtain ⟨j, h', fuel, out, e, u', g1, g2, g3, g4⟩ := h.1 fun fuel => by rw [key, hh fuel]; rfl
    rw [key] at g3
    obtain ⟨r, g5, g6⟩ := Run.bind_eq_done g3
    cases g6
    exact ⟨j, h', fuel, r, g1, g2, g5, g4⟩
  · rintro ⟨j, h', fuel, r, g1, g2, g3, g4⟩ f
    have := h.2 ⟨j, h', fuel, _, _, r.u, g1, g2, by rw [key, g3]; rfl, g4⟩ f
    rw [key] at this
    cases hr : Unfolder.read R f u k with
    | running => rfl
    | panic => exact absurd hr ((read_settle_ne_panic _).1 _ _)
    | done r => rw [hr] at this; cases this

/-- C08, exact, for all of the reading, with buffers of any sizes. -/
theorem C08_reading_hangs_iff (R : Reader) (hok : ReaderOk R) (hfin : ∃ N, ∀ h, (delivered R h).length ≤ N) (ks : List Nat) :
    (∀ fuel, readAll R fuel ks {} [] = .running) ↔
      ∃ k h fuel out e u, Stuck (R (k :: h)).1 ∧ readAll (failsAt R (k :: h)) fuel ks {} [] = .done (out, e, u) ∧ u.hist = k :: h := by
  rw [readAll_hangs_iff hok hfin]
  constructor
  · rintro ⟨k, h, fuel, out, e, u, _, g⟩; exact ⟨k, h, fuel, out, e, u, g⟩
  · rintro ⟨k, h, fuel, out, e, u, g⟩; exact ⟨k, h, fuel, out, e, u, List.nil_suffix, g⟩

/-- C08, exact, for `Decode`.  With buffers enough for the whole input, `Decode` does not return if and only if one of the calls that it makes is answered with such a piece: a call that it does
not make any more, since it knows what to return, does no harm. -/
theorem C08_decode_hangs_iff (E : Env) (R : Reader) (hok : ReaderOk R) (hfin : ∃ N, ∀ h, (delivered R h).length ≤ N) (ks : List Nat)
    (hend : ∀ fuel out u, readAll R fuel ks {} [] ≠ .done (out, none, u)) :
    (∀ fuel, decodeDemand E R fuel ks {} [] = .running) ↔
      ∃ k h fuel x u, Stuck (R (k :: h)).1 ∧ decodeDemand E (failsAt R (k :: h)) fuel ks {} [] = .done (x, u) ∧ u.hist = k :: h :=
  decodeDemand_hangs_iff hok hfin ks hend

/-- C08.  How long one waits does not matter: what a run has returned, it returns with any number of steps more, and two runs return the same. -/
theorem C08_same_result (E : Env) (R : Reader) (f f' : Nat) (ks : List Nat) (x y : Res Cal × Unfolder) (h : decodeDemand E R f ks {} [] = .done x) (h' : decodeDemand E R f' ks {} [] = .done y) :
    x = y := by
  have h1 := decodeDemand_same (R' := R) (Nat.le_max_left f f') _ _ _ _ h fun _ _ _ _ => rfl
  have h2 := decodeDemand_same (R' := R) (Nat.le_max_right f f') _ _ _ _ h' fun _ _ _ _ => rfl
  rw [h1] at h2
  injection h2

/-- C08.  The answers to calls that were not made do not matter. -/
theorem C08_only_the_calls_made (E : Env) (R R' : Reader) (fuel : Nat) (ks : List Nat) (x : Res Cal) (u : Unfolder) (h : decodeDemand E R fuel ks {} [] = .done (x, u))
    (hs : ∀ k h, k :: h <:+ u.hist → R (k :: h) = R' (k :: h)) : decodeDemand E R' fuel ks {} [] = .done (x, u) :=
  decodeDemand_same (Nat.le_refl _) _ _ _ _ h fun k h _ h2 => hs k h h2

/-! ## Concrete cases -/

/-- The piece that is just a fold: the reader meets the conditions, one call of nine octets is made, and it is stuck on it. -/
example : ReaderOk hangReader ∧ (∀ h, (delivered hangReader h).length ≤ 3) ∧ Stuck (hangReader [9]).1 ∧
    Unfolder.read (failsAt hangReader [9]) 4 {} 9 = .done ⟨⟨[], [9]⟩, [], 0, some 0⟩ ∧ ∀ fuel, Unfolder.read hangReader fuel {} 9 = .running := by
  have hs : Stuck (hangReader [9]).1 := ⟨⟨[], [], rfl⟩, .inl ⟨[], rfl⟩⟩
  have hr : Unfolder.read (failsAt hangReader [9]) 4 {} 9 = .done ⟨⟨[], [9]⟩, [], 0, some 0⟩ := by decide +kernel
  exact ⟨hangReader_ok, hangReader_finite, hs, hr, (C08_read_hangs_iff _ hangReader_ok ⟨3, hangReader_finite⟩ {} 9).2 ⟨9, [], 4, _, List.nil_suffix, hs, hr, rfl⟩⟩

/-- `Decode` with this reader: the conditions hold, and it does not return. -/
example : (∀ fuel out u, readAll hangReader fuel [9, 9] {} [] ≠ .done (out, none, u)) ∧ ∀ fuel, decodeDemand sampleEnv hangReader fuel [9, 9] {} [] = .running := by
  have hs : Stuck (hangReader [9]).1 := ⟨⟨[], [], rfl⟩, .inl ⟨[], rfl⟩⟩
  have h1 : ∀ fuel, readAll hangReader fuel [9, 9] {} [] = .running :=
    (C08_reading_hangs_iff _ hangReader_ok ⟨3, hangReader_finite⟩ [9, 9]).2 ⟨9, [], 4, [], some 0, ⟨[], [9]⟩, hs, by decide +kernel, rfl⟩
  have h2 : ∀ fuel out u, readAll hangReader fuel [9, 9] {} [] ≠ .done (out, none, u) := fun fuel out u h => by rw [h1] at h; cases h
  have h3 : (match decodeDemand sampleEnv (failsAt hangReader [9]) 4 [9, 9] {} [] with | .done (_, u) => decide (u.hist = [9]) | _ => false) = true := by decide +kernel
  refine ⟨h2, (C08_decode_hangs_iff sampleEnv _ hangReader_ok ⟨3, hangReader_finite⟩ [9, 9] h2).2 ?_⟩
  cases hd : decodeDemand sampleEnv (failsAt hangReader [9]) 4 [9, 9] {} [] with
  | done x =>
    rw [hd] at h3
    exact ⟨9, [], 4, x.1, x.2, hs, hd, of_decide_eq_true h3⟩
  | running => rw [hd] at h3; cases h3
  | panic => rw [hd] at h3; cases h3

/-- No calendar in the first piece, and a stuck piece behind it: `Decode` returns before it comes to that. -/
def lateStuck : Reader
  | [_] => (utf8 c!"X\r\nY", none)
  | [_, _] => ([13, 10, 32], none)
  | _ => ([], some 0)

example : (match decodeDemand sampleEnv lateStuck 20 [9, 9, 9] {} [] with | .done (.err _, u) => decide (u.hist = [9]) | _ => false) = true ∧ Stuck (lateStuck [9, 9]).1 ∧
    readAll lateStuck 20 [9, 9, 9] {} [] = .running := by
  refine ⟨by decide +kernel, ⟨⟨[], [], rfl⟩, .inl ⟨[], rfl⟩⟩, by decide +kernel⟩

end Ics.Props
