import Verif.WaitingFolds
import Verif.Props.WaitingAll
import Verif.Props.Cuts
/-!
# C69 for calendars that come in any pieces, with folds
-/

namespace Ics.Props

open Spec

/-- C69, in any pieces, with the folds that `Encode` writes: if no piece ends inside a fold, `Decode` returns no calendar while exactly what was written has come in and nothing says that
it is the end.  (For readers that deliver something with every call, and buffers from five octets up.) -/
theorem C69_any_pieces_folded (E E' : Env) (c : Cal) (ht : c.typed = true) (hv : c.valid = .ok ()) (hu : Unbroken E c) (cut : Str → List Str) (hcut : ∀ s, (cut s).flatten = s) (o : EncOut)
    (ho : encode E okSink cut c = .done o) (R : Reader) (hok : ReaderOk R) (hL : LazyErr R) (hE : Eager R) (ks : List Nat) (hks : ∀ k ∈ ks, 5 ≤ k) (fuel : Nat)
    (c' : Cal) (u : Unfolder) (hd : decodeDemand E' R fuel ks {} [] = .done (.ok c', u)) (hc : ¬ MarkerSplit R u.hist) : delivered R u.hist = o.f.out → (R u.hist).2 ≠ none := by
  intro hdel hnone
  cases hs : encodeDoc E c with
  | none => unfold encode at ho; rw [hv, hs] at ho; cases ho
  | some s =>
    obtain ⟨o', h1, _, _, h4⟩ := C01_any_lines_partial E c s ht hv hs hu cut hcut
    rw [ho] at h1
    injection h1 with h1
    subst h1
    obtain ⟨e1, _, _⟩ := written_lines ht hv hs
    have hnf : ¬ hasFold (utf8 s) := fun h => by
      have h2 := hasFold_runes h
      rw [runes_utf8, e1] at h2
      exact noFold_whole _ (unbroken_lines ht hv hs hu) h2
    obtain ⟨ks1, ks2, out, e, rfl, g1, g2, g3, _⟩ := C109_returns E' R fuel ks _ u hd
    have hks1 : ∀ k ∈ ks1, 5 ≤ k := fun k hk => hks k (List.mem_append_left _ hk)
    cases e with
    | some e => rw [readAll_err _ _ _ _ _ _ _ g1] at hnone; cases hnone
    | none =>
      rcases readAll_verdict hok hL hE fuel ks1 {} [] out none u hks1 g1 (start_right R) with ⟨⟨_, f2, _⟩, _⟩ | ⟨f, _⟩ | ⟨a, ⟨t, f1⟩, f2⟩
      · rw [hdel, h4] at f2
        have hpre : out <+: utf8 s := ⟨u.pend, f2⟩
        by_cases heq : out = utf8 s
        · have hend : [13, 10] <:+ out := by
            obtain ⟨a, ha⟩ := calLines_end E c
            rw [heq, e1, ha, utf8_append]
            exact ⟨utf8 a ++ [82], by rw [List.append_assoc]; rfl⟩
          refine readAll_behind hok hL hE fuel ks1 {} [] (fun k hk => by have := hks1 k hk; omega) (by simp) out u g1 (.inr hend) ?_
          rw [heq] at f2
          exact List.append_right_eq_self.1 f2
        · obtain ⟨q, hq⟩ := part_open_octets E' ht hv hu hs hpre heq
          exact hq c' (g3 rfl q)
      · exact hc f
      · refine hnf ?_
        rw [← h4, ← hdel, ← f1, removeFolds_append_space]
        obtain ⟨x, y, hxy⟩ := f2
        exact ⟨x, y ++ removeFolds t, by rw [← hxy]; simp⟩

/-! ## A concrete case -/

/-- A calendar with a line that is folded, from a file, in three pieces: the reader meets the conditions, no piece ends inside the fold, the calendar is read, and the last call is the one that said
that this is the end. -/
example : ∃ o, encode sampleEnv okSink (fun s => [s]) longCal = .done o ∧ findFold o.f.out ≠ none ∧ ReaderOk (fullReader o.f.out 3) ∧ LazyErr (fullReader o.f.out 3) ∧ Eager (fullReader o.f.out 3) ∧
    (match decodeDemand sampleEnv (fullReader o.f.out 3) 40 [60, 100, 60] {} [] with
    | .done (.ok c, u) => decide (c = longCal) && decide (u.hist = [3, 100, 60]) && decide (delivered (fullReader o.f.out 3) u.hist = o.f.out) && decide ((fullReader o.f.out 3 u.hist).2 = some 3)
    | _ => false) = true ∧ ¬ MarkerSplit (fullReader o.f.out 3) [3, 100, 60] := by
  refine ⟨_, rfl, ?_, fullReader_ok _ _, fullReader_lazy _ _, fullReader_eager _ _, ?_, ?_⟩
  · decide +kernel
  · decide +kernel
  · refine not_split_cons (not_split_cons (not_split_cons ?_ ?_) ?_) ?_
    · rintro ⟨k, h, h1, _⟩
      have := h1.length_le
      simp at this
    all_goals unfold Spec.Splits; decide +kernel

end Ics.Props
