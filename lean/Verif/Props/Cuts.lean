import Verif.UnfolderCuts
import Verif.Props.Reading
/-!
# Theorems about readers that cut fold markers: C07, C09, C63, C64

`MarkerSplit R u.hist` says that in one of the calls made during the run, the caller's reader delivered the SPACE of a fold marker without its CR LF, or its LF SPACE without its
CR (but for calls asking for exactly two octets).  The readers are those of the `io.Reader` documentation that deliver something with each call, and report the
end of the data with a call of its own; the consumer's buffers have five octets or more.
-/

namespace Ics.Props

open Spec

theorem start_right (R : Reader) : RightSoFar R {} [] := by
  refine ⟨?_, rfl, by simp⟩
  rintro ⟨k, h, h1, _⟩
  have := h1.length_le
  simp at this

/-- C07.  If no marker is cut, the consumer receives the unfolded document, provided that this has no marker itself. -/
theorem C07_uncut_partial (R : Reader) (hok : ReaderOk R) (hL : LazyErr R) (hE : Eager R) (ks : List Nat) (hks : ∀ k ∈ ks, 5 ≤ k) (fuel : Nat) (out : Bytes) (e : Nat) (u : Unfolder)
    (h : readAll R fuel ks {} [] = .done (out, some e, u)) (ht : ¬ hasFold (removeFolds (delivered R u.hist))) (hs : ¬ MarkerSplit R u.hist) :
    out = removeFolds (delivered R u.hist) := by
  rcases readAll_verdict hok hL hE fuel ks {} [] out (some e) u hks h (start_right R) with ⟨⟨_, h1, _⟩, h2⟩ | ⟨h1, _⟩ | ⟨a, ⟨t, h1⟩, h2⟩
  · rw [h2 (by simp), List.append_nil] at h1
    exact h1
  · exact absurd h1 hs
  · refine absurd ?_ ht
    rw [← h1, removeFolds_append_space]
    obtain ⟨x, y, hxy⟩ := h2
    exact ⟨x, y ++ removeFolds t, by rw [← hxy]; simp⟩

theorem space_head {d : Bytes} (hd : ¬ [13, 10, 32, 32] <:+: d) : ∀ (n : Nat) (a t : Bytes), t.length ≤ n → a ++ [13, 10, 32] ++ t = d → (removeFolds t).head? ≠ some 32 := by
  intro n
  induction n with
  | zero =>
    intro a t hl _
    obtain rfl : t = [] := List.length_eq_zero_iff.1 (by omega)
    simp [removeFolds]
  | succ n ih =>
    intro a t hl ha
    rcases t with _ | ⟨x, t⟩
    · simp [removeFolds]
    by_cases hm : ∃ r, x :: t = 13 :: 10 :: 32 :: r
    · obtain ⟨r, hr⟩ := hm
      rw [hr] at ha hl ⊢
      rw [removeFolds, if_pos ⟨rfl, rfl, rfl⟩]
      refine ih (a ++ [13, 10, 32]) r (by simp only [List.length_cons] at hl; omega) ?_
      rw [← ha]; simp
    · rw [removeFolds_ne x t (fun r hr => hm ⟨r, hr⟩)]
      rw [List.head?_cons]
      intro hx
      cases hx
      exact hd ⟨a, t, by rw [← ha]; simp⟩

/-- C07, the other direction.  If a marker is cut, the consumer does not receive the unfolded document, provided that this has no marker itself and that no marker of the document is
followed by a SPACE. -/
theorem C07_cut_is_wrong (R : Reader) (hok : ReaderOk R) (hL : LazyErr R) (hE : Eager R) (ks : List Nat) (hks : ∀ k ∈ ks, 5 ≤ k) (fuel : Nat) (out : Bytes) (e : Nat) (u : Unfolder)
    (h : readAll R fuel ks {} [] = .done (out, some e, u)) (ht : ¬ hasFold (removeFolds (delivered R u.hist))) (hd : ¬ [13, 10, 32, 32] <:+: delivered R u.hist)
    (hs : MarkerSplit R u.hist) : out ≠ removeFolds (delivered R u.hist) := by
  intro ho
  rcases readAll_verdict hok hL hE fuel ks {} [] out (some e) u hks h (start_right R) with ⟨⟨h1, _, _⟩, _⟩ | ⟨_, ⟨y, t, h1⟩ | ⟨a, ⟨t, h1⟩, ⟨s, h2⟩⟩⟩ | ⟨a, ⟨t, h1⟩, h2⟩
  · exact h1 hs
  · exact ht ⟨y, t, by rw [← ho, ← h1]⟩
  · have h3 := space_head hd t.length a t (Nat.le_refl _) h1
    rw [← h2, ← h1, removeFolds_at_marker, List.append_assoc] at ho
    have := List.append_cancel_left ho
    rw [← this] at h3
    exact h3 rfl
  · refine ht ?_
    rw [← h1, removeFolds_append_space]
    obtain ⟨x, y, hxy⟩ := h2
    exact ⟨x, y ++ removeFolds t, by rw [← hxy]; simp⟩

/-- C07, exactly: for such documents the consumer that has seen the end received the unfolded document if and only if no marker was cut. -/
theorem C07_exactly_partial (R : Reader) (hok : ReaderOk R) (hL : LazyErr R) (hE : Eager R) (ks : List Nat) (hks : ∀ k ∈ ks, 5 ≤ k) (fuel : Nat) (out : Bytes) (e : Nat) (u : Unfolder)
    (h : readAll R fuel ks {} [] = .done (out, some e, u)) (ht : ¬ hasFold (removeFolds (delivered R u.hist))) (hd : ¬ [13, 10, 32, 32] <:+: delivered R u.hist) :
    out = removeFolds (delivered R u.hist) ↔ ¬ MarkerSplit R u.hist :=
  ⟨fun ho hs => C07_cut_is_wrong R hok hL hE ks hks fuel out e u h ht hd hs ho, C07_uncut_partial R hok hL hE ks hks fuel out e u h ht⟩

/-- C09.  If no marker is cut, every octet arrives, once and in order, but for the markers. -/
theorem C09_uncut_partial (R : Reader) (hok : ReaderOk R) (hL : LazyErr R) (hE : Eager R) (ks : List Nat) (hks : ∀ k ∈ ks, 5 ≤ k) (fuel : Nat) (out : Bytes) (e : Nat) (u : Unfolder)
    (h : readAll R fuel ks {} [] = .done (out, some e, u)) (ht : ¬ hasFold (removeFolds (delivered R u.hist))) (hs : ¬ MarkerSplit R u.hist) :
    SomeFoldsRemoved (delivered R u.hist) out := by
  rw [C07_uncut_partial R hok hL hE ks hks fuel out e u h ht hs]
  exact removed_all _ _ (Nat.le_refl _)

/-- C64 for folds with a SPACE, whatever the pieces, if none of the calls cut a marker. -/
theorem C64_uncut_partial (E : Env) (s t : Bytes) (hs : ¬ hasFold s) (hf : Folded Space s t) (R : Reader) (hok : ReaderOk R) (hL : LazyErr R) (hE : Eager R) (ks : List Nat)
    (hks : ∀ k ∈ ks, 5 ≤ k) (fuel : Nat) (out : Bytes) (e : Nat) (u : Unfolder) (h : readAll R fuel ks {} [] = .done (out, some e, u)) (hd : delivered R u.hist = t)
    (hc : ¬ MarkerSplit R u.hist) : decodeReader E R fuel ks = .done (decodeDoc E (runes s)) := by
  have hr := removeFolds_Folded hf hs
  have ho := C07_uncut_partial R hok hL hE ks hks fuel out e u h (by rw [hd, hr]; exact hs) hc
  rw [hd, hr] at ho
  unfold decodeReader
  rw [h, ho]
  rfl

theorem noFold_of_removeFolds {w : Bytes} (h : removeFolds w = w) : ¬ hasFold w := by
  rintro ⟨a, r, rfl⟩
  rw [removeFolds_at_marker] at h
  have h1 := congrArg List.length h
  have h2 := removeFolds_length_le a
  have h3 := removeFolds_length_le r
  simp only [List.length_append, List.length_cons, List.length_nil] at h1
  omega

theorem FoldOf.same : ∀ s : Str, FoldOf s s
  | [] => .nil
  | c :: s => .keep c (FoldOf.same s)

/-- C63.  What `Encode` writes for a calendar of C44 is decoded to that calendar, whatever the sizes of the pieces and of the buffers, if none of the calls of the reader cut
a marker. -/
theorem C63_uncut_partial (E : Env) (c : Cal) (h : GoodCalendar E c) (cut : Str → List Str) (hcut : ∀ s, (cut s).flatten = s) :
    ∃ o c', encode E okSink cut c = .done o ∧ o.err = none ∧ SameCal c' (Cal.dropField c!"LAST-MOD" c) ∧
      ∀ (R : Reader), ReaderOk R → LazyErr R → Eager R → ∀ ks, (∀ k ∈ ks, 5 ≤ k) → ∀ fuel out e u, readAll R fuel ks {} [] = .done (out, some e, u) →
        delivered R u.hist = o.f.out → ¬ MarkerSplit R u.hist → decodeReader E R fuel ks = .done (.ok c') := by
  obtain ⟨o, c', s, h1, h2, h3, _, h5, h6, h7, h8, h9⟩ := written h hcut
  refine ⟨o, c', h1, h2, h3, fun R hok hL hE ks hks fuel out e u hr hd hc => ?_⟩
  have hb := good_build h.typed h.valid h.params h.vals
  obtain ⟨l1, l2⟩ := encodeDoc_lines E c (GoodCal.safe (hb.imp fun _ _ h => PropOk.safe h.1))
  have hs : s = (calLines E c).flatMap printLine := by rw [l1] at h9; cases h9; rfl
  have hn : ¬ ['\r', '\n', ' '] <:+: s := by rw [hs]; exact noFold_lines _ l2
  have hno : ¬ hasFold (utf8 s) := noFold_of_removeFolds (by rw [removeFolds_utf8 _ _ (Nat.le_refl _), removeFoldsC_FoldOf (FoldOf.same s) hn])
  have ho := C07_uncut_partial R hok hL hE ks hks fuel out e u hr (by rw [hd, h5]; exact hno) hc
  rw [hd, h5] at ho
  unfold decodeReader
  rw [hr, ho]
  show Run.done (decodeDoc E (runes (utf8 s))) = _
  rw [runes_utf8, h8]

/-! ## Concrete cases -/

/-- "abcd" CR LF SPACE "e", from memory. -/
def markedA : Bytes := [97, 98, 99, 100, 13, 10, 32, 101]

/-- "abc" CR LF SPACE "de", from memory. -/
def markedB : Bytes := [97, 98, 99, 13, 10, 32, 100, 101]

theorem noFold_decide {b : Bytes} (h : findFold b = none) : ¬ hasFold b := (findFold_none_iff b).1 h

/-- With a buffer of five octets the marker of the first document is cut behind CR, and found by the call for two octets: nothing counts as cut.  The hypotheses of
`C07_exactly_partial` hold and both sides are true. -/
theorem markedA_whole : readAll (fullReader markedA 0) 40 [5, 5] {} [] = .done ([97, 98, 99, 100, 101], some 0, ⟨[], [5, 1, 2, 5]⟩) ∧ ¬ MarkerSplit (fullReader markedA 0) [5, 1, 2, 5] := by
  have h : readAll (fullReader markedA 0) 40 [5, 5] {} [] = .done ([97, 98, 99, 100, 101], some 0, ⟨[], [5, 1, 2, 5]⟩) := by decide +kernel
  refine ⟨h, (C07_exactly_partial _ (fullReader_ok _ _) (fullReader_lazy _ _) (fullReader_eager _ _) [5, 5] (by decide) _ _ _ _ h (noFold_decide (by decide +kernel)) ?_).1 (by decide +kernel)⟩
  rintro ⟨a, b, hab⟩
  have hl := congrArg (fun l => (l.filter (· = 32)).length) hab
  have : (([97, 98, 99, 100, 13, 10, 32, 101] : Bytes).filter (· = 32)).length = 1 := by decide
  rw [show delivered (fullReader markedA 0) [5, 1, 2, 5] = [97, 98, 99, 100, 13, 10, 32, 101] by decide +kernel] at hl
  simp only [List.filter_append, List.length_append, this] at hl
  have h2 : (([13, 10, 32, 32] : Bytes).filter (· = 32)).length = 2 := by decide
  omega

/-- The marker of the second one is cut behind CR LF: both sides are false. -/
example : readAll (fullReader markedB 0) 40 [5, 5, 5] {} [] = .done ([97, 98, 99, 32, 100, 101], some 0, ⟨[], [5, 5, 1, 1, 5]⟩) ∧ MarkerSplit (fullReader markedB 0) [5, 5, 1, 1, 5] := by
  refine ⟨by decide +kernel, 1, [5], ⟨[5, 5, 1], rfl⟩, .inl ⟨⟨[97, 98, 99], by decide +kernel⟩, ⟨[], by decide +kernel⟩⟩⟩

end Ics.Props
