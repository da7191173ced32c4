import Verif.Props.Reading
import Verif.WaitingLemmas
/-!
# Theorems about reading from a connection that stays open: C69

A reader of a connection returns what has arrived, and does not return if it is asked again before more arrives.  So it matters how often `Decode` asks: the
history in the unfolder (`Unfolder.hist`, newest first) records the sizes of the buffers the reader was called with.
-/

namespace Ics.Props

open Spec

/-- The full claim: when all of what `Encode` wrote has arrived, `Decode` gets it without asking for more. -/
def C69_claim : Prop := ∀ (E : Env) (c : Cal), GoodCalendar E c → ∀ (cut : Str → List Str), (∀ s, (cut s).flatten = s) →
  ∃ o, encode E okSink cut c = .done o ∧ o.err = none ∧ ∀ (R : Reader) (k : Nat), 0 < k → R [k] = (o.f.out, none) → o.f.out.length ≤ k →
    ∃ fuel u, readAll R fuel [k] {} [] = .done (removeFolds o.f.out, none, u) ∧ u.hist = [k]

/-- What `Encode` writes ends in CR LF. -/
theorem written_end {E : Env} {c : Cal} (h : GoodCalendar E c) {cut : Str → List Str} (hcut : ∀ s, (cut s).flatten = s) :
    ∃ o b, encode E okSink cut c = .done o ∧ o.err = none ∧ o.f.out = b ++ [82, 13, 10] := by
  obtain ⟨o, _, s, h1, h2, _, h4, _, _, _, _, h8⟩ := written h hcut
  have hb := good_build h.typed h.valid h.params h.vals
  obtain ⟨l1, l2⟩ := encodeDoc_lines E c (GoodCal.safe (hb.imp fun _ _ h => PropOk.safe h.1))
  obtain ⟨a, ha⟩ := calLines_end E c
  have hs : s = a ++ ['R', '\r', '\n'] := by rw [l1] at h8; cases h8; exact ha
  obtain ⟨b, hb'⟩ := FoldOf.tail (foldStr_FoldOf s 0) a 'R' hs
  exact ⟨o, utf8 b, h1, h2, by rw [h4, hb', utf8_append]; rfl⟩

/-- C69, exactly.  The reader delivers a piece with its first call.  If the piece has no fold and does not end in CR or CR LF, the consumer receives it, and the
reader is not asked again; otherwise, if the consumer receives anything, the reader has been asked again. -/
theorem C69_asked_again (R : Reader) (doc : Bytes) (k : Nat) (hk : 0 < k) (hR : R [k] = (doc, none)) :
    (¬ hasFold doc → ¬ EndsInCR doc → ¬ EndsInCRLF doc → ∀ fuel, 4 ≤ fuel → readAll R fuel [k] {} [] = .done (doc, none, ⟨[], [k]⟩)) ∧
    (hasFold doc ∨ EndsInCR doc ∨ EndsInCRLF doc → ∀ fuel out e u, readAll R fuel [k] {} [] = .done (out, e, u) → ∃ n, [n, k] <:+ u.hist) := by
  constructor
  · intro h1 h2 h3 fuel hf
    obtain ⟨f, rfl⟩ : ∃ f, fuel = f + 4 := ⟨fuel - 4, by omega⟩
    have hs := squeeze_noFold (f + 1) doc h1
    rw [readAll, Unfolder.read]
    simp only [List.take_nil, List.length_nil, Nat.sub_zero, List.drop_nil]
    rw [fill, if_neg (by omega), hR]
    simp only
    rw [hs, Run.bind_done]
    simp only [Option.isSome_none, Bool.false_eq_true, if_false, List.nil_append]
    rw [fill, if_pos rfl, Run.bind_done]
    simp only [Option.isSome_none, Bool.false_eq_true, if_false]
    rw [settle]
    simp only [if_neg (show ¬ (doc.length > 0 ∧ doc[doc.length - 1]? = some 13) from h2),
      if_neg (show ¬ (doc.length > 1 ∧ doc[doc.length - 2]? = some 13 ∧ doc[doc.length - 1]? = some 10) from h3), Run.bind_done, Option.isSome_none,
      Bool.false_eq_true, if_false, readAll, Int.toNat_natCast, List.take_length]
  · intro hd fuel out e u h
    rw [readAll] at h
    obtain ⟨r, h1, h2⟩ := Run.bind_eq_done h
    have hu : r.u.hist = u.hist := by
      split at h2
      · cases h2; rfl
      · rw [readAll] at h2; cases h2; rfl
    rw [← hu]
    cases fuel with
    | zero => simp [Unfolder.read] at h1
    | succ fuel =>
      rw [Unfolder.read] at h1
      obtain ⟨⟨h', q', e'⟩, h3, h4⟩ := Run.bind_eq_done h1
      simp only [List.take_nil, List.length_nil, Nat.sub_zero, List.drop_nil] at h3 h4
      cases fuel with
      | zero => simp [fill] at h3
      | succ fuel =>
        rw [fill, if_neg (by omega), hR] at h3
        simp only at h3
        obtain ⟨⟨b, m⟩, h5, h6⟩ := Run.bind_eq_done h3
        simp only [Option.isSome_none, Bool.false_eq_true, if_false, List.nil_append] at h6
        have hm := squeeze_toRead _ _ _ _ _ _ h5
        have hfin : h' <:+ r.u.hist := by
          split at h4
          · cases h4; exact List.suffix_refl _
          · exact ((settle_asks (R := R) _).2 _ _ _ _ h4).1
        by_cases hf : hasFold doc
        · have := (fill_asks _ _ _ _ _ _ _ h6).2 (by have := hm.2 hf; omega)
          exact ⟨m, this.trans hfin⟩
        · have hd : EndsInCR doc ∨ EndsInCRLF doc := by rcases hd with h | h; exact absurd h hf; exact h
          cases fuel with
          | zero => simp [squeeze] at h5
          | succ fuel =>
            rw [squeeze_noFold fuel doc hf] at h5
            cases h5
            rw [fill, if_pos rfl] at h6
            cases h6
            simp only [Option.isSome_none, Bool.false_eq_true, if_false] at h4
            exact ((settle_asks (R := R) _).2 _ _ _ _ h4).2 hd

/-- C69.  The claim fails for every calendar: what `Encode` writes ends in CR LF, so the reader is asked again before anything is passed on to the parser. -/
theorem C69_always_waits (E : Env) (c : Cal) (h : GoodCalendar E c) (cut : Str → List Str) (hcut : ∀ s, (cut s).flatten = s) :
    ∃ o, encode E okSink cut c = .done o ∧ o.err = none ∧ ∀ (R : Reader) (k : Nat), 0 < k → R [k] = (o.f.out, none) →
      ∀ fuel out e u, readAll R fuel [k] {} [] = .done (out, e, u) → ∃ n, [n, k] <:+ u.hist := by
  obtain ⟨o, b, h1, h2, h3⟩ := written_end h hcut
  refine ⟨o, h1, h2, fun R k hk hR => (C69_asked_again R _ k hk hR).2 (.inr (.inr ?_))⟩
  rw [h3]
  refine ⟨by simp, ?_, ?_⟩ <;> simp

/-- C69.  What has to arrive besides: one octet other than SPACE, or the end of the input, if nothing had to be folded; the octet is kept for the next call. -/
theorem C69_one_more_partial (E : Env) (c : Cal) (h : GoodCalendar E c) (cut : Str → List Str) (hcut : ∀ s, (cut s).flatten = s) :
    ∃ o c', encode E okSink cut c = .done o ∧ o.err = none ∧ SameCal c' (Cal.dropField c!"LAST-MOD" c) ∧
      (¬ hasFold o.f.out → ∀ (R : Reader) (k : Nat), 0 < k → R [k] = (o.f.out, none) → (R [1, k]).1 ≠ [32] → ∀ fuel, 4 ≤ fuel →
        readAll R fuel [k] {} [] = .done (o.f.out, (R [1, k]).2, ⟨(R [1, k]).1, [1, k]⟩) ∧ decodeReader E R fuel [k] = .done (.ok c')) := by
  obtain ⟨o, c', s, h1, h2, h3, _, h5, _, _, h8, _⟩ := written h hcut
  refine ⟨o, c', h1, h2, h3, fun hn R k hk hR hb fuel hf => ?_⟩
  obtain ⟨o', b, g1, g2, g3⟩ := written_end h hcut
  rw [h1] at g1; cases g1
  have hread : readAll R fuel [k] {} [] = .done (o.f.out, (R [1, k]).2, ⟨(R [1, k]).1, [1, k]⟩) :=
    readAll_one_more hk hR hn (by rw [g3]; simp [EndsInCR]) (by rw [g3]; simp [EndsInCRLF]) hb hf
  refine ⟨hread, ?_⟩
  unfold decodeReader
  rw [hread, show o.f.out = utf8 s from (removeFolds_of_none ((findFold_none_iff _).2 hn)).symm.trans h5]
  show Run.done (decodeDoc E (runes (utf8 s))) = _
  rw [runes_utf8, h8]

/-- A calendar without folds on an open connection: nothing is returned before the next line begins with a B. -/
example : ∃ o, encode sampleEnv okSink (fun s => [s]) (twoCal c!"2.0" c!"x") = .done o ∧ findFold o.f.out = none ∧
    let R : Reader := fun h => if h.length = 1 then (o.f.out, none) else ([66], none)
    readAll R 4 [500] {} [] = .done (o.f.out, none, ⟨[66], [1, 500]⟩) ∧
    decodeReader sampleEnv R 4 [500] = .done (.ok (twoCal c!"2.0" c!"x")) := by
  refine ⟨_, rfl, ?_, ?_, ?_⟩ <;> decide +kernel

/-- The same without the last CR LF: it is passed on at once. -/
example : ∃ o, encode sampleEnv okSink (fun s => [s]) (twoCal c!"2.0" c!"x") = .done o ∧
    let doc := o.f.out.take (o.f.out.length - 2)
    let R : Reader := fun _ => (doc, none)
    readAll R 4 [500] {} [] = .done (doc, none, ⟨[], [500]⟩) ∧ decodeReader sampleEnv R 4 [500] = .done (.ok (twoCal c!"2.0" c!"x")) := by
  refine ⟨_, rfl, ?_, ?_⟩ <;> decide +kernel

/-- C69.  The claim as stated in full is false: a counterexample. -/
theorem C69_full_claim_is_false : ¬ C69_claim := by
  intro h
  obtain ⟨o, h1, _, h2⟩ := h sampleEnv sampleCal sampleCal_goodCalendar (fun s => [s]) (by simp)
  obtain ⟨o', h3, _, h4⟩ := C69_always_waits sampleEnv sampleCal sampleCal_goodCalendar (fun s => [s]) (by simp)
  rw [h1] at h3; cases h3
  obtain ⟨fuel, u, h5, h6⟩ := h2 (fun _ => (o.f.out, none)) (o.f.out.length + 1) (by omega) rfl (by omega)
  obtain ⟨n, h7⟩ := h4 (fun _ => (o.f.out, none)) (o.f.out.length + 1) (by omega) rfl _ _ _ _ h5
  rw [h6] at h7
  have := h7.length_le
  simp at this

end Ics.Props
