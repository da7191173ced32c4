import Verif.OctetLemmas
import Verif.Props.Reading
/-!
# Theorems about reading octet by octet, and about a marker at the very end: C07, C09, C63
-/

namespace Ics.Props

open Spec

/-- C07 for buffers of one octet and a reader that delivers what it is asked for (`TestUnfolder` reads in this way): the consumer receives the unfolded document, for
every document in which no CR is followed by a CR.  Missing from the full claim: other buffer sizes, other readers, and CR CR (`C09_octet_lost_behind_cr`). -/
theorem C07_octet_by_octet_partial (doc : Bytes) (fin : Nat) (h : ¬ [13, 13] <:+: doc) (n : Nat) (hn : doc.length < n) (fuel : Nat) (hf : doc.length + 4 ≤ fuel) :
    ∃ u, readAll (fullReader doc fin) fuel (List.replicate n 1) {} [] = .done (removeFolds doc, some fin, u) := by
  have hl : left doc [] = doc := rfl
  obtain ⟨u, hu⟩ := readAll_octets doc fin fuel hf n {} [] (by simpa [hl] using hn) (show ¬ _ by simpa [hl] using h) (Or.inl rfl)
  exact ⟨u, by simpa [hl] using hu⟩

/-- C09 fails octet by octet too: behind CR CR the line feed is lost. -/
theorem C09_octet_lost_behind_cr : readAll (fullReader [97, 13, 13, 10, 98, 99] 0) 20 (List.replicate 9 1) {} [] =
    .done ([97, 13, 13, 98, 99], some 0, ⟨[], [1, 2, 2, 1, 1]⟩) := by decide +kernel

/-- C07, a marker that ends the data: when the reader delivers its last octet or octets together with the final error while the unfolder looks for the rest of a
marker, the marker is removed as any other.  This covers both places of the code that treat this case. -/
theorem C07_marker_at_the_end (R : Reader) (k fin : Nat) (doc : Bytes) (hk : 0 < k) (fuel : Nat) (hf : doc.length + 6 ≤ fuel) :
    (R [k] = (doc ++ [13, 10], none) → ¬ hasFold (doc ++ [13, 10]) → R [1, k] = ([32], some fin) →
      ∃ u, readAll R fuel [k] {} [] = .done (doc, some fin, u)) ∧
    (R [k] = (doc ++ [13], none) → ¬ hasFold (doc ++ [13]) → R [2, k] = ([10, 32], some fin) →
      ∃ u, readAll R fuel [k] {} [] = .done (doc, some fin, u)) := by
  obtain ⟨f, rfl⟩ : ∃ f, fuel = f + 3 := ⟨fuel - 3, by omega⟩
  refine ⟨fun h1 hn h2 => ?_, fun h1 hn h2 => ?_⟩
  · have hsq := squeeze_good (f + 1) (doc ++ [13, 10]) (by simp; omega) (fun h => absurd h hn)
    rw [removeFolds_of_none ((findFold_none_iff _).2 hn), Nat.sub_self] at hsq
    refine ⟨⟨[32], [1, k]⟩, ?_⟩
    rw [readAll, Unfolder.read]
    simp only [List.take_nil, List.drop_nil, List.length_nil, Nat.sub_zero]
    rw [fill, if_neg (by omega)]
    simp only [h1, hsq, Run.bind_done, Option.isSome_none, Bool.false_eq_true, if_false, List.nil_append]
    rw [fill, if_pos rfl]
    simp only [Run.bind_done, Option.isSome_none, Bool.false_eq_true, if_false]
    rw [settle]
    have e1 : (doc ++ [13, 10])[(doc ++ [13, 10]).length - 1]? = some 10 := by simp
    have e2 : (doc ++ [13, 10])[(doc ++ [13, 10]).length - 2]? = some 13 := by simp
    have e3 : 1 < (doc ++ [13, 10]).length := by simp
    have e4 : (((doc ++ [13, 10]).length : Int) - 2).toNat = doc.length := by simp
    have e5 : (some 10 : Option UInt8) ≠ some 13 := by decide
    simp only [e1, e2, e3, e5, and_false, if_false, and_self, if_true, h2, List.length_cons, List.length_nil, Nat.zero_add, Nat.lt_irrefl, Option.isSome_some,
      Run.bind_done, e4, List.take_left']
  · have hsq := squeeze_good (f + 1) (doc ++ [13]) (by simp; omega) (fun h => absurd h hn)
    rw [removeFolds_of_none ((findFold_none_iff _).2 hn), Nat.sub_self] at hsq
    refine ⟨⟨[10, 32], [2, k]⟩, ?_⟩
    rw [readAll, Unfolder.read]
    simp only [List.take_nil, List.drop_nil, List.length_nil, Nat.sub_zero]
    rw [fill, if_neg (by omega)]
    simp only [h1, hsq, Run.bind_done, Option.isSome_none, Bool.false_eq_true, if_false, List.nil_append]
    rw [fill, if_pos rfl]
    simp only [Run.bind_done, Option.isSome_none, Bool.false_eq_true, if_false]
    rw [settle]
    have e1 : (doc ++ [13])[(doc ++ [13]).length - 1]? = some 13 := by simp
    have e3 : 0 < (doc ++ [13]).length := by simp
    have e4 : (((doc ++ [13]).length : Int) - 1).toNat = doc.length := by simp
    simp only [e1, e3, and_self, if_true, h2, List.length_cons, List.length_nil, Nat.zero_add, Nat.reduceAdd, Nat.lt_irrefl, if_false, Option.isSome_some,
      Run.bind_done, e4, List.take_left']

/-- C63 for a parser that reads octet by octet: what `Encode` writes is decoded to the calendar, whatever the size of the document and the folds in it. -/
theorem C63_octet_by_octet_partial (E : Env) (c : Cal) (h : GoodCalendar E c) (cut : Str → List Str) (hcut : ∀ s, (cut s).flatten = s) :
    ∃ o c', encode E okSink cut c = .done o ∧ o.err = none ∧ SameCal c' (Cal.dropField c!"LAST-MOD" c) ∧
      ∀ fin n, o.f.out.length < n → ∀ fuel, o.f.out.length + 4 ≤ fuel →
        decodeReader E (fullReader o.f.out fin) fuel (List.replicate n 1) = .done (.ok c') := by
  obtain ⟨o, c', s, h1, h2, h3, h4, h5, h6, h7, h8, h9⟩ := written h hcut
  refine ⟨o, c', h1, h2, h3, fun fin n hn fuel hf => ?_⟩
  have hb := good_build h.typed h.valid h.params h.vals
  obtain ⟨l1, l2⟩ := encodeDoc_lines E c (GoodCal.safe (hb.imp fun _ _ h => PropOk.safe h.1))
  have hs : s = (calLines E c).flatMap printLine := by rw [l1] at h9; cases h9; rfl
  have hcl := CrLf.of_clean _ s (Nat.le_refl _) (by rw [hs]; exact crlfClean_lines _ l2)
  have hcr : NoCRCR o.f.out := by rw [h4]; exact (hcl.fold (foldStr_FoldOf _ _)).noCRCR
  obtain ⟨u, hu⟩ := C07_octet_by_octet_partial o.f.out fin hcr n hn fuel hf
  unfold decodeReader
  rw [hu, h5]
  show Run.done (decodeDoc E (runes (utf8 s))) = _
  rw [runes_utf8, h8]

/-! ## Concrete cases -/

/-- A document with folds behind each other, a fold inside of a character, and one at the end. -/
example : ∃ u, readAll (fullReader [0xe2, 13, 10, 32, 0x82, 13, 10, 32, 13, 10, 32, 0xac, 13, 10, 97, 13, 10, 32] 0) 30 (List.replicate 20 1) {} [] =
    .done ([0xe2, 0x82, 0xac, 13, 10, 97], some 0, u) :=
  C07_octet_by_octet_partial _ 0 (by decide +kernel) 20 (by decide) 30 (by decide)

/-- A reader that delivers "ab" CR LF, then SPACE with the end of the data. -/
def endReader : Reader
  | [k] => if k < 4 then ([], some 1) else ([97, 98, 13, 10], none)
  | _ => ([32], some 0)

example : ∃ u, readAll endReader 20 [9] {} [] = .done ([97, 98], some 0, u) :=
  (C07_marker_at_the_end endReader 9 0 [97, 98] (by decide) 20 (by decide)).1 rfl (by rw [← findFold_none_iff]; decide) rfl

/-- The sample calendar, whose attendees need folds. -/
example : ∃ o c', encode sampleEnv okSink (fun s => [s]) sampleCal = .done o ∧ o.err = none ∧ SameCal c' (Cal.dropField c!"LAST-MOD" sampleCal) ∧
    ∀ fin n, o.f.out.length < n → ∀ fuel, o.f.out.length + 4 ≤ fuel →
      decodeReader sampleEnv (fullReader o.f.out fin) fuel (List.replicate n 1) = .done (.ok c') :=
  C63_octet_by_octet_partial sampleEnv sampleCal sampleCal_goodCalendar _ (by simp)

end Ics.Props
