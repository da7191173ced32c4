import Verif.StaysLemmas
import Verif.Props.Found
import Verif.Props.RoundTrip
/-!
# Properties: which calendars stay as they are when they are written, read and written again (C94), and the octets (C44)
-/

namespace Ics.Props
open Spec

/-! ## C94 Which calendars stay -/

/-- C94.  What is read of a calendar that was written passes validation exactly if every value that is found does: no time was found as the zero time, both ends of
every period were found in one location and in their order, and every number stayed infinite, or none. -/
theorem C94_valid_exactly_partial (E : Env) (c c' : Cal) (h : Proper E c) (s : Str) (he : encodeDoc E c = some s) (hd : decodeDoc E s = .ok c') :
    c'.valid = .ok () ↔ ∀ x ∈ calProps c, x.1.key ≠ c!"LAST-MOD" → ∀ v ∈ propVals x.2, ValStays E v := by
  rw [((C44_what_comes_back_partial E c h s he c').1 hd).2]
  exact foundCal_valid h.typed h.valid

/-- C94, with nothing asked of what is read: it passes validation, is without control characters, and is written as it was exactly if there was no LAST-MODIFIED and
every value is settled and found as one that passes validation. -/
theorem C94_stays_exactly_partial (E : Env) (c c' : Cal) (h : Proper E c) (s : Str) (he : encodeDoc E c = some s) (hd : decodeDoc E s = .ok c') :
    (c'.valid = .ok () ∧ Unbroken E c' ∧ encodeDoc E c' = some s) ↔
      ∀ x ∈ calProps c, x.1.key ≠ c!"LAST-MOD" ∧ ∀ v ∈ propVals x.2, ValStays E v ∧ ValSettled E v := by
  have hf := ((C44_what_comes_back_partial E c h s he c').1 hd).2
  have hv := C94_valid_exactly_partial E c c' h s he hd
  constructor
  · rintro ⟨a, b, e⟩ x hx
    obtain ⟨h1, h2⟩ := (C94_exactly_partial E c c' h s he hd a b).1 e x hx
    exact ⟨h1, fun v m => ⟨hv.1 a x hx h1 v m, h2 v m⟩⟩
  · intro hx
    have a := hv.2 fun x m _ v w => ((hx x m).2 v w).1
    have b : Unbroken E c' := by
      rw [hf]
      exact found_unbroken h.typed (proper_unbroken h) fun x m v w => ((hx x m).2 v w).2
    exact ⟨a, b, (C94_exactly_partial E c c' h s he hd a b).2 fun x m => ⟨(hx x m).1, fun v w => ((hx x m).2 v w).2⟩⟩

/-- C94 of the calendar alone: there is something that is read of it, passes validation and is written as it was, exactly if it is readable and stays. -/
theorem C94_of_the_calendar_partial (E : Env) (c : Cal) (h : Proper E c) (s : Str) (he : encodeDoc E c = some s) :
    (∃ c', decodeDoc E s = .ok c' ∧ c'.valid = .ok () ∧ Unbroken E c' ∧ encodeDoc E c' = some s) ↔
      Readable E c ∧ ∀ x ∈ calProps c, x.1.key ≠ c!"LAST-MOD" ∧ ∀ v ∈ propVals x.2, ValStays E v ∧ ValSettled E v := by
  constructor
  · rintro ⟨c', hd, r⟩
    exact ⟨((C44_what_comes_back_partial E c h s he c').1 hd).1, (C94_stays_exactly_partial E c c' h s he hd).1 r⟩
  · rintro ⟨hr, hx⟩
    have hd := (C44_what_comes_back_partial E c h s he _).2 ⟨hr, rfl⟩
    exact ⟨_, hd, (C94_stays_exactly_partial E c _ h s he hd).2 hx⟩

/-! ## C44 The octets -/

/-- What `Decode` makes of the octets that `Encode` sent is what it makes of the text, for every calendar that is written: however `Encode` cuts the text into writes,
the folds that are put in are taken out again. -/
theorem C44_octets_are_the_text (E : Env) (c : Cal) (h : Proper E c) (s : Str) (he : encodeDoc E c = some s) (cut : Str → List Str) (hcut : ∀ s, (cut s).flatten = s) :
    ∃ o, encode E okSink cut c = .done o ∧ o.err = none ∧ ∀ fin k, o.f.out.length ≤ k → 0 < k → ∀ fuel, k + 4 ≤ fuel →
      decodeReader E (onceReader o.f.out fin) fuel [k, k] = .done (decodeDoc E s) := by
  obtain ⟨hs, -, -⟩ := written_lines h.typed h.valid he
  have hw := unbroken_lines h.typed h.valid he (proper_unbroken h)
  have hf : (({} : Folder).writes okSink ((cut s).map utf8)).err = none := by
    obtain ⟨k, hk⟩ := writes_ok (cut s) {} rfl
    rw [hk]
  refine ⟨⟨none, ({} : Folder).writes okSink ((cut s).map utf8)⟩, ?_, rfl, ?_⟩
  · unfold encode
    rw [h.valid, he]
    simp [hf]
  · intro fin k hk hk0 fuel hf
    obtain ⟨a, ha⟩ := calLines_end E c
    obtain ⟨u, hu⟩ := read_folded (cut s) a 'R' (by decide) (by rw [hcut, hs]; exact ha) (by rw [hcut, hs]; exact noFold_whole _ hw) fin k hk hk0
      fuel hf
    unfold decodeReader
    rw [hu, hcut]
    show Run.done (decodeDoc E (runes (utf8 s))) = _
    rw [runes_utf8]

/-- C44 for the octets, exactly: `Decode` reads what `Encode` sent exactly if the calendar is readable, and finds what is found of it. -/
theorem C44_octets_exactly_partial (E : Env) (c : Cal) (h : Proper E c) (s : Str) (he : encodeDoc E c = some s) (cut : Str → List Str) (hcut : ∀ s, (cut s).flatten = s) :
    ∃ o, encode E okSink cut c = .done o ∧ o.err = none ∧ ∀ fin k, o.f.out.length ≤ k → 0 < k → ∀ fuel, k + 4 ≤ fuel → ∀ c',
      decodeReader E (onceReader o.f.out fin) fuel [k, k] = .done (.ok c') ↔ Readable E c ∧ c' = foundCal E c := by
  obtain ⟨o, h1, h2, h3⟩ := C44_octets_are_the_text E c h s he cut hcut
  refine ⟨o, h1, h2, fun fin k a b fuel d c' => ?_⟩
  rw [h3 fin k a b fuel d, Run.done.injEq]
  exact C44_what_comes_back_partial E c h s he c'

/-! ## Samples -/

theorem parisCal_stays : ∀ x ∈ calProps (parisCal 5 7), x.1.key ≠ c!"LAST-MOD" ∧ ∀ v ∈ propVals x.2, ValStays sampleEnv v ∧ ValSettled sampleEnv v := by
  have h1 := C94_times sampleEnv sampleEnv_sane 0 ⟨63763119600, 0, .utc⟩ trivial
  have h2 := C94_times sampleEnv sampleEnv_sane 0 ⟨63763119600, 5, .zone c!"Europe/Paris" 7 0⟩ ⟨by decide, by decide, by decide, rfl⟩
  have h3 : (foundTime sampleEnv 0 ⟨63763119600, 0, .utc⟩).isZero = false := by decide +kernel
  have h4 : (foundTime sampleEnv 0 ⟨63763119600, 5, .zone c!"Europe/Paris" 7 0⟩).isZero = false := by decide +kernel
  rw [parisCal_props]
  simp [propVals, val1, ValSettled, ValStays, h1, h2, h3, h4]

/-- A calendar that is readable and stays: written, read, and written as it was, though what was read is not the calendar itself. -/
example : ∃ s c', encodeDoc sampleEnv (parisCal 5 7) = some s ∧ decodeDoc sampleEnv s = .ok c' ∧ c' ≠ parisCal 5 7 ∧ c'.valid = .ok () ∧ encodeDoc sampleEnv c' = some s := by
  obtain ⟨s, hs⟩ : ∃ s, encodeDoc sampleEnv (parisCal 5 7) = some s := Option.isSome_iff_exists.1 (by decide +kernel)
  obtain ⟨c', hd, hv, -, e⟩ := (C94_of_the_calendar_partial sampleEnv _ (parisCal_proper 5 7) s hs).2 ⟨parisCal_readable, parisCal_stays⟩
  refine ⟨s, c', hs, hd, ?_, hv, e⟩
  rw [((C44_what_comes_back_partial sampleEnv _ (parisCal_proper 5 7) s hs c').1 hd).2]
  decide +kernel

/-- The period from and to times in Paris does not stay: both ends are found in the same zone, but loaded twice. -/
example : ¬ ValStays sampleEnv (.period ⟨⟨63763119600, 0, .zone c!"Europe/Paris" 7 0⟩, ⟨63763123200, 0, .zone c!"Europe/Paris" 7 0⟩, {}⟩) := by
  rintro ⟨-, h⟩
  have := (h (by decide) (by decide +kernel)).2
  revert this
  decide +kernel

/-- Nor does a date in the first day of the year 1. -/
example : ¬ ValStays sampleEnv (.date ⟨5, 0, .utc⟩) := by
  show ¬ _ = false
  decide +kernel

/-- What was sent in octets, cut after every character, is read as what is found. -/
example : ∃ o, encode sampleEnv okSink (fun s => s.map fun c => [c]) (parisCal 5 7) = .done o ∧
    decodeReader sampleEnv (onceReader o.f.out 3) (o.f.out.length + 5) [o.f.out.length + 1, o.f.out.length + 1] = .done (.ok (foundCal sampleEnv (parisCal 5 7))) := by
  obtain ⟨s, hs⟩ : ∃ s, encodeDoc sampleEnv (parisCal 5 7) = some s := Option.isSome_iff_exists.1 (by decide +kernel)
  obtain ⟨o, h1, -, h3⟩ := C44_octets_exactly_partial sampleEnv _ (parisCal_proper 5 7) s hs (fun s => s.map fun c => [c]) (by
    intro s
    induction s with
    | nil => rfl
    | cons a s ih => simp [ih])
  exact ⟨o, h1, (h3 3 _ (by omega) (by omega) _ (by omega) _).2 ⟨parisCal_readable, rfl⟩⟩

end Ics.Props
