import Verif.WrittenLemmas
import Verif.Props.Recur
import Verif.Props.Time
/-!
# Theorems about the texts that are written for values: C81
-/

namespace Ics.Props

open Spec

/-! ## C81 Values are written as RFC 5545 texts -/

/-- The claim in full: a valid value that has a text in RFC 5545 is written as such a text, and a text for this value, not for another one. -/
def C81_claim : Prop := ∀ (E : Env) (Uri : Str → Prop) (v : Val), v.valid = .ok () → (∀ r, v = .recur r → r.WF) → (∃ s, RfcWrites E Uri s v) →
  RfcWrites E Uri (v.text_ E) v

/-- C81.  Which values have a text: years of four digits, periods with an end or a duration, durations of weeks or of days and less, and so on. -/
theorem C81_expressible (E : Env) (Uri : Str → Prop) (v : Val) (s : Str) (h : RfcWrites E Uri s v) : Expressible E Uri v := by
  cases v with
  | binary b => trivial
  | boolean b => trivial
  | text t => trivial
  | calAddress u => obtain ⟨rfl, h⟩ := h; exact h
  | uri u => obtain ⟨rfl, h⟩ := h; exact h
  | date t => exact dayText_four h
  | dateTime t => exact momentText_four h
  | duration d => exact rfcDuration_units h
  | integer i => exact h.2
  | mtext ts => rintro rfl; nomatch h.1
  | period p =>
    obtain ⟨a, b, _, h1, ⟨h2, h3, _⟩ | ⟨h2, h3, h4⟩⟩ := h
    · exact ⟨momentText_four h1, by rw [if_pos h2]; exact rfcDuration_units h3⟩
    · exact ⟨momentText_four h1, by rw [h2]; exact ⟨h3, momentText_four h4⟩⟩
  | recur r => exact recurText_range h
  | tfloat t =>
    obtain ⟨rfl, a, b, e, ha, hb⟩ := h
    obtain ⟨e1, e2⟩ := semi_unique e (floatText_free ha) (floatText_free hb)
    exact ⟨e1 ▸ ha, e2 ▸ hb⟩
  | utcOffset o => exact rfcOffset_below h

/-- C81.  A valid value that has a text is written as one: all but offsets that are not negative. -/
theorem C81_written_partial (E : Env) (Uri : Str → Prop) (v : Val) (hv : v.valid = .ok ()) (hw : ∀ r, v = .recur r → r.WF) (hx : Expressible E Uri v)
    (ho : ∀ o, v = .utcOffset o → o < 0) : RfcWrites E Uri (v.text_ E) v := by
  cases v with
  | binary b => exact C25_encoding_is_base64 b
  | boolean b => cases b <;> rfl
  | text t => exact ⟨C16_encoding_is_rfc_text t, Text.encode_NoCtl hv⟩
  | calAddress u => exact ⟨rfl, hx⟩
  | uri u => exact ⟨rfl, hx⟩
  | date t => exact dayText_encode hx
  | dateTime t => exact momentText_encode hx
  | duration d => exact C19_encoding_is_rfc d hx
  | integer i => exact ⟨IntLit_fmtInt i, hx⟩
  | mtext ts => exact ⟨C17_encoding_is_rfc_list ts hx, MText.encode_NoCtl hv⟩
  | period p =>
    obtain ⟨h1, h2⟩ := hx
    refine ⟨_, _, rfl, momentText_encode h1, ?_⟩
    have hv : Period.valid p = .ok () := hv
    unfold Period.valid at hv
    cases hz : p.stop.isZero with
    | true =>
      rw [hz] at h2 hv
      refine .inl ⟨rfl, C19_encoding_is_rfc _ h2, ?_⟩
      split at hv
      · cases hv
      · simpa [Res.guard] using hv
    | false =>
      rw [hz] at h2
      exact .inr ⟨rfl, h2.1, momentText_encode h2.2⟩
  | recur r => exact recurText_encode (hw r rfl) hv hx.1 hx.2.1 hx.2.2
  | tfloat t => exact ⟨rfl, _, _, rfl, hx.1, hx.2⟩
  | utcOffset o => exact C20_negative_offset_is_rfc_partial o hx.1 (ho o rfl)

/-- C81.  So, for valid values but offsets: a value is written as a text for it exactly if there is one. -/
theorem C81_exact_partial (E : Env) (Uri : Str → Prop) (v : Val) (hv : v.valid = .ok ()) (hw : ∀ r, v = .recur r → r.WF) (ho : v.kind ≠ .utcOffset) :
    (RfcWrites E Uri (v.text_ E) v ↔ Expressible E Uri v) ∧ (Expressible E Uri v ↔ ∃ s, RfcWrites E Uri s v) := by
  have h : Expressible E Uri v → RfcWrites E Uri (v.text_ E) v := fun hx => C81_written_partial E Uri v hv hw hx (by rintro o rfl; exact absurd rfl ho)
  exact ⟨⟨C81_expressible E Uri v _, h⟩, fun hx => ⟨_, h hx⟩, fun ⟨s, hs⟩ => C81_expressible E Uri v s hs⟩

/-- C81.  No offset that is not negative is written as a text of RFC 5545, though all below a day have one. -/
theorem C81_offsets (E : Env) (Uri : Str → Prop) (o : Int) (h : 0 ≤ o) (h1 : o < 86400) :
    (∃ s, RfcWrites E Uri s (.utcOffset o)) ∧ ∀ u, ¬ RfcWrites E Uri ((Val.utcOffset o).text_ E) (.utcOffset u) := by
  refine ⟨?_, fun u => C20_nonnegative_offset_is_not_rfc o u h h1⟩
  obtain ⟨t, ht, _⟩ := offset_encode_spec o (by omega)
  exact ⟨'+' :: t, t, _, ht, .inl ⟨rfl, by omega⟩⟩

/-- C81.  The claim as stated in full is false: a counterexample. -/
theorem C81_full_claim_is_false : ¬ C81_claim := by
  intro h
  obtain ⟨h1, h2⟩ := C81_offsets sampleEnv (fun _ => True) 3600 (by decide) (by decide)
  exact h2 _ (h sampleEnv _ _ rfl (by rintro r ⟨⟩) h1)

/-- C81.  Values that validation accepts and that have no text are written all the same: the sixtieth Monday, the year 10000, two weeks and a day, no text at all in a list. -/
theorem C81_no_text (E : Env) (Uri : Str → Prop) : ∀ v ∈ [Val.recur { byDay := [⟨2, 60⟩] }, .dateTime ⟨315537897600, 0, .utc⟩, .duration { weeks := 2, days := 1 }, .mtext [],
    .utcOffset 86400], v.valid = .ok () ∧ ∀ s, ¬ RfcWrites E Uri s v := by
  intro v hv
  refine ⟨?_, fun s hs => ?_⟩
  · revert v; decide
  · have hx := C81_expressible E Uri v s hs
    simp only [List.mem_cons, List.not_mem_nil, or_false] at hv
    rcases hv with rfl | rfl | rfl | rfl | rfl
    · obtain ⟨_, h, _⟩ := hx
      exact absurd (h ⟨2, 60⟩ (by simp)) (by unfold Ordinal; decide)
    · have : GoTime.wall E ⟨315537897600, 0, .utc⟩ = 315537897600 := by simp [GoTime.wall, locOff]
      obtain ⟨_, h⟩ := hx
      rw [this] at h
      revert h
      decide +kernel
    · rcases hx with h | ⟨h, _⟩ <;> cases h
    · exact hx rfl
    · exact absurd hx.2 (by decide)

/-- Samples: each is valid, has a text, and is written as one. -/
def sampleValues : List Val := [.binary [1, 2], .boolean true, .text c!"a;b\n", .calAddress ⟨c!"mailto:a@b.c"⟩, .date ⟨63763113600, 0, .utc⟩,
  .dateTime ⟨63763119600, 0, .zone c!"Europe/Paris" 0 0⟩, .duration { neg := true, days := 1, hours := 2 }, .integer (-5), .mtext [c!"a,b", c!"c"],
  .period { start := ⟨63763119600, 0, .utc⟩, dur := { weeks := 2 } }, .recur sampleRecur, .utcOffset (-3600)]

example : ∀ v ∈ sampleValues, v.valid = .ok () := by decide +kernel
example : sampleValues.map (Val.text_ sampleEnv) = [c!"AQI=", c!"TRUE", c!"a\\;b\\n", c!"mailto:a@b.c", c!"20210729", c!"20210729T024000", c!"-P1DT2H", c!"-5", c!"a\\,b,c",
  c!"20210729T014000Z/P2W", Recur.encode sampleEnv sampleRecur, c!"-0100"] := by decide +kernel

example : ∀ v ∈ sampleValues, Expressible sampleEnv (fun s => s ≠ []) v := by
  intro v hv
  simp only [sampleValues, List.mem_cons, List.not_mem_nil, or_false] at hv
  rcases hv with rfl | rfl | rfl | rfl | rfl | rfl | rfl | rfl | rfl | rfl | rfl | rfl <;> unfold Expressible <;> try unfold FourDigits
  all_goals first | trivial | decide +kernel | exact ⟨by decide, by unfold Ordinal; decide, fun h => absurd h (by decide)⟩

end Ics.Props
