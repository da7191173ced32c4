import Verif.Props.Reading
/-!
# Theorems about calendars with the same encoding: C67
-/

namespace Ics.Props

open Spec

/-- The full claim: calendars that `Encode` accepts and writes alike are the same (but for the identity of time zones with the same name). -/
def C67_claim : Prop := ∀ (E : Env) (c d : Cal) (s : Str), c.typed = true → d.typed = true → c.valid = .ok () → d.valid = .ok () →
  encodeDoc E c = some s → encodeDoc E d = some s → SameCal c d

/-- C67.  The claim for calendars that survive Encode and Decode (C44), but for LAST-MODIFIED. -/
theorem C67_injective_partial (E : Env) (c d : Cal) (hc : GoodCalendar E c) (hd : GoodCalendar E d) (h : encodeDoc E c = encodeDoc E d) :
    SameCal (Cal.dropField c!"LAST-MOD" c) (Cal.dropField c!"LAST-MOD" d) := by
  obtain ⟨s, c', h1, h2, h3⟩ := C44_round_trip_partial E c hc.typed hc.valid hc.rules hc.params hc.vals
  obtain ⟨t, d', g1, g2, g3⟩ := C44_round_trip_partial E d hd.typed hd.valid hd.rules hd.params hd.vals
  rw [h, g1] at h1
  cases h1
  rw [g2] at h2
  cases h2
  exact h3.symm.trans g3

/-- C67 for the octets written, however the text is cut into writes. -/
theorem C67_octets_partial (E : Env) (c d : Cal) (hc : GoodCalendar E c) (hd : GoodCalendar E d) (cut cut' : Str → List Str) (h1 : ∀ s, (cut s).flatten = s)
    (h2 : ∀ s, (cut' s).flatten = s) (o p : EncOut) (ho : encode E okSink cut c = .done o) (hp : encode E okSink cut' d = .done p) (h : o.f.out = p.f.out) :
    SameCal (Cal.dropField c!"LAST-MOD" c) (Cal.dropField c!"LAST-MOD" d) := by
  obtain ⟨o', c', e1, _, e2, e3⟩ := C44_octets_partial E c hc.typed hc.valid hc.rules hc.params hc.vals cut h1
  obtain ⟨p', d', f1, _, f2, f3⟩ := C44_octets_partial E d hd.typed hd.valid hd.rules hd.params hd.vals cut' h2
  rw [ho] at e1
  rw [hp] at f1
  cases e1
  cases f1
  have a := e3 0 (o.f.out.length + 1) (by omega) (by omega) _ (Nat.le_refl _)
  have b := f3 0 (o.f.out.length + 1) (by rw [← h]; omega) (by omega) _ (Nat.le_refl _)
  rw [← h, a] at b
  cases b
  exact e2.symm.trans f2

/-- A calendar with an event whose summary has this language. -/
def languageCal (l : Option Str) : Cal := sect tabCalendar [(c!"VERSION", val1 0 (.text c!"2.0")), (c!"PRODID", val1 0 (.text c!"-//x"))]
  [[sect tabEvent [(c!"DTSTAMP", val1 0 (.dateTime ⟨63763119600, 0, .utc⟩)), (c!"UID", val1 0 (.text c!"1")),
    (c!"SUMMARY", .fields [none, l.map .str] [some (.text c!"s")])] [[]]], [], [], [], []]

/-- An empty parameter and none are written alike. -/
theorem C67_empty_parameter : (languageCal none).typed = true ∧ (languageCal (some [])).typed = true ∧ (languageCal none).valid = .ok () ∧
    (languageCal (some [])).valid = .ok () ∧ encodeDoc sampleEnv (languageCal none) = encodeDoc sampleEnv (languageCal (some [])) ∧
    (encodeDoc sampleEnv (languageCal none)).isSome = true ∧ ¬ SameCal (languageCal none) (languageCal (some [])) := by
  refine ⟨by decide +kernel, by decide +kernel, by decide +kernel, by decide +kernel, by decide +kernel, by decide +kernel, ?_⟩
  unfold SameCal
  decide +kernel

/-- C67.  The claim as stated in full is false: a counterexample. -/
theorem C67_full_claim_is_false : ¬ C67_claim := by
  intro h
  obtain ⟨h1, h2, h3, h4, h5, h6, h7⟩ := C67_empty_parameter
  obtain ⟨s, hs⟩ := Option.isSome_iff_exists.1 h6
  exact h7 (h _ _ _ s h1 h2 h3 h4 hs (h5 ▸ hs))

/-- Calendars that meet the hypotheses and are different. -/
example : GoodCalendar sampleEnv sampleCal ∧ encodeDoc sampleEnv sampleCal ≠ encodeDoc sampleEnv (languageCal (some c!"en")) :=
  ⟨sampleCal_goodCalendar, by decide +kernel⟩

end Ics.Props
