import Verif.MeaningLemmas
import Verif.FineLemmas
import Verif.TimeOfDayLemmas
/-!
# C57, C58, C59: values, parameters, and what Encode accepts
-/

namespace Ics.Props

open Spec

/-! ## C57 Values -/

/-- C57.  A text is accepted as a value of a type exactly if it is one by Spec/Meaning, and what it is decoded to is what it means. -/
theorem C57_values_exact (E : Env) (look : Str → Option Str) (k : Kind) (s : Str) (v : Val) : Val.decode E look k s = .ok v ↔ ValMeans E look k s v :=
  Val.decode_iff E look k s v

/-- C57.  No text means two things. -/
theorem C57_one_meaning (E : Env) (look : Str → Option Str) (k : Kind) (s : Str) (v w : Val) (h1 : ValMeans E look k s v) (h2 : ValMeans E look k s w) :
    v = w := by
  have h1 := (Val.decode_iff ..).2 h1
  have h2 := (Val.decode_iff ..).2 h2
  rw [h1] at h2
  injection h2

/-- C19.  Exactly these durations are accepted: weeks alone, or days, hours, minutes and seconds in this order, where hours, minutes and seconds may begin again
behind another T, and the T before the first of them may be missing unless they are seconds at the very start. -/
theorem C19_decoding_exact (s : Str) (d : Duration) : Duration.decode s = .ok d ↔ DurationMeans s d := Duration.decode_iff s d

/-- C22.  Exactly these date-times are accepted. -/
theorem C22_datetime_means (E : Env) (p : Nat) (tz : Option Str) (s : Str) (t : GoTime) : DateTime.decode E p tz s = .ok t ↔ DateTimeMeans E p tz s t :=
  DateTime.decode_iff E p tz s t

/-- C22.  Exactly these times of day are accepted. -/
theorem C22_time_means (E : Env) (p : Nat) (tz : Option Str) (s : Str) (t : GoTime) : Time.decode E p tz s = .ok t ↔ TimeMeans E p tz s t := Time.decode_iff E p tz s t

/-- C21.  What comes back of the time of day of any time, in any zone: the same reading of the clock on 1 January of year 0. -/
theorem C21_time_comes_back (E : Env) (p : Nat) (t : GoTime) (h : LocOk E t.loc) :
    Time.decode E p (tzidOf t.loc) (Time.encode E t) = .ok ⟨instant E t.loc (-366 * 86400 + t.wall E % 86400), 0, t.loc.withPtr p⟩ := Time.decode_encode E p t h

/-- In Paris. -/
example : TimeMeans sampleEnv 4 (some c!"Europe/Paris") c!"034000" ⟨-366 * 86400 + 3600 + 40 * 60, 0, .zone c!"Europe/Paris" 4 0⟩ ∧
    ¬ ∃ t, TimeMeans sampleEnv 4 (some c!"Europe/Paris") c!"034000Z" t :=
  ⟨(Time.decode_iff ..).1 (by decide +kernel), fun ⟨t, h⟩ => absurd ((Time.decode_iff ..).2 h) (by
    have : Time.decode sampleEnv 4 (some c!"Europe/Paris") c!"034000Z" = .err .ext := by decide +kernel
    rw [this]; simp)⟩

example := C21_time_comes_back sampleEnv 4 ⟨63763119600, 5, .zone c!"Europe/Paris" 7 0⟩ ⟨by decide, by decide, by decide, rfl⟩

/-- A duration with a day and two groups of hours, in which the second hour counts. -/
example : DurationMeans c!"P1DT2H3MT4H" { days := 1, hours := 4, minutes := 3 } := (Duration.decode_iff ..).1 (by decide)

/-- Seconds without a T are not a duration, unless minutes come before. -/
example : (¬ ∃ d, DurationMeans c!"P5S" d) ∧ DurationMeans c!"P1M5S" { minutes := 1, seconds := 5 } :=
  ⟨fun ⟨d, h⟩ => absurd ((Duration.decode_iff ..).2 h) (by
    have : Duration.decode c!"P5S" = .err .invalidDuration := by decide
    rw [this]; simp), (Duration.decode_iff ..).1 (by decide)⟩

example : ValMeans sampleEnv (fun n => if n = c!"TZID" then some c!"Europe/Paris" else none) .period c!"20210729T024000/PT1H"
    (.period ⟨⟨63763119600, 0, .zone c!"Europe/Paris" 0 0⟩, {}, { hours := 1 }⟩) := (Val.decode_iff ..).1 (by decide +kernel)

/-! ## C58 Parameters -/

/-- C58.  Values are accepted as those of a parameter exactly if they are by Spec/Meaning, and what they are decoded to is what they mean. -/
theorem C58_parameters_exact (E : Env) (k : PKind) (vs : List PVal) (q : ParamVal) : k.decode E vs = .ok q ↔ ParamMeans E k vs q := PKind.decode_iff E k vs q

/-- C58.  All but the lists take one value only. -/
theorem C58_single (E : Env) (k : PKind) (vs : List PVal) (q : ParamVal) (hk : k ≠ .urls ∧ k ≠ .strs) (h : k.decode E vs = .ok q) : vs.length = 1 := by
  have h := (PKind.decode_iff ..).1 h
  cases k with
  | url => obtain ⟨s, u, rfl, _⟩ := h; rfl
  | urls => exact absurd rfl hk.1
  | str => obtain ⟨s, u, rfl, _⟩ := h; rfl
  | fmt => obtain ⟨s, rfl, _⟩ := h; rfl
  | enum => obtain ⟨s, rfl, _⟩ := h; rfl
  | strs => exact absurd rfl hk.2
  | range => obtain ⟨s, rfl, _⟩ := h; rfl
  | bool => obtain ⟨s, u, rfl, _⟩ := h; rfl

/-- C58.  A name that the library does not know is taken, but its text is lost: it is the unknown value. -/
theorem C58_unknown_names (E : Env) (names : List Str) (b : Bool) (s : Str) (h : upper s ∉ names) : (PKind.enum names).decode E [⟨b, s⟩] = .ok (.enum 0) :=
  (PKind.decode_iff ..).2 ⟨_, rfl, Or.inr ⟨rfl, h⟩⟩

/-- C58.  RANGE has one value. -/
theorem C58_range (E : Env) (b : Bool) (s : Str) (q : ParamVal) : PKind.range.decode E [⟨b, s⟩] = .ok q ↔ q = .unit ∧ upper s = c!"THISANDFUTURE" := by
  rw [PKind.decode_iff]
  constructor
  · rintro ⟨v, h1, h2, h3⟩
    injection h1 with h1
    subst h1
    exact ⟨h2, h3⟩
  · rintro ⟨h1, h2⟩; exact ⟨_, rfl, h1, h2⟩

/-- Values of parameters. -/
example : ParamMeans sampleEnv (.enum [c!"BINARY", c!"X-Y"]) [⟨false, c!"x-y"⟩] (.enum 2) ∧ ParamMeans sampleEnv .strs [⟨true, c!"a"⟩, ⟨true, c!"b^c"⟩] (.strs [c!"a", c!"b^^^c"]) ∧
    ¬ ParamMeans sampleEnv .range [⟨false, c!"THISANDPRIOR"⟩] .unit := by
  refine ⟨(PKind.decode_iff ..).1 (by decide), (PKind.decode_iff ..).1 (by decide), fun h => ?_⟩
  have := (PKind.decode_iff ..).2 h
  exact absurd this (by decide)

/-! ## C59 What Encode accepts -/

/-- C59.  Encode never panics, whatever the calendar: it returns, or it does not end. -/
theorem C59_encode_never_panics (E : Env) (W : Sink) (cut : Str → List Str) (c : Cal) : encode E W cut c ≠ .panic := by
  unfold encode
  split
  · simp
  · next h => exact absurd h (Cal.valid_ne_panic c)
  · split <;> simp

/-- C59.  Validation accepts a calendar exactly if no alarm is without type and every property, in whatever component, has one of its names or one value, which is
fine, with parameters that are fine. -/
theorem C59_valid_exact (c : Cal) (ht : c.typed = true) : c.valid = .ok () ↔ (∀ x ∈ calProps c, PropFine x.1.spec x.2) ∧ NoNilAlarm c := by
  rw [Cal.valid_iff]
  have h := Cal.typed_props ht
  constructor
  · rintro ⟨h1, h2⟩; exact ⟨fun x hx => (prop_fine_iff (h x hx)).1 (h1 x hx), h2⟩
  · rintro ⟨h1, h2⟩; exact ⟨fun x hx => (prop_fine_iff (h x hx)).2 (h1 x hx), h2⟩

/-- C59.  Encode refuses exactly the other calendars. -/
theorem C59_encode_refuses (E : Env) (W : Sink) (cut : Str → List Str) (c : Cal) (ht : c.typed = true) :
    (∃ o e, encode E W cut c = .done o ∧ o.err = some (.validation e)) ↔ ¬ ((∀ x ∈ calProps c, PropFine x.1.spec x.2) ∧ NoNilAlarm c) := by
  rw [← C59_valid_exact c ht]
  unfold encode
  cases hv : c.valid with
  | err e => simp
  | panic => exact absurd hv (Cal.valid_ne_panic c)
  | ok u =>
    simp only [not_true_eq_false, iff_false]
    rintro ⟨o, e, h1, h2⟩
    split at h1
    · cases h1
    · injection h1 with h1
      subst h1
      dsimp only at h2
      rw [Option.map_eq_some_iff] at h2
      obtain ⟨_, _, h⟩ := h2
      cases h

/-- The sample calendar is one that Encode accepts, with ten values and a parameter at least. -/
example : (∀ x ∈ calProps sampleCal, PropFine x.1.spec x.2) ∧ NoNilAlarm sampleCal := (C59_valid_exact sampleCal sampleCal_typed).1 (by decide +kernel)

/-- A bell in a parameter is found. -/
example : ¬ ParamFine (.str false) (.str c!"a\x07") ∧ ParamFine (.str false) (.str c!"a\tb") := by
  constructor
  · intro h
    exact h '\x07' (by simp) (Or.inl (by decide))
  · intro c hc
    simp only [List.mem_cons, List.not_mem_nil, or_false] at hc
    rcases hc with rfl | rfl | rfl <;> decide

end Ics.Props
