import Verif.AgainLemmas
/-!
# C60, C61: Decode, Encode, Decode
-/

namespace Ics.Props

open Spec

/-! ## C60 Decoded calendars survive -/

/-- The full claim: a decoded calendar that can be encoded comes back. -/
def C60_claim : Prop := ∀ (E : Env) (s t : Str) (c : Cal), SaneEnv E → decodeDoc E s = .ok c → c.valid = .ok () → encodeDoc E c = some t →
  ∃ c', decodeDoc E t = .ok c' ∧ SameCal c' c

/-- C60.  Whatever the text was, if it was decoded, the calendar passes validation and its parameters and values are among those that are kept, then encoding ends
and what is written is decoded to the same calendar, without the LAST-MODIFIED properties and up to the identity of loaded locations.  (That all times come back,
also those the clocks in their zone skip or show twice, is due to the decoder: it chooses one instant for each reading, and always the same one.) -/
theorem C60_again_partial (E : Env) (hE : SaneEnv E) (s : Str) (c : Cal) (h : decodeDoc E s = .ok c) (hv : c.valid = .ok ())
    (hp : ∀ x ∈ calParams c, ParamKept x.1 x.2) (hl : ∀ v ∈ calVals c, ValKept E v) :
    ∃ t c', encodeDoc E c = some t ∧ decodeDoc E t = .ok c' ∧ SameCal c' (Cal.dropField c!"LAST-MOD" c) := by
  have ha := decoded_again hE h
  have hx := ha.props
  refine C44_round_trip_partial E c (C45_typed E s c h) hv ha.rules (fun x hm y hy => (hx x hm).1 y hy ?_) (fun x hm v hv => (hx x hm).2 v hv ?_)
  · exact hp _ (List.mem_flatMap.2 ⟨x, hm, List.mem_map.2 ⟨y, hy, rfl⟩⟩)
  · exact hl _ (List.mem_flatMap.2 ⟨x, hm, hv⟩)

/-- C60.  Without LAST-MODIFIED (read under the name LAST-MOD only) the same calendar comes back, and writing it again gives the same text: Encode after Decode is
a normal form. -/
theorem C60_stable_partial (E : Env) (hE : SaneEnv E) (s : Str) (c : Cal) (h : decodeDoc E s = .ok c) (hv : c.valid = .ok ())
    (hp : ∀ x ∈ calParams c, ParamKept x.1 x.2) (hl : ∀ v ∈ calVals c, ValKept E v) (hm : ∀ x ∈ calProps c, x.1.key ≠ c!"LAST-MOD") :
    ∃ t c', encodeDoc E c = some t ∧ decodeDoc E t = .ok c' ∧ SameCal c' c ∧ encodeDoc E c' = some t := by
  obtain ⟨t, c', h1, h2, h3⟩ := C60_again_partial E hE s c h hv hp hl
  have hx := (decoded_again hE h).props
  have hb : GoodCal (fun f p => FieldOk E f p ∧ PropVal.norm E f.spec p = Spec.PropVal.mapVals Val.norm p) c :=
    good_build (C45_typed E s c h) hv (fun x hm y hy => (hx x hm).1 y hy (hp _ (List.mem_flatMap.2 ⟨x, hm, List.mem_map.2 ⟨y, hy, rfl⟩⟩)))
      (fun x hm v hv => (hx x hm).2 v hv (hl _ (List.mem_flatMap.2 ⟨x, hm, hv⟩)))
  have e : Cal.dropField c!"LAST-MOD" c = c := hb.drop_absent _ hm
  rw [e] at h3
  exact ⟨t, c', h1, h2, h3, by rw [encodeDoc_same h3, h1]⟩

/-- C60.  What is written does not depend on the identity of locations. -/
theorem C60_identity_unseen (E : Env) (a b : Cal) (h : SameCal a b) : encodeDoc E a = encodeDoc E b := encodeDoc_same h

/-! ## C61 Encode returns on what was decoded -/

/-- The full claim. -/
def C61_claim : Prop := ∀ (E : Env) (W : Sink) (cut : Str → List Str) (s : Str) (c : Cal), decodeDoc E s = .ok c → encode E W cut c ≠ .running

/-- C61.  Exactly the decoded calendars that pass validation and have a caret in the text of a parameter are those on which Encode does not return. -/
theorem C61_hangs_exact_partial (E : Env) (W : Sink) (cut : Str → List Str) (s : Str) (c : Cal) (h : decodeDoc E s = .ok c) :
    encode E W cut c = .running ↔ c.valid = .ok () ∧ ∃ x ∈ calParams c, ∃ t ∈ paramTexts x.2, '^' ∈ t := by
  rw [C30_termination_exact_partial E W cut c (C45_typed E s c h)]
  have hx := (decoded_texts h).props
  constructor
  · rintro ⟨h1, x, hm, y, hy, t, ht, hc⟩
    refine ⟨h1, _, List.mem_flatMap.2 ⟨x, hm, List.mem_map.2 ⟨y, hy, rfl⟩⟩, t, ht, ?_⟩
    rcases hc with hc | hc | hc
    · exact hx x hm y hy t ht (Or.inl hc)
    · exact hc
    · exact hx x hm y hy t ht (Or.inr hc)
  · rintro ⟨h1, z, hz, t, ht, hc⟩
    obtain ⟨x, hm, hz⟩ := List.mem_flatMap.1 hz
    obtain ⟨y, hy, rfl⟩ := List.mem_map.1 hz
    exact ⟨h1, x, hm, y, hy, t, ht, Or.inr (Or.inl hc)⟩

/-! ## Non-trivial cases -/

instance (c : Char) : Decidable (NoCtl c) := by unfold NoCtl; infer_instance

instance (t : GoTime) : Decidable (ZeroTime t) := by unfold ZeroTime; infer_instance

instance (k : PKind) (q : ParamVal) : Decidable (ParamKept k q) := by unfold ParamKept; split <;> infer_instance

instance (E : Env) (v : Val) : Decidable (ValKept E v) := by unfold ValKept; split <;> infer_instance

theorem sampleEnv_sane : SaneEnv sampleEnv := by
  have z : ∀ n r, sampleEnv.loadZone n = some r → n = c!"Europe/Paris" := by
    intro n r h
    by_cases e : n = c!"Europe/Paris"
    · exact e
    · simp [sampleEnv, e] at h
  refine ⟨saneZone_zero, fun n r _ => ?_, fun n r h => ?_⟩
  · show SaneZone fun t => if t < 100000000 then 7200 else 3600
    refine ⟨fun x => by split <;> omega, fun w => ⟨100000000, 7200, 3600, fun _ _ _ => rfl⟩, fun x y hx hy => ?_, fun x y hx hy => ?_⟩
    · unfold Near yearZero at hx hy
      rw [if_pos (by omega), if_pos (by omega)]
    · unfold Near yearTenThousand at hx hy
      rw [if_neg (by omega), if_neg (by omega)]
  · rw [z n r h]
    simp only [List.mem_cons, List.not_mem_nil, or_false]
    rintro c (rfl | rfl | rfl | rfl | rfl | rfl | rfl | rfl | rfl | rfl | rfl | rfl) <;> exact ⟨by decide, by decide⟩

/-- A zone in which the clocks go from 01:00 to 02:00 on 29 July 2021. -/
def gapEnv : Env := { sampleEnv with zoneOff := fun _ t => if t < 63763113600 then 3600 else 7200 }

theorem gapEnv_sane : SaneEnv gapEnv := by
  have z : ∀ n r, gapEnv.loadZone n = some r → n = c!"Europe/Paris" := by
    intro n r h
    by_cases e : n = c!"Europe/Paris"
    · exact e
    · simp [gapEnv, sampleEnv, e] at h
  refine ⟨saneZone_zero, fun n r _ => ?_, fun n r h => ?_⟩
  · show SaneZone fun t => if t < 63763113600 then 3600 else 7200
    refine ⟨fun x => by split <;> omega, fun w => ⟨63763113600, 3600, 7200, fun _ _ _ => rfl⟩, fun x y hx hy => ?_, fun x y hx hy => ?_⟩
    · unfold Near yearZero at hx hy
      rw [if_pos (by omega), if_pos (by omega)]
    · unfold Near yearTenThousand at hx hy
      rw [if_neg (by omega), if_neg (by omega)]
  · rw [z n r h]
    simp only [List.mem_cons, List.not_mem_nil, or_false]
    rintro c (rfl | rfl | rfl | rfl | rfl | rfl | rfl | rfl | rfl | rfl | rfl | rfl) <;> exact ⟨by decide, by decide⟩

/-- The hypotheses of C60, computed. -/
def keptCheck (E : Env) (c : Cal) : Bool := decide (c.valid = .ok () ∧ (∀ x ∈ calParams c, ParamKept x.1 x.2) ∧ (∀ v ∈ calVals c, ValKept E v) ∧
  ∀ x ∈ calProps c, x.1.key ≠ c!"LAST-MOD")

/-- An event that starts when the clock shows half past one, which it never does; with a quoted parameter, names in lower case, a rule with its parts in another order, a period, a strange duration. -/
def gapDoc : Str := oneMoreDoc (List.flatten [c!"dtstart;tzid=Europe/Paris:20210729T013000\r\n",
  c!"rrule:BYDAY=+1MO;FREQ=MONTHLY\r\n",
  c!"Attendee;cn=\"Ann: B\";RSVP=true:mailto:ann@example.com\r\nRDATE;VALUE=PERIOD:20210729T014000Z/P1DT1H\r\nDURATION:P1DT2H3MT4H"])

/-- It is decoded, it comes back, and the second text is the third. -/
example : ∃ c, decodeDoc gapEnv gapDoc = .ok c ∧ 8 ≤ (calVals c).length ∧ ∃ t c', encodeDoc gapEnv c = some t ∧ decodeDoc gapEnv t = .ok c' ∧ SameCal c' c ∧
    encodeDoc gapEnv c' = some t := by
  have : (match decodeDoc gapEnv gapDoc with
    | .ok c => keptCheck gapEnv c && decide (8 ≤ (calVals c).length)
    | _ => false) = true := by decide +kernel
  split at this
  · next c h =>
    simp only [Bool.and_eq_true, keptCheck, decide_eq_true_eq] at this
    obtain ⟨⟨h1, h2, h3, h4⟩, h5⟩ := this
    exact ⟨c, h, h5, C60_stable_partial gapEnv gapEnv_sane gapDoc c h h1 h2 h3 h4⟩
  · cases this

/-- The reading that does not exist is decoded to the instant at which the clock shows half past two; that is written. -/
example : DateTime.decode gapEnv 0 (some c!"Europe/Paris") c!"20210729T013000" = .ok ⟨63763115400, 0, .zone c!"Europe/Paris" 0 0⟩ ∧
    DateTime.encode gapEnv ⟨63763115400, 0, .zone c!"Europe/Paris" 0 0⟩ = c!"20210729T023000" := by decide +kernel

/-! ## What is lost -/

/-- C60.  A URI parameter must be quoted to be read, and is written without quotes: what was written is rejected. -/
theorem C60_uri_parameter :
    let c := oneMore c!"SUMMARY" (.fields [some (.url ⟨c!"CID:x"⟩), none] [some (.text c!"y")])
    decodeDoc sampleEnv (oneMoreDoc c!"SUMMARY;ALTREP=\"CID:x\":y") = .ok c ∧ c.valid = .ok () ∧
      ∃ t, encodeDoc sampleEnv c = some t ∧ decodeDoc sampleEnv t = .err .invalidParam := by
  refine ⟨by decide +kernel, by decide +kernel, _, rfl, by decide +kernel⟩

/-- C60.  RSVP=FALSE is read, but not written. -/
theorem C60_false_parameter :
    let no := [none, none, none, none]
    let c := oneMore c!"ATTENDEE" (.fields (no ++ [some (.bool false)] ++ no ++ [none, none]) [some (.calAddress ⟨c!"mailto:x"⟩)])
    let d := oneMore c!"ATTENDEE" (.fields (no ++ [none] ++ no ++ [none, none]) [some (.calAddress ⟨c!"mailto:x"⟩)])
    decodeDoc sampleEnv (oneMoreDoc c!"ATTENDEE;RSVP=FALSE:mailto:x") = .ok c ∧ c.valid = .ok () ∧
      ∃ t, encodeDoc sampleEnv c = some t ∧ decodeDoc sampleEnv t = .ok d ∧ ¬ SameCal d c := by
  refine ⟨by decide +kernel, by decide +kernel, _, rfl, by decide +kernel, by unfold SameCal; decide +kernel⟩

/-- C61.  A document with a caret in a parameter is decoded to a calendar on which Encode does not return. -/
theorem C61_caret_hangs (W : Sink) (cut : Str → List Str) :
    ∃ c, decodeDoc sampleEnv (oneMoreDoc c!"SUMMARY;LANGUAGE=e^n:x") = .ok c ∧ encode sampleEnv W cut c = .running := by
  have h : decodeDoc sampleEnv (oneMoreDoc c!"SUMMARY;LANGUAGE=e^n:x") = .ok (oneMore c!"SUMMARY" (.fields [none, some (.str c!"e\n^n")] [some (.text c!"x")])) := by
    decide +kernel
  refine ⟨_, h, ?_⟩
  rw [C61_hangs_exact_partial sampleEnv W cut _ _ h]
  decide +kernel

/-- C60.  The claim as stated in full is false: a counterexample. -/
theorem C60_full_claim_is_false : ¬ C60_claim := by
  intro h
  obtain ⟨h1, h2, t, h3, h4⟩ := C60_uri_parameter
  obtain ⟨c', h5, _⟩ := h _ _ _ _ sampleEnv_sane h1 h2 h3
  rw [h4] at h5
  cases h5

/-- C61.  The claim as stated in full is false: a counterexample. -/
theorem C61_full_claim_is_false : ¬ C61_claim := by
  intro h
  obtain ⟨c, h1, h2⟩ := C61_caret_hangs okSink (fun s => [s])
  exact h _ _ _ _ _ h1 h2

end Ics.Props
