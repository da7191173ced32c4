import Verif.SettledLemmas
import Verif.Props.Readable
import Verif.Props.Unbroken
/-!
# Properties: what is read of what was written (C44, C67), and what is written of what was read of it (C94)
-/

namespace Ics.Props
open Spec

/-- What C38 and C44 ask of a calendar: that it passes validation, and that what the package takes from elsewhere without looking is free of control characters. -/
structure Proper (E : Env) (c : Cal) : Prop where
  typed : c.typed = true
  valid : c.valid = .ok ()
  params : ∀ x ∈ calProps c, ∀ y ∈ propParams x.1.spec x.2, ParamWritable E y.1.kind y.2
  vals : ∀ x ∈ calProps c, ∀ v ∈ propVals x.2, CleanVal E v ∧ PlainFloats E v
  sized : ∀ x ∈ calProps c, ∀ v ∈ propVals x.2, ValSized v

/-- Its parameters and values can be read once they are written, and it keeps the rules between properties (C38). -/
def Readable (E : Env) (c : Cal) : Prop :=
  CalRules c ∧ ∀ x ∈ calProps c, x.1.key ≠ c!"LAST-MOD" → (∀ y ∈ propParams x.1.spec x.2, ParamReadable E y.2) ∧ ∀ v ∈ propVals x.2, ValReadable E v

/-! ## C44 What comes back -/

/-- C44, said of every calendar that is written: `Decode` reads it exactly if it is readable, and then finds this and nothing else: all components and properties in
their places but LAST-MODIFIED, all parameters that are set and not empty or false (numbers without names as 0), and of the values exactly `foundVal`: times to the
second and at the instant that the clock of the zone of that name gives, weeks without days, offsets of hours in a byte, a rule without the end besides its count. -/
theorem C44_what_comes_back_partial (E : Env) (c : Cal) (h : Proper E c) (s : Str) (he : encodeDoc E c = some s) (c' : Cal) :
    decodeDoc E s = .ok c' ↔ Readable E c ∧ c' = foundCal E c := by
  have ex := C38_exactly_partial E c h.typed h.valid h.params h.vals h.sized s he
  have hn := written_each he
  have fwd : ∀ c'', decodeDoc E s = .ok c'' → Readable E c ∧ c'' = foundCal E c := by
    intro c'' hd
    have hr := ex.1 ⟨c'', hd⟩
    refine ⟨hr, ?_⟩
    have hb := GoodCal.build
      (fun f p => (∀ y ∈ propParams f.spec p, ParamWritable E y.1.kind y.2) ∧ (∀ v ∈ propVals p, CleanVal E v ∧ PlainFloats E v) ∧ (∀ v ∈ propVals p, ValSized v) ∧
        f.spec.encode E p ≠ none ∧ (f.key ≠ kLastMod → (∀ y ∈ propParams f.spec p, ParamReadable E y.2) ∧ ∀ v ∈ propVals p, ValReadable E v))
      (fun f p => PropLoose E f.spec p ∧ (f.key ≠ kLastMod → f.spec.decode E (toLine E f.spec p).params (toLine E f.spec p).value = .ok (foundProp E f.spec p)))
      (fun f p hw ht ⟨h1, h2, h3, h4, h5⟩ hv => ⟨(prop_legible hw ht hv h1 h2 h3 h4).1, fun hk => foundProp_decode hw ht hv h1 h2 h3 h4 (h5 hk).1 (h5 hk).2⟩)
      c h.typed h.valid (fun x hx => ⟨h.params x hx, h.vals x hx, h.sized x hx, hn x hx, hr.2 x hx⟩)
    obtain ⟨e1, e2⟩ := (loose_lines E).cal c (hb.imp fun _ _ h => h.1)
    rw [e1] at he
    cases he
    exact cal_found hb (decode_alike e2 hd) fun y hy hk => (hb.each y hy).1.2 hk
  constructor
  · exact fwd c'
  · rintro ⟨hr, rfl⟩
    obtain ⟨c'', hd⟩ := ex.2 hr
    rw [hd, (fwd c'' hd).2]

/-- C83.  So the very same calendar, identities of locations and all, comes back exactly if it is readable and is what is found of it. -/
theorem C83_the_very_same (E : Env) (c : Cal) (h : Proper E c) (s : Str) (he : encodeDoc E c = some s) :
    decodeDoc E s = .ok c ↔ Readable E c ∧ foundCal E c = c := by
  rw [C44_what_comes_back_partial E c h s he]
  exact ⟨fun ⟨a, b⟩ => ⟨a, b.symm⟩, fun ⟨a, b⟩ => ⟨a, b.symm⟩⟩

/-- C67 for all that is readable: two calendars of the same text differ at most in what is not found in any text. -/
theorem C67_found_partial (E : Env) (c d : Cal) (hc : Proper E c) (hd : Proper E d) (s : Str) (h1 : encodeDoc E c = some s) (h2 : encodeDoc E d = some s)
    (hr : Readable E c) : Readable E d ∧ foundCal E d = foundCal E c := by
  have := (C44_what_comes_back_partial E c hc s h1 _).2 ⟨hr, rfl⟩
  obtain ⟨a, b⟩ := (C44_what_comes_back_partial E d hd s h2 _).1 this
  exact ⟨a, b.symm⟩

/-! ## C94 Written, read and written again -/

/-- The full claim: what was written and read again passes validation and is written as it was. -/
def C94_claim : Prop := ∀ (E : Env) (c c' : Cal) (s : Str), SaneEnv E → Proper E c → encodeDoc E c = some s → decodeDoc E s = .ok c' →
  c'.valid = .ok () ∧ encodeDoc E c' = some s

theorem proper_unbroken {E : Env} {c : Cal} (h : Proper E c) : Unbroken E c := by
  intro x hx
  refine ⟨fun y hy => ?_, fun v hv => ?_⟩
  · have := h.params x hx y hy
    generalize y.1.kind = k at this ⊢
    generalize y.2 = w at this ⊢
    cases k <;> cases w <;> first | trivial | exact this.1 | exact this | exact fun u hu => (this u hu).1
  · obtain ⟨⟨a, b⟩, _⟩ := h.vals x hx v hv
    exact ⟨fun n p r e c hc => (a n p r e c hc).1, b⟩

/-- C94, exactly.  If what was read passes validation (and is written line by line, see C46), it is written again as it was exactly if there was no LAST-MODIFIED, and
all values are settled: URIs and numbers that the library reads as ones that it writes the same way, zones that are not `time.UTC` or `time.Local` under a name, no
times that clocks skip, no end in the second that counts as none, and no zone without a time in a rule. -/
theorem C94_exactly_partial (E : Env) (c c' : Cal) (h : Proper E c) (s : Str) (he : encodeDoc E c = some s) (hd : decodeDoc E s = .ok c')
    (hv : c'.valid = .ok ()) (hu : Unbroken E c') :
    encodeDoc E c' = some s ↔ ∀ x ∈ calProps c, x.1.key ≠ c!"LAST-MOD" ∧ ∀ v ∈ propVals x.2, ValSettled E v := by
  obtain ⟨hr, rfl⟩ := (C44_what_comes_back_partial E c h s he c').1 hd
  have ht' := C45_typed E s _ hd
  obtain ⟨s', he'⟩ : ∃ s', encodeDoc E (foundCal E c) = some s' := by
    cases hs : encodeDoc E (foundCal E c) with
    | some s' => exact ⟨s', rfl⟩
    | none =>
      obtain ⟨x, hx, hn⟩ := (encodeDoc_none E _).1 hs
      obtain ⟨y, hy, _, rfl⟩ := mem_foundCal hx
      exact absurd hn (foundProp_encode (Cal.typed_props h.typed y hy) (written_each he y hy))
  obtain ⟨e1, _, _⟩ := written_lines h.typed h.valid he
  obtain ⟨e2, _, _⟩ := written_lines ht' hv he'
  have w1 := unbroken_lines h.typed h.valid he (proper_unbroken h)
  have w2 := unbroken_lines ht' hv he' hu
  have key : encodeDoc E (foundCal E c) = some s ↔ (calLines E (foundCal E c)).map printBare = (calLines E c).map printBare := by
    rw [he', e1, e2, Option.some.injEq, ← joinRows_map, ← joinRows_map]
    constructor
    · intro e
      refine joinRows_inj e ?_ ?_
      · intro r hr
        obtain ⟨l, hl, rfl⟩ := List.mem_map.1 hr
        exact (w2 l hl).clear
      · intro r hr hc
        obtain ⟨l, hl, rfl⟩ := List.mem_map.1 hr
        exact absurd ((w1 l hl).clear _ hc) (by decide)
    · intro e
      rw [e]
  rw [key, cal_same]
  constructor
  · intro hx x hm
    obtain ⟨a, b⟩ := hx x hm
    exact ⟨a, (prop_settled (Cal.typed_props h.typed x hm) (((Cal.valid_iff c).1 h.valid).1 x hm) (hr.2 x hm a).2).1 b⟩
  · intro hx x hm
    obtain ⟨a, b⟩ := hx x hm
    exact ⟨a, (prop_settled (Cal.typed_props h.typed x hm) (((Cal.valid_iff c).1 h.valid).1 x hm) (hr.2 x hm a).2).2 b⟩

/-- C94.  Times in UTC, in local time, and in zones that have the rules of the zone of their name are settled on every machine with clocks as they are. -/
theorem C94_times (E : Env) (hE : SaneEnv E) (q : Nat) (t : GoTime) (h : LocOk E t.loc) : TimeSettled E q t := timeSettled_sane hE h

/-! ## Samples -/

/-- A time in Paris. -/
def parisCal (ns p : Nat) : Cal := oneMore c!"DTSTART" (.fields [] [some (.dateTime ⟨63763119600, ns, .zone c!"Europe/Paris" p 0⟩), none])

theorem parisCal_props (ns p : Nat) : calProps (parisCal ns p) =
    [(⟨c!"VERSION", propVersion, .req⟩, val1 0 (.text c!"2.0")), (⟨c!"PRODID", propProductID, .req⟩, val1 0 (.text c!"x")),
      (⟨c!"DTSTAMP", propDateTimeStamp, .req⟩, val1 0 (.dateTime ⟨63763119600, 0, .utc⟩)), (⟨c!"UID", propUID, .req⟩, val1 0 (.text c!"1")),
      (⟨c!"DTSTART", propDateTimeStart, .opt⟩, .fields [] [some (.dateTime ⟨63763119600, ns, .zone c!"Europe/Paris" p 0⟩), none])] := by rfl

theorem parisCal_proper (ns p : Nat) : Proper sampleEnv (parisCal ns p) := by
  refine ⟨rfl, by rfl, ?_, ?_, ?_⟩ <;> rw [parisCal_props] <;>
    simp [propParams, propVals, val1, propVersion, propProductID, propDateTimeStamp, propUID, propDateTimeStart, CleanVal, PlainFloats, valLoc, ValSized]
  unfold BareChar
  repeat' constructor
  all_goals first | decide | (unfold NoCtl; decide)

theorem parisCal_readable : Readable sampleEnv (parisCal 5 7) := by
  have h4 : FourDigits sampleEnv ⟨63763119600, 0, .utc⟩ := by unfold FourDigits; decide +kernel
  have h5 : FourDigits sampleEnv ⟨63763119600, 5, .zone c!"Europe/Paris" 7 0⟩ := by unfold FourDigits; decide +kernel
  refine ⟨by decide +kernel, ?_⟩
  rw [parisCal_props]
  simp [propParams, propVals, val1, propVersion, propProductID, propDateTimeStamp, propUID, propDateTimeStart, ValReadable, LocKnown, h4]
  exact ⟨h5, 0, rfl⟩

/-- C44.  A fraction of a second is not found, and the zone is another object. -/
theorem C44_sample : ∃ s, encodeDoc sampleEnv (parisCal 5 7) = some s ∧
    decodeDoc sampleEnv s = .ok (parisCal 0 0) := by
  refine ⟨_, rfl, (C44_what_comes_back_partial sampleEnv _ (parisCal_proper 5 7) _ rfl _).2 ⟨parisCal_readable, ?_⟩⟩
  decide +kernel

/-- C94.  The theorem on one side: it is written again as it was. -/
theorem C94_sample : ∃ s c', encodeDoc sampleEnv (parisCal 5 7) = some s ∧ decodeDoc sampleEnv s = .ok c' ∧ c' ≠ parisCal 5 7 ∧ encodeDoc sampleEnv c' = some s := by
  obtain ⟨s, hs, hd⟩ := C44_sample
  refine ⟨s, _, hs, hd, by decide +kernel, ?_⟩
  refine (C94_exactly_partial sampleEnv _ _ (parisCal_proper 5 7) s hs hd (by decide +kernel) ?_).2 ?_
  · exact proper_unbroken (parisCal_proper 0 0)
  · rw [parisCal_props]
    have h1 := C94_times sampleEnv sampleEnv_sane 0 ⟨63763119600, 0, .utc⟩ trivial
    have h2 := C94_times sampleEnv sampleEnv_sane 0 ⟨63763119600, 5, .zone c!"Europe/Paris" 7 0⟩ ⟨by decide, by decide, by decide, rfl⟩
    simp [propVals, val1, ValSettled, h1]
    exact h2

/-- C94.  Each of the others: written, read without an error, passes validation again, and is written otherwise: LAST-MODIFIED; `time.UTC` and `time.Local` under a
name; a rule with a count and a time in a zone; a rule that ends within the first second of the year 1. -/
theorem C94_written_otherwise : ∀ x ∈ [(c!"LAST-MOD", PropVal.fields [] [some (.dateTime ⟨63763119600, 0, .utc⟩)]),
      (c!"DTSTART", .fields [] [some (.dateTime ⟨63763119600, 0, .zone c!"UTC" 1 0⟩), none]),
      (c!"DTSTART", .fields [] [some (.dateTime ⟨63763119600, 0, .zone c!"Local" 1 0⟩), none]),
      (c!"RRULE", .fields [] [some (.recur { freq := 6, count := 3, until_ := ⟨63763119600, 0, .zone c!"Europe/Paris" 7 0⟩, untilTime := true })]),
      (c!"RRULE", .fields [] [some (.recur { freq := 6, until_ := ⟨0, 5, .utc⟩, untilTime := true })])],
    (oneMore x.1 x.2).typed = true ∧ (oneMore x.1 x.2).valid = .ok () ∧
      ∃ s c' t, encodeDoc sampleEnv (oneMore x.1 x.2) = some s ∧ decodeDoc sampleEnv s = .ok c' ∧ c'.valid = .ok () ∧ encodeDoc sampleEnv c' = some t ∧ t ≠ s := by
  have : ∀ x ∈ [(c!"LAST-MOD", PropVal.fields [] [some (.dateTime ⟨63763119600, 0, .utc⟩)]),
      (c!"DTSTART", .fields [] [some (.dateTime ⟨63763119600, 0, .zone c!"UTC" 1 0⟩), none]),
      (c!"DTSTART", .fields [] [some (.dateTime ⟨63763119600, 0, .zone c!"Local" 1 0⟩), none]),
      (c!"RRULE", .fields [] [some (.recur { freq := 6, count := 3, until_ := ⟨63763119600, 0, .zone c!"Europe/Paris" 7 0⟩, untilTime := true })]),
      (c!"RRULE", .fields [] [some (.recur { freq := 6, until_ := ⟨0, 5, .utc⟩, untilTime := true })])],
    (oneMore x.1 x.2).typed = true ∧ (oneMore x.1 x.2).valid = .ok () ∧
      (match encodeDoc sampleEnv (oneMore x.1 x.2) with
      | none => false
      | some s =>
        match decodeDoc sampleEnv s with
        | .ok c' => decide (c'.valid = .ok ()) && (match encodeDoc sampleEnv c' with
          | none => false
          | some t => decide (t ≠ s))
        | _ => false) = true := by decide +kernel
  intro x hx
  obtain ⟨a, b, h⟩ := this x hx
  refine ⟨a, b, ?_⟩
  split at h
  · cases h
  · next s hs =>
    split at h
    · next c' hd =>
      rw [Bool.and_eq_true, decide_eq_true_eq] at h
      obtain ⟨h1, h2⟩ := h
      split at h2
      · cases h2
      · next t ht => exact ⟨s, c', t, hs, hd, h1, ht, by simpa using h2⟩
    · cases h

/-- A period from and to times in one zone. -/
def parisPeriod : Cal := oneMore c!"RDATE" (.fields [] [none, none, some (.period ⟨⟨63763119600, 0, .zone c!"Europe/Paris" 7 0⟩, ⟨63763123200, 0, .zone c!"Europe/Paris" 7 0⟩, {}⟩)])

/-- C94.  What is read need not pass validation: both ends of a period have the same zone when it is written, and two when it is read. -/
theorem C94_refused : parisPeriod.typed = true ∧ parisPeriod.valid = .ok () ∧
    ∃ s c', encodeDoc sampleEnv parisPeriod = some s ∧ decodeDoc sampleEnv s = .ok c' ∧ c'.valid = .err .invalidPeriodEnd := by
  have : parisPeriod.typed = true ∧ parisPeriod.valid = .ok () ∧
      (match encodeDoc sampleEnv parisPeriod with
      | none => false
      | some s =>
        match decodeDoc sampleEnv s with
        | .ok c' => decide (c'.valid = .err .invalidPeriodEnd)
        | _ => false) = true := by decide +kernel
  obtain ⟨a, b, h⟩ := this
  refine ⟨a, b, ?_⟩
  split at h
  · cases h
  · next s hs =>
    split at h
    · next c' hd => exact ⟨s, c', hs, hd, by simpa using h⟩
    · cases h

theorem modified_props : calProps (oneMore c!"LAST-MOD" (.fields [] [some (.dateTime ⟨63763119600, 0, .utc⟩)])) =
    [(⟨c!"VERSION", propVersion, .req⟩, val1 0 (.text c!"2.0")), (⟨c!"PRODID", propProductID, .req⟩, val1 0 (.text c!"x")),
      (⟨c!"DTSTAMP", propDateTimeStamp, .req⟩, val1 0 (.dateTime ⟨63763119600, 0, .utc⟩)), (⟨c!"UID", propUID, .req⟩, val1 0 (.text c!"1")),
      (⟨c!"LAST-MOD", propLastModified, .opt⟩, .fields [] [some (.dateTime ⟨63763119600, 0, .utc⟩)])] := by rfl

/-- C94.  The claim as stated in full is false: a counterexample. -/
theorem C94_full_claim_is_false : ¬ C94_claim := by
  intro h
  obtain ⟨h1, h2, s, c', t, h3, h4, h5, h6, h7⟩ := C94_written_otherwise _ (List.mem_cons_self ..)
  have hp : Proper sampleEnv (oneMore c!"LAST-MOD" (.fields [] [some (.dateTime ⟨63763119600, 0, .utc⟩)])) := by
    refine ⟨h1, h2, ?_, ?_, ?_⟩ <;> rw [modified_props] <;>
      simp [propParams, propVals, val1, propVersion, propProductID, propDateTimeStamp, propUID, propLastModified, CleanVal, PlainFloats, valLoc, ValSized]
  have := (h sampleEnv _ c' s sampleEnv_sane hp h3 h4).2
  rw [h6] at this
  exact h7 (Option.some.inj this)

end Ics.Props
