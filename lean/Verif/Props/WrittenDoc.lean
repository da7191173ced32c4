import Verif.WrittenDocLemmas
import Verif.Props.Sample
/-!
# Theorems about the documents that are written: C82
-/

namespace Ics.Props

open Spec Spec.Rfc

/-! ## C82 Documents are written as RFC 5545 wants them -/

/-- The claim in full: if the components of a valid calendar have the properties that RFC 5545 wants, and there are texts for the values, the document follows RFC 5545. -/
def C82_claim : Prop := ∀ (E : Env) (Uri : Str → Prop) (c : Cal) (s : Str), (∀ s, Uri s → ∀ c ∈ s, NoCtl c) → c.typed = true → c.valid = .ok () → (∀ y ∈ calSecs c, RfcSec y) →
  (∀ x ∈ calProps c, ∀ v ∈ propVals x.2, ∃ t, RfcWrites E Uri t v) → encodeDoc E c = some s → DocAll (RfcBody E Uri) (tokenise s).lines

/-- C82.  If the properties can be expressed and are of those that the library writes well, the document is written, and it follows RFC 5545 exactly if the components of the calendar
have the properties that RFC 5545 wants: the lines have these names, parameters and values and no others, each the right number of times, in the right components. -/
theorem C82_document_partial (E : Env) (Uri : Str → Prop) (hu : ∀ s, Uri s → ∀ c ∈ s, NoCtl c) (c : Cal) (ht : c.typed = true) (hv : c.valid = .ok ())
    (hf : ∀ x ∈ calProps c, PropExpressible E Uri x.1 x.2) :
    ∃ s, encodeDoc E c = some s ∧ (tokenise s).term = .done ∧ (DocAll (RfcBody E Uri) (tokenise s).lines ↔ ∀ y ∈ calSecs c, RfcSec y) :=
  doc_all hu ht hv hf

/-- C82.  A calendar with an alarm that opens a URI cannot be written so: these alarms have no TRIGGER. -/
theorem C82_uri_alarm (E : Env) (Uri : Str → Prop) (hu : ∀ s, Uri s → ∀ c ∈ s, NoCtl c) (c : Cal) (ht : c.typed = true) (hv : c.valid = .ok ())
    (hf : ∀ x ∈ calProps c, PropExpressible E Uri x.1 x.2) (ha : ∃ y ∈ calSecs c, y.part = .alarm .uri) (s : Str) (hs : encodeDoc E c = some s) :
    ¬ DocAll (RfcBody E Uri) (tokenise s).lines := by
  obtain ⟨t, h1, _, h2⟩ := C82_document_partial E Uri hu c ht hv hf
  rw [hs] at h1
  cases h1
  intro h
  obtain ⟨y, hy, hp⟩ := ha
  have hsec := h2.1 h y hy
  have hnp : ∀ n, partNamed n ≠ .alarm .uri := by
    intro n
    unfold partNamed
    cases hf : ([.event, .todo, .journal, .freeBusy, .timezone, .standard, .daylight] : List Part).find? fun p => p.block = n with
    | none => exact Part.noConfusion
    | some p =>
      intro e
      change p = _ at e
      subst e
      have := List.mem_of_find?_eq_some hf
      revert this
      decide
  have hn : c!"TRIGGER" ∉ y.names := by
    rcases List.mem_cons.1 hy with rfl | hy
    · cases hp
    · obtain ⟨a, _, hy⟩ := List.mem_flatMap.1 hy
      obtain ⟨z, _, hy⟩ := List.mem_flatMap.1 hy
      rcases List.mem_cons.1 hy with rfl | hy
      · exact absurd hp (hnp _)
      · obtain ⟨b, _, hy⟩ := List.mem_flatMap.1 hy
        obtain ⟨w, _, hy⟩ := List.mem_flatMap.1 hy
        obtain ⟨⟨n, k⟩, bs⟩ := b
        cases k with
        | leaf T =>
          cases w with
          | alarm => simp [subSecs] at hy
          | leaf s =>
            simp only [subSecs, List.mem_singleton] at hy
            subst hy
            exact absurd hp (hnp _)
        | alarm =>
          cases w with
          | leaf => simp [subSecs] at hy
          | alarm o =>
            cases o with
            | none => simp [subSecs] at hy
            | some o =>
              obtain ⟨k, s⟩ := o
              simp only [subSecs, List.mem_singleton] at hy
              subst hy
              cases hp
              intro hm
              obtain ⟨x, hx, e⟩ := List.mem_map.1 hm
              obtain ⟨z, hz, hx⟩ := List.mem_flatMap.1 hx
              obtain ⟨_, _, rfl⟩ := List.mem_map.1 hx
              have := (List.of_mem_zip hz).1
              have hno : ∀ f ∈ AKind.uri.tab.fields, f.spec.name ≠ c!"TRIGGER" := by decide
              exact hno _ this e
  have := hsec.2.1 c!"TRIGGER" .one (by rw [hp]; decide)
  rw [List.count_eq_zero.2 hn] at this
  exact absurd this (by unfold Occ.ok; decide)

/-! A calendar with an event in a time zone, attendees, a rule and an alarm. -/

def uriOk (s : Str) : Prop := s ≠ [] ∧ ∀ c ∈ s, NoCtl c

instance : DecidablePred uriOk := fun s => by unfold uriOk NoCtl; infer_instance

def westZone : Comp := sect tabTimezone [(c!"TZID", val1 0 (.text c!"Etc/GMT+1"))]
  [[.leaf (sect tabStandard [
      (c!"DTSTART", .fields [] [some (.dateTime ⟨63763119600, 0, .local⟩), none]),
      (c!"TZOFFSETTO", val1 0 (.utcOffset (-3600))),
      (c!"TZOFFSETFROM", val1 0 (.utcOffset (-7200)))] [])], []]

def westCal : Cal := sect tabCalendar [(c!"VERSION", val1 0 (.text c!"2.0")), (c!"PRODID", val1 0 (.text c!"-//x"))]
  [[sampleEvent], [], [], [], [westZone]]

instance : DecidablePred NoCtl := fun c => by unfold NoCtl; infer_instance
instance : DecidablePred BareChar := fun c => by unfold BareChar; infer_instance
instance (E : Env) (t : GoTime) : Decidable (FourDigits E t) := by unfold FourDigits; infer_instance

/-- A check that implies `ParamExpressible` (no media types). -/
def paramCheck : PKind → ParamVal → Bool
  | .str _, .str s => s.all fun c => decide (NoCtl c ∧ c.toNat ≠ 94 ∧ c.toNat ≠ 34)
  | .enum _, .enum _ => true
  | .bool, .bool _ => true
  | _, _ => false

def valCheck : Val → Bool
  | .text _ => true
  | .calAddress u => decide (uriOk (sampleEnv.urlString u))
  | .date t | .dateTime t => decide (FourDigits sampleEnv t)
  | .duration d => decide (d.weeks = 0)
  | .utcOffset o => decide (-86400 < o ∧ o < 0)
  | .recur r => decide (r = sampleRecur)
  | _ => false

def propCheck (x : SField × PropVal) : Bool :=
  decide (x.1.spec.name ≠ c!"REQUEST-STATUS") && (propParams x.1.spec x.2).all (fun y => paramCheck y.1.kind y.2) && (propVals x.2).all fun v => valCheck v &&
    (match valZone v with
      | some n => decide (x.1.spec.name ∈ zoned ∧ ∀ c ∈ n, BareChar c)
      | none => true) && decide (x.1.spec.name ∈ mustUtc → ∀ z ∈ valLocs v, z = .utc)

theorem paramCheck_ok {k : PKind} {v : ParamVal} (h : paramCheck k v = true) : ParamExpressible k v := by
  cases k <;> cases v <;> simp only [paramCheck, Bool.false_eq_true] at h <;> first | trivial | skip
  intro c hc
  have := List.all_eq_true.1 h c hc
  simpa using this

theorem sampleRecur_wf : sampleRecur.WF := ⟨by decide, by decide, by decide, by decide, by decide, by decide, by decide, by decide, by decide, by decide, by decide, by decide, by decide⟩

theorem valCheck_ok {v : Val} (h : valCheck v = true) : Expressible sampleEnv uriOk v ∧ (∀ o, v = .utcOffset o → o < 0) ∧ ∀ r, v = .recur r → r.WF := by
  cases v <;> simp only [valCheck, Bool.false_eq_true, decide_eq_true_eq] at h
  case text t => exact ⟨trivial, nofun, nofun⟩
  case calAddress u => exact ⟨h, nofun, nofun⟩
  case date t => exact ⟨h, nofun, nofun⟩
  case dateTime t => exact ⟨h, nofun, nofun⟩
  case duration d => exact ⟨.inl h, nofun, nofun⟩
  case utcOffset o => exact ⟨⟨h.1, by omega⟩, fun _ e => by cases e; exact h.2, nofun⟩
  case recur r =>
    subst h
    refine ⟨⟨by decide, by unfold Ordinal; decide, fun h => absurd h (by decide)⟩, nofun, ?_⟩
    intro r e
    cases e
    exact sampleRecur_wf

theorem propCheck_ok {x : SField × PropVal} (h : propCheck x = true) : PropExpressible sampleEnv uriOk x.1 x.2 := by
  unfold propCheck at h
  simp only [Bool.and_eq_true, decide_eq_true_eq, List.all_eq_true] at h
  obtain ⟨⟨h1, h2⟩, h3⟩ := h
  refine ⟨h1, fun y hy => paramCheck_ok (h2 y hy), fun v hv => (valCheck_ok (h3 v hv).1.1).1, fun v hv => (valCheck_ok (h3 v hv).1.1).2.1, fun v hv => (valCheck_ok (h3 v hv).1.1).2.2, ?_,
    fun hm v hv => (h3 v hv).2 hm⟩
  intro v hv n hn
  have := (h3 v hv).1.2
  rw [hn] at this
  simpa using this

theorem westCal_expressible : ∀ x ∈ calProps westCal, PropExpressible sampleEnv uriOk x.1 x.2 := by
  have : (calProps westCal).all propCheck = true := by decide +kernel
  exact fun x hx => propCheck_ok (List.all_eq_true.1 this x hx)

/-- What `RfcSec` asks, with the names that are mentioned only. -/
theorem rfcSec_of {x : Sec} (h : (∀ n ∈ x.names, occurs x.part n ≠ none) ∧ (∀ y ∈ properties x.part, ∀ n ∈ y.2, y.1.ok (x.names.count n)) ∧ ∀ y ∈ laws x.part, y.holds x) : RfcSec x := by
  refine ⟨h.1, ?_, h.2.2⟩
  intro n o ho
  unfold occurs at ho
  rw [Option.map_eq_some_iff] at ho
  obtain ⟨y, hy, rfl⟩ := ho
  have hc := List.find?_some hy
  exact h.2.1 y (List.mem_of_find?_eq_some hy) n (by simpa using hc)

instance (o : Occ) (n : Nat) : Decidable (o.ok n) := by cases o <;> unfold Occ.ok <;> infer_instance

theorem westCal_sections : ∀ y ∈ calSecs westCal, RfcSec y := by
  have : ∀ y ∈ calSecs westCal, (∀ n ∈ y.names, occurs y.part n ≠ none) ∧ (∀ z ∈ properties y.part, ∀ n ∈ z.2, z.1.ok (y.names.count n)) ∧ ∀ z ∈ laws y.part, z.holds y := by decide +kernel
  exact fun y hy => rfcSec_of (this y hy)

/-- The sample meets the conditions, and its document follows RFC 5545. -/
example : ∃ s, encodeDoc sampleEnv westCal = some s ∧ DocAll (RfcBody sampleEnv uriOk) (tokenise s).lines := by
  obtain ⟨s, h1, _, h2⟩ := C82_document_partial sampleEnv uriOk (fun _ h => h.2) westCal (by decide +kernel) (by decide +kernel) westCal_expressible
  exact ⟨s, h1, h2.2 westCal_sections⟩

/-! ## What is missing -/

/-- C82.  In a document that follows RFC 5545 all offsets from UTC have a sign.  The library writes none before those that are not negative, so the documents with time zones east of
Greenwich are not such documents. -/
theorem C82_offset_line (E : Env) (Uri : Str → Prop) (ls : List Line) (h : DocAll (RfcBody E Uri) ls) : ∀ l ∈ ls, l.name = c!"TZOFFSETTO" ∨ l.name = c!"TZOFFSETFROM" →
    ∃ r, l.value = '+' :: r ∨ l.value = '-' :: r := by
  intro l hl hn
  have hk : ∀ p t n, n = c!"TZOFFSETTO" ∨ n = c!"TZOFFSETFROM" → content p n = some t → ∃ names, t = .value [.utcOffset] names := by
    intro p t n hn ht
    rcases hn with rfl | rfl <;> cases p <;> exact ⟨_, (Option.some.inj ht).symm⟩
  rcases document_lines h l hl with hb | hb | hb | ⟨p, _, t, ht, h⟩
  · rcases hn with hn | hn <;> rw [Begins, hn] at hb <;> exact absurd hb (by decide)
  · rcases hn with hn | hn <;> rw [Ends, hn] at hb <;> exact absurd hb (by decide)
  · rcases hn with hn | hn <;> rw [hn] at hb <;> exact absurd hb (by decide)
  · obtain ⟨names, rfl⟩ := hk p t _ hn ht
    obtain ⟨v, hv, hw, _⟩ := h
    rw [if_neg (by rcases hn with hn | hn <;> rw [hn] <;> decide)] at hw
    cases v <;> cases List.mem_singleton.1 hv
    obtain ⟨t, _, _, ⟨h, _⟩ | ⟨h, _⟩⟩ := hw
    · exact ⟨t, .inl h⟩
    · exact ⟨t, .inr h⟩

/-- A calendar with the time zone of Paris in winter. -/
def eastCal : Cal := sect tabCalendar [(c!"VERSION", val1 0 (.text c!"2.0")), (c!"PRODID", val1 0 (.text c!"-//x"))] [[], [], [], [], [sampleZone]]

/-- C82.  The claim as stated in full is false: a counterexample. -/
theorem C82_full_claim_is_false : ¬ C82_claim := by
  intro h
  have hs : ∀ y ∈ calSecs eastCal, RfcSec y := by
    have : ∀ y ∈ calSecs eastCal, (∀ n ∈ y.names, occurs y.part n ≠ none) ∧ (∀ z ∈ properties y.part, ∀ n ∈ z.2, z.1.ok (y.names.count n)) ∧ ∀ z ∈ laws y.part, z.holds y := by decide +kernel
    exact fun y hy => rfcSec_of (this y hy)
  have hv : ∀ x ∈ calProps eastCal, ∀ v ∈ propVals x.2, ∃ t, RfcWrites sampleEnv uriOk t v := by
    have : ∀ x ∈ calProps eastCal, ∀ v ∈ propVals x.2, v = .utcOffset 3600 ∨ (valCheck v = true ∧ v.valid = .ok ()) := by decide +kernel
    intro x hx v hv
    rcases this x hx v hv with rfl | ⟨h, h'⟩
    · exact (C81_offsets sampleEnv uriOk 3600 (by decide) (by decide)).1
    · obtain ⟨h1, h2, h3⟩ := valCheck_ok h
      exact ⟨_, C81_written_partial sampleEnv uriOk v h' h3 h1 h2⟩
  have hd := h sampleEnv uriOk eastCal _ (fun _ h => h.2) (by decide +kernel) (by decide +kernel) hs hv rfl
  obtain ⟨r, hr⟩ := C82_offset_line _ _ _ hd ⟨c!"TZOFFSETTO", [], c!"0100"⟩ (by decide +kernel) (.inl rfl)
  rcases hr with hr | hr <;> cases hr

end Ics.Props
