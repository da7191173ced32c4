import Verif.Props.Sample
/-!
# Theorems about Encode followed by Decode: C44, C47, C48
-/

namespace Ics.Props

open Spec

/-! ## C44 Encode then Decode -/

/-- The full claim: what was encoded is decoded to an equal calendar (equal up to the identity of loaded locations). -/
def C44_claim : Prop := ∀ (E : Env) (c : Cal) (s : Str), c.typed = true → c.valid = .ok () → encodeDoc E c = some s →
  ∃ c', decodeDoc E s = .ok c' ∧ SameCal c' c

/-- The values that come back: those of C27, in zones whose name needs no quotes. -/
def GoodVal (E : Env) (v : Val) : Prop := ValOk E v ∧ ∀ n, v.tzid = some n → ∀ c ∈ n, BareChar c

theorem good_build {E : Env} {c : Cal} (ht : c.typed = true) (hv : c.valid = .ok ())
    (hp : ∀ x ∈ calProps c, ∀ y ∈ propParams x.1.spec x.2, GoodParam y.1.kind y.2)
    (hl : ∀ x ∈ calProps c, ∀ v ∈ propVals x.2, GoodVal E v) :
    GoodCal (fun f p => FieldOk E f p ∧ PropVal.norm E f.spec p = Spec.PropVal.mapVals Val.norm p) c :=
  GoodCal.build
    (fun f p => (∀ y ∈ propParams f.spec p, GoodParam y.1.kind y.2) ∧ (∀ v ∈ propVals p, GoodVal E v)) _
    (fun _ _ _ ht ⟨h1, h2⟩ hv => propOk_of ht hv h1 h2) c ht hv (fun x hx => ⟨hp x hx, hl x hx⟩)

/-- C44.  A calendar with good parameters and values that keeps the rules between its properties comes back, but for the LAST-MODIFIED properties,
and the identity of loaded locations. -/
theorem C44_round_trip_partial (E : Env) (c : Cal) (ht : c.typed = true) (hv : c.valid = .ok ()) (hr : CalRules c)
    (hp : ∀ x ∈ calProps c, ∀ y ∈ propParams x.1.spec x.2, GoodParam y.1.kind y.2)
    (hl : ∀ x ∈ calProps c, ∀ v ∈ propVals x.2, GoodVal E v) :
    ∃ s c', encodeDoc E c = some s ∧ decodeDoc E s = .ok c' ∧ SameCal c' (Cal.dropField c!"LAST-MOD" c) := by
  have hb := good_build ht hv hp hl
  have hok := GoodCal.ok (hb.imp fun _ _ h => h.1) hr
  obtain ⟨e1, e2⟩ := encodeDoc_lines E c (GoodCal.safe (hb.imp fun _ _ h => PropOk.safe h.1))
  refine ⟨_, c.norm E, e1, ?_, ?_⟩
  · have := tokenise_prints (calLines E c) e2 []
    rw [List.append_nil, tokenise_nil] at this
    unfold decodeDoc
    rw [this]
    exact decodeStream_lines E c hok _ _
  · unfold SameCal
    rw [GoodCal.norm (hb.imp fun _ _ h => h.2), Ics.Cal.mapVals_comp]
    simp only [anonVal_norm]
    rfl

/-- C44.  If it has no LAST-MODIFIED property and no locations other than `time.UTC` and `time.Local`, the same calendar comes back. -/
theorem C44_exact_partial (E : Env) (c : Cal) (ht : c.typed = true) (hv : c.valid = .ok ()) (hr : CalRules c)
    (hp : ∀ x ∈ calProps c, ∀ y ∈ propParams x.1.spec x.2, GoodParam y.1.kind y.2)
    (hl : ∀ x ∈ calProps c, ∀ v ∈ propVals x.2, GoodVal E v)
    (hm : ∀ x ∈ calProps c, x.1.key ≠ c!"LAST-MOD") (hz : Unzoned c) :
    ∃ s, encodeDoc E c = some s ∧ decodeDoc E s = .ok c := by
  have hb := GoodCal.build
    (fun f p => (∀ y ∈ propParams f.spec p, GoodParam y.1.kind y.2) ∧ (∀ v ∈ propVals p, GoodVal E v) ∧
      ∀ v ∈ propVals p, ∀ l ∈ valLocs v, l = .utc ∨ l = .local)
    (fun f p => FieldOk E f p ∧ PropVal.norm E f.spec p = Spec.PropVal.mapVals id p)
    (fun _ _ _ ht ⟨h1, h2, h3⟩ hv => by
      obtain ⟨g1, g2⟩ := propOk_of ht hv h1 h2
      exact ⟨g1, by rw [g2, Ics.PropVal.mapVals_unzoned h3]⟩)
    c ht hv (fun x hx => ⟨hp x hx, hl x hx, hz x hx⟩)
  have hok := GoodCal.ok (hb.imp fun _ _ h => h.1) hr
  obtain ⟨e1, e2⟩ := encodeDoc_lines E c (GoodCal.safe (hb.imp fun _ _ h => PropOk.safe h.1))
  refine ⟨_, e1, ?_⟩
  have := tokenise_prints (calLines E c) e2 []
  rw [List.append_nil, tokenise_nil] at this
  unfold decodeDoc
  rw [this, ← List.append_nil (calLines E c)]
  simp only [List.append_nil]
  have h := decodeStream_lines E c hok [] .done
  rw [List.append_nil] at h
  refine Eq.trans ?_ (h.trans ?_)
  · simp
  · rw [GoodCal.norm (hb.imp fun _ _ h => h.2), Ics.Cal.mapVals_id]
    exact congrArg _ (hb.drop_absent _ hm)

/-- C44 for the octets: what `Encode` sends to a writer that takes everything, read by `Decode` from a reader that delivers it at once, into a
buffer that is large enough.  However `Encode` cuts the text into writes. -/
theorem C44_octets_partial (E : Env) (c : Cal) (ht : c.typed = true) (hv : c.valid = .ok ()) (hr : CalRules c)
    (hp : ∀ x ∈ calProps c, ∀ y ∈ propParams x.1.spec x.2, GoodParam y.1.kind y.2)
    (hl : ∀ x ∈ calProps c, ∀ v ∈ propVals x.2, GoodVal E v)
    (cut : Str → List Str) (hcut : ∀ s, (cut s).flatten = s) :
    ∃ o c', encode E okSink cut c = .done o ∧ o.err = none ∧ SameCal c' (Cal.dropField c!"LAST-MOD" c) ∧
      ∀ fin k, o.f.out.length ≤ k → 0 < k → ∀ fuel, k + 4 ≤ fuel →
        decodeReader E (onceReader o.f.out fin) fuel [k, k] = .done (.ok c') := by
  obtain ⟨s, c', e1, e2, e3⟩ := C44_round_trip_partial E c ht hv hr hp hl
  have hb := good_build ht hv hp hl
  obtain ⟨l1, l2⟩ := encodeDoc_lines E c (GoodCal.safe (hb.imp fun _ _ h => PropOk.safe h.1))
  have hs : s = (calLines E c).flatMap printLine := by rw [l1] at e1; cases e1; rfl
  have hf : (({} : Folder).writes okSink ((cut s).map utf8)).err = none := by
    obtain ⟨k, hk⟩ := writes_ok (cut s) {} rfl
    rw [hk]
  refine ⟨⟨none, ({} : Folder).writes okSink ((cut s).map utf8)⟩, c', ?_, rfl, e3, ?_⟩
  · unfold encode
    rw [hv, e1]
    simp [hf]
  · intro fin k hk hk0 fuel hf
    obtain ⟨a, ha⟩ := calLines_end E c
    obtain ⟨u, hu⟩ := read_folded (cut s) a 'R' (by decide) (by rw [hcut, hs]; exact ha) (by rw [hcut, hs]; exact noFold_lines _ l2) fin k hk hk0
      fuel hf
    unfold decodeReader
    rw [hu, hcut]
    show Run.done (decodeDoc E (runes (utf8 s))) = _
    rw [runes_utf8, e2]

theorem sampleCal_good : ∀ x ∈ calProps sampleCal, ∀ v ∈ propVals x.2, GoodVal sampleEnv v := sampleCal_values

/-- The sample meets the hypotheses, and what is decoded is as expected. -/
example : ∃ s c', encodeDoc sampleEnv sampleCal = some s ∧ decodeDoc sampleEnv s = .ok c' ∧ SameCal c' sampleCal := by
  obtain ⟨s, c', h1, h2, h3⟩ :=
    C44_round_trip_partial sampleEnv sampleCal sampleCal_typed sampleCal_valid sampleCal_rules sampleCal_params sampleCal_good
  refine ⟨s, c', h1, h2, ?_⟩
  have e : Cal.dropField c!"LAST-MOD" sampleCal = sampleCal := by decide +kernel
  rwa [e] at h3

/-! ## C47 LAST-MODIFIED -/

/-- A calendar with one event that has a LAST-MODIFIED property. -/
def modifiedCal : Cal := sect tabCalendar [(c!"VERSION", val1 0 (.text c!"2.0")), (c!"PRODID", val1 0 (.text c!"-//x"))]
  [[sect tabEvent [(c!"DTSTAMP", val1 0 (.dateTime ⟨63763119600, 0, .utc⟩)), (c!"UID", val1 0 (.text c!"1")),
    (c!"LAST-MOD", val1 0 (.dateTime ⟨63763119600, 0, .utc⟩))] [[]]], [], [], [], []]

/-- Some component of the calendar has a LAST-MODIFIED property. -/
def HasModified (c : Cal) : Prop := ∃ x ∈ calProps c, x.1.spec.name = c!"LAST-MODIFIED"

instance (c : Cal) : Decidable (HasModified c) := by unfold HasModified; infer_instance

/-- The full claim: LAST-MODIFIED survives. -/
def C47_claim : Prop := ∀ (E : Env) (c : Cal) (s : Str) (c' : Cal), c.typed = true → c.valid = .ok () → CalRules c → HasModified c →
  encodeDoc E c = some s → decodeDoc E s = .ok c' → HasModified c'

/-- C47.  It is written under its name, but does not come back. -/
theorem C47_lost : modifiedCal.typed = true ∧ modifiedCal.valid = .ok () ∧ CalRules modifiedCal ∧ HasModified modifiedCal ∧
    ∃ s c', encodeDoc sampleEnv modifiedCal = some s ∧ c!"\r\nLAST-MODIFIED:20210729T014000Z\r\n" <:+: s ∧
      decodeDoc sampleEnv s = .ok c' ∧ ¬ HasModified c' := by
  refine ⟨by decide +kernel, by decide +kernel, by decide +kernel, by decide +kernel,
    c!"BEGIN:VCALENDAR\r\nVERSION:2.0\r\nPRODID:-//x\r\nBEGIN:VEVENT\r\nDTSTAMP:20210729T014000Z\r\nUID:1" ++
    c!"\r\nLAST-MODIFIED:20210729T014000Z\r\n" ++ c!"END:VEVENT\r\nEND:VCALENDAR\r\n",
    Cal.dropField c!"LAST-MOD" modifiedCal, by decide +kernel, ⟨_, _, rfl⟩, by decide +kernel, by decide +kernel⟩

/-- C47.  The claim as stated in full is false: a counterexample. -/
theorem C47_full_claim_is_false : ¬ C47_claim := by
  intro h
  obtain ⟨h1, h2, h3, h4, s, c', h5, _, h6, h7⟩ := C47_lost
  exact h7 (h _ _ _ _ h1 h2 h3 h4 h5 h6)

/-- C44.  The claim as stated in full is false: a counterexample. -/
theorem C44_full_claim_is_false : ¬ C44_claim := by
  intro h
  obtain ⟨h1, h2, h3, h4, s, c', h5, _, h6, h7⟩ := C47_lost
  obtain ⟨c'', h8, h9⟩ := h _ _ _ h1 h2 h5
  rw [h6] at h8
  cases h8
  revert h9
  unfold SameCal
  have : ∀ c'', decodeDoc sampleEnv s = .ok c'' → encodeDoc sampleEnv modifiedCal = some s → Cal.mapVals anonVal c'' ≠ Cal.mapVals anonVal modifiedCal := by
    intro c'' hd he
    have hs : some s = some (c!"BEGIN:VCALENDAR\r\nVERSION:2.0\r\nPRODID:-//x\r\nBEGIN:VEVENT\r\nDTSTAMP:20210729T014000Z\r\nUID:1" ++
      c!"\r\nLAST-MODIFIED:20210729T014000Z\r\n" ++ c!"END:VEVENT\r\nEND:VCALENDAR\r\n") := by rw [← he]; decide +kernel
    cases hs
    have : decodeDoc sampleEnv (c!"BEGIN:VCALENDAR\r\nVERSION:2.0\r\nPRODID:-//x\r\nBEGIN:VEVENT\r\nDTSTAMP:20210729T014000Z\r\nUID:1" ++
      c!"\r\nLAST-MODIFIED:20210729T014000Z\r\n" ++ c!"END:VEVENT\r\nEND:VCALENDAR\r\n") =
        .ok (Cal.dropField c!"LAST-MOD" modifiedCal) := by decide +kernel
    rw [this] at hd
    cases hd
    decide +kernel
  exact this c' h6 h5

/-! ## C48 Names -/

/-- The tables of all sections: their fields. -/
def allFields : List (List SField) := [tabCalendar.fields, tabEvent.fields, tabTodo.fields, tabJournal.fields, tabFreeBusy.fields,
  tabTimezone.fields, tabStandard.fields, tabDaylight.fields, tabAlarmAudio.fields, tabAlarmDisplay.fields, tabAlarmEmail.fields,
  tabAlarmURI.fields, tabAlarmNone.fields]

/-- The name written for the field at `i` is read into the field at `i`, and into no other. -/
def NameReturns (fs : List SField) (i : Nat) : Prop := ∀ f, fs[i]? = some f → ∀ j g, fs[j]? = some g → (g.key = f.spec.name ↔ j = i)

/-- The full claim, for all fields of all sections. -/
def C48_claim : Prop := ∀ fs ∈ allFields, ∀ i, NameReturns fs i

def namesCheck (fs : List SField) : Bool := (List.range fs.length).all fun i => (List.range fs.length).all fun j =>
  match fs[i]?, fs[j]? with
  | some f, some g => f.key = c!"LAST-MOD" || (decide (g.key = f.spec.name) == decide (j = i))
  | _, _ => false

/-- C48.  Every field but the one for LAST-MODIFIED. -/
theorem C48_names_return_partial : ∀ fs ∈ allFields, ∀ i, (∀ f, fs[i]? = some f → f.spec.name ≠ c!"LAST-MODIFIED") → NameReturns fs i := by
  intro fs hfs i hn f hf j g hg
  have h : ∀ fs ∈ allFields, namesCheck fs = true ∧ ∀ f ∈ fs, f.key = c!"LAST-MOD" → f.spec.name = c!"LAST-MODIFIED" := by decide +kernel
  have hi := (List.getElem?_eq_some_iff.1 hf).1
  have hj := (List.getElem?_eq_some_iff.1 hg).1
  have h1 := List.all_eq_true.1 (h fs hfs).1 i (List.mem_range.2 hi)
  have h2 := List.all_eq_true.1 h1 j (List.mem_range.2 hj)
  rw [hf, hg] at h2
  have h3 : f.key ≠ c!"LAST-MOD" := fun e => hn f hf ((h fs hfs).2 f (List.mem_of_getElem? hf) e)
  simpa [h3] using h2

/-- C48.  The LAST-MODIFIED fields are in events, todos, journals and time zones; nothing is read under the name they are written under. -/
theorem C48_last_modified_unread : ∀ fs ∈ [tabEvent.fields, tabTodo.fields, tabJournal.fields, tabTimezone.fields],
    (∃ f ∈ fs, f.spec.name = c!"LAST-MODIFIED") ∧ ∀ g ∈ fs, g.key ≠ c!"LAST-MODIFIED" := by decide +kernel

/-- C48.  The claim as stated in full is false: a counterexample. -/
theorem C48_full_claim_is_false : ¬ C48_claim := by
  intro h
  obtain ⟨⟨f, hf, hn⟩, hg⟩ := C48_last_modified_unread tabEvent.fields (by simp)
  obtain ⟨i, hi⟩ := List.getElem?_of_mem hf
  have := (h tabEvent.fields (by simp [allFields]) i f hi i f hi).2 rfl
  exact hg f hf (this.trans hn)

/-! ## C47, for all calendars -/

theorem sectProps_field {κ σ : Type} {T : Tab κ} {s : Sect σ} {x : SField × PropVal} (hx : x ∈ sectProps T s) : x.1 ∈ T.fields := by
  unfold sectProps at hx
  obtain ⟨y, hy, h⟩ := List.mem_flatMap.1 hx
  obtain ⟨p, _, rfl⟩ := List.mem_map.1 h
  exact (List.of_mem_zip hy).1

theorem subProps_field {k : SubKind} {s : Sub} {x : SField × PropVal} (hx : x ∈ subProps k s) :
    (∃ T, k = .leaf T ∧ x.1 ∈ T.fields) ∨ ∃ a : AKind, k = .alarm ∧ x.1 ∈ a.tab.fields := by
  unfold subProps at hx
  split at hx
  · exact Or.inl ⟨_, rfl, sectProps_field hx⟩
  · exact Or.inr ⟨_, rfl, sectProps_field hx⟩
  · simp at hx

theorem drop_zip (n : Str) (g : PropVal → PropVal) : ∀ (fs : List SField) (vs : List (List PropVal)),
    ∀ x ∈ (fs.zip ((dropField n fs vs).map (·.map g))).flatMap (fun x => x.2.map fun p => (x.1, p)), x.1.key ≠ n := by
  intro fs
  induction fs with
  | nil => intro vs x hx; simp at hx
  | cons f fs ih =>
    intro vs x hx
    cases vs with
    | nil => simp [dropField] at hx
    | cons v vs =>
      simp only [dropField, List.zipWith_cons_cons, List.map_cons, List.zip_cons_cons, List.flatMap_cons, List.mem_append] at hx
      rcases hx with hx | hx
      · split at hx
        · simp at hx
        · next h =>
          obtain ⟨p, _, rfl⟩ := List.mem_map.1 hx
          exact h
      · exact ih vs x hx

/-- Without LAST-MOD there is no LAST-MODIFIED, wherever else values are changed. -/
theorem dropped_none (f : Val → Val) (c : Cal) : ¬ HasModified (Cal.mapVals f (Cal.dropField c!"LAST-MOD" c)) := by
  rintro ⟨x, hx, hn⟩
  have hcal : ∀ d ∈ tabCalendar.fields, d.spec.name ≠ c!"LAST-MODIFIED" := by decide +kernel
  have hcomp : ∀ y ∈ tabCalendar.subs, ∀ d ∈ y.2.fields, d.spec.name = c!"LAST-MODIFIED" → d.key = c!"LAST-MOD" := by decide +kernel
  have hleaf : ∀ T ∈ [tabStandard, tabDaylight], ∀ d ∈ T.fields, d.spec.name ≠ c!"LAST-MODIFIED" := by decide +kernel
  have halarm : ∀ a : AKind, ∀ d ∈ a.tab.fields, d.spec.name ≠ c!"LAST-MODIFIED" := by intro a; cases a <;> decide +kernel
  rcases List.mem_append.1 hx with hx | hx
  · exact hcal _ (sectProps_field hx) hn
  · obtain ⟨y, hy, s, hs, hp⟩ := mem_below.1 hx
    have hyt := (List.of_mem_zip hy).1
    rcases List.mem_append.1 hp with hp | hp
    · have hk := hcomp _ hyt _ (sectProps_field hp) hn
      have : ∃ s0 : Comp, s = Comp.mapVals f ⟨dropField c!"LAST-MOD" y.1.2.fields s0.fields, s0.subs⟩ := by
        have hz : y ∈ tabCalendar.subs.zip ((List.zipWith (fun k xs => xs.map fun s : Comp =>
            (⟨dropField c!"LAST-MOD" k.2.fields s.fields, s.subs⟩ : Comp)) tabCalendar.subs c.subs).map (·.map (Comp.mapVals f))) := hy
        rw [List.map_zipWith] at hz
        have gen : ∀ (ks : List (Str × Tab SubKind)) (vs : List (List Comp)), y ∈ ks.zip (List.zipWith (fun k xs => List.map (Comp.mapVals f)
            (xs.map fun s : Comp => (⟨dropField c!"LAST-MOD" k.2.fields s.fields, s.subs⟩ : Comp))) ks vs) →
            ∃ s0 : Comp, s = Comp.mapVals f ⟨dropField c!"LAST-MOD" y.1.2.fields s0.fields, s0.subs⟩ := by
          intro ks
          induction ks with
          | nil => intro vs h; simp at h
          | cons k ks ih =>
            intro vs h
            cases vs with
            | nil => simp at h
            | cons v vs =>
              simp only [List.zipWith_cons_cons, List.zip_cons_cons, List.mem_cons] at h
              rcases h with rfl | h
              · simp only [List.map_map, List.mem_map, Function.comp] at hs
                obtain ⟨s0, _, rfl⟩ := hs
                exact ⟨s0, rfl⟩
              · exact ih vs h
        exact gen _ _ hz
      obtain ⟨s0, rfl⟩ := this
      exact drop_zip c!"LAST-MOD" (PropVal.mapVals f) y.1.2.fields s0.fields x hp hk
    · obtain ⟨z, hz, t, ht, hq⟩ := mem_below.1 hp
      rcases subProps_field hq with ⟨T, hT, h⟩ | ⟨a, _, h⟩
      · exact hleaf T (leafTab_mem _ hyt _ (List.of_mem_zip hz).1 _ hT) _ h hn
      · exact halarm a _ h hn

/-- C47.  No LAST-MODIFIED property of any calendar covered by C44 survives. -/
theorem C47_always_lost (E : Env) (c : Cal) (ht : c.typed = true) (hv : c.valid = .ok ()) (hr : CalRules c)
    (hp : ∀ x ∈ calProps c, ∀ y ∈ propParams x.1.spec x.2, GoodParam y.1.kind y.2)
    (hl : ∀ x ∈ calProps c, ∀ v ∈ propVals x.2, GoodVal E v) :
    ∃ s c', encodeDoc E c = some s ∧ decodeDoc E s = .ok c' ∧ ¬ HasModified c' := by
  have hb := good_build ht hv hp hl
  have hok := GoodCal.ok (hb.imp fun _ _ h => h.1) hr
  obtain ⟨e1, e2⟩ := encodeDoc_lines E c (GoodCal.safe (hb.imp fun _ _ h => PropOk.safe h.1))
  refine ⟨_, c.norm E, e1, ?_, ?_⟩
  · have := tokenise_prints (calLines E c) e2 []
    rw [List.append_nil, tokenise_nil] at this
    unfold decodeDoc
    rw [this]
    exact decodeStream_lines E c hok _ _
  · rw [GoodCal.norm (hb.imp fun _ _ h => h.2)]
    exact dropped_none _ c

/-! ## C38 Validation and the rules of Decode -/

/-- The full claim: what passes validation keeps the rules `Decode` enforces. -/
def C38_claim : Prop := ∀ (E : Env) (c : Cal) (s : Str), c.typed = true → c.valid = .ok () → encodeDoc E c = some s →
  CalRules c ∧ ∃ c', decodeDoc E s = .ok c'

/-- An event with an end and a duration. -/
def twoEndsCal : Cal := sect tabCalendar [(c!"VERSION", val1 0 (.text c!"2.0")), (c!"PRODID", val1 0 (.text c!"-//x"))]
  [[sect tabEvent [(c!"DTSTAMP", val1 0 (.dateTime ⟨63763119600, 0, .utc⟩)), (c!"UID", val1 0 (.text c!"1")),
    (c!"DTEND", .fields [] [some (.dateTime ⟨63763119600, 0, .utc⟩), none]), (c!"DURATION", val1 0 (.duration { hours := 1 }))] [[]]],
    [], [], [], []]

/-- C38.  Validation accepts it, `Encode` writes it, `Decode` rejects what was written. -/
theorem C38_two_ends : twoEndsCal.typed = true ∧ twoEndsCal.valid = .ok () ∧ ¬ CalRules twoEndsCal ∧
    ∃ s, encodeDoc sampleEnv twoEndsCal = some s ∧ decodeDoc sampleEnv s = .err .requirementNotMet :=
  ⟨by decide +kernel, by decide +kernel, by decide +kernel, _, rfl, by decide +kernel⟩

/-- C38.  The claim as stated in full is false: a counterexample. -/
theorem C38_full_claim_is_false : ¬ C38_claim := by
  intro h
  obtain ⟨h1, h2, h3, s, h4, _⟩ := C38_two_ends
  exact h3 (h _ _ _ h1 h2 h4).1

end Ics.Props
