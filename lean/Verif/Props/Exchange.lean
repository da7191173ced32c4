import Verif.ExchangeLemmas
import Verif.ValidLemmas
import Verif.Unused
import Verif.Props.Meaning
import Verif.Props.RfcValues
/-!
# Theorems about lines put in the place of others, and what Decode does not check: C75, C77 - C79
-/

namespace Ics.Props

open Spec

/-! ## C75 Lines are judged one by one -/

/-- C75.  If lines of an accepted document are replaced by others with the same names that can be read, the document is still accepted; the calendar has the same components and the
same numbers of properties, and each property is in any relation that holds between what is read from the old line and from the new one. -/
theorem C75_line_by_line (E : Env) (Q : PropVal → PropVal → Prop) (s s' : Str) (a b : List Line) (t : Term) (c : Cal) (h : tokenise s = ⟨a, t⟩) (h' : tokenise s' = ⟨b, t⟩)
    (hab : Pairwise2 (Stands E E Q) a b) (hc : decodeDoc E s = .ok c) : ∃ c', decodeDoc E s' = .ok c' ∧ CalRel Q c c' := by
  unfold decodeDoc at hc ⊢
  rw [h] at hc
  rw [h']
  exact decodeStream_stands hab c hc

theorem stands_self (E : Env) {Q : PropVal → PropVal → Prop} (hQ : ∀ p, Q p p) (l : Line) : Stands E E Q l l := ⟨rfl, fun _ => ⟨rfl, rfl⟩, fun _ _ _ p h => ⟨p, h, hQ p⟩⟩

theorem pairwise_at {α : Type} {R : α → α → Prop} (hR : ∀ x, R x x) {l l' : α} (h : R l l') : ∀ (p r : List α), Pairwise2 R (p ++ l :: r) (p ++ l' :: r)
  | [], r => .cons h (by induction r with | nil => exact .nil | cons x r ih => exact .cons (hR x) ih)
  | x :: p, r => .cons (hR x) (pairwise_at hR h p r)

/-- C75, for one line. -/
theorem C75_one_line (E : Env) (Q : PropVal → PropVal → Prop) (hQ : ∀ p, Q p p) (s s' : Str) (p r : List Line) (l l' : Line) (t : Term) (c : Cal)
    (h : tokenise s = ⟨p ++ l :: r, t⟩) (h' : tokenise s' = ⟨p ++ l' :: r, t⟩) (hl : Stands E E Q l l') (hc : decodeDoc E s = .ok c) :
    ∃ c', decodeDoc E s' = .ok c' ∧ CalRel Q c c' := C75_line_by_line E Q s s' _ _ t c h h' (pairwise_at (stands_self E hQ) hl p r) hc

/-- An event with this line. -/
def eventWith (l : Line) : List Line := inAlarm.take 6 ++ l :: afterAlarm.drop 1

/-- What is read from a line with a single value, without parameters. -/
theorem stands_value {E : Env} {Q : PropVal → PropVal → Prop} (hQ : ∀ p, Q p p) {l l' : Line} (hn : upper l'.name = upper l.name) (hc : upper l.name ∉ control)
    (hr : ∀ f ∈ allFields, f.key = upper l.name → ∀ p, f.spec.decode E l.params l.value = .ok p → ∃ q, f.spec.decode E l'.params l'.value = .ok q ∧ Q p q) :
    Stands E E Q l l' := ⟨hn, fun h => absurd h hc, hr⟩

/-- Another text in the place of a summary. -/
example : Stands sampleEnv sampleEnv (fun _ _ => True) ⟨c!"SUMMARY", [(c!"LANGUAGE", [⟨false, c!"en"⟩])], c!"Lunch"⟩ ⟨c!"Summary", [], c!"Dinner\\, late"⟩ := by
  refine stands_value (fun _ => trivial) (by decide) (by decide) fun f hf hk p _ => ?_
  have h : ∀ f ∈ allFields, f.key = c!"SUMMARY" → (f.spec.decode sampleEnv [] c!"Dinner\\, late").isOk = true := by decide +kernel
  have := h f hf (by rw [hk]; decide)
  cases hd : f.spec.decode sampleEnv [] c!"Dinner\\, late" with
  | ok q => exact ⟨q, rfl, trivial⟩
  | err => rw [hd] at this; cases this
  | panic => rw [hd] at this; cases this

/-! ## C77 Times that must be in UTC -/

/-- The properties whose times must be in UTC (LAST-MODIFIED is LAST-MOD in the library). -/
def utcOnly : List Str := [c!"DTSTAMP", c!"CREATED", c!"COMPLETED", c!"LAST-MOD"]

/-- The property: in an accepted document, the times of these properties are in UTC. -/
def C77_claim : Prop := ∀ (E : Env) (s : Str) (c : Cal), decodeDoc E s = .ok c → ∀ x ∈ calProps c, x.1.key ∈ utcOnly → ∀ v ∈ propVals x.2, ∀ t, v = .dateTime t → t.loc = .utc

theorem utcOnly_shape : ∀ f ∈ allFields, f.key ∈ utcOnly → f.spec.shape = .fields [] [(c!"", .dateTime)] := by decide +kernel

theorem PSpec.decode_shape {E : Env} {sp sp' : PSpec} (h : sp.shape = sp'.shape) (ps : List (Str × List PVal)) (v : Str) : sp.decode E ps v = sp'.decode E ps v := by
  unfold PSpec.decode
  rw [h]

/-- Parameters of a property that knows none are all kept. -/
theorem steps_plain (E : Env) (k : Kind) (n : Str) : ∀ (ps : List (Str × List PVal)) (st : PState), ∃ st', PState.steps E [] [(n, k)] st ps = .ok st' ∧ st'.ps = st.ps ∧ st'.vtype = st.vtype
  | [], st => ⟨st, rfl, rfl, rfl⟩
  | p :: ps, st => by
    obtain ⟨st', h, h1, h2⟩ := steps_plain E k n ps { st with op := (upper p.1, join [','] (p.2.map (·.data))) :: st.op }
    refine ⟨st', ?_, h1, h2⟩
    rw [PState.steps]
    have : st.step E [] [(n, k)] p = .ok { st with op := (upper p.1, join [','] (p.2.map (·.data))) :: st.op } := by
      unfold PState.step
      dsimp only [paramIdx]
      rw [if_neg (by intro h; simp at h)]
    rw [this]
    exact h

/-- Properties that are a time. -/
theorem decode_time {E : Env} {sp : PSpec} (hs : sp.shape = .fields [] [(c!"", .dateTime)]) (ps : List (Str × List PVal)) (s : Str) (p : PropVal) :
    sp.decode E ps s = .ok p ↔ ∃ t, DateTime.decode E 0 (otherParam ps c!"TZID") s = .ok t ∧ p = .fields [] [some (.dateTime t)] := by
  obtain ⟨st, h, h1, h2⟩ := steps_plain E .dateTime c!"" ps { ps := [] }
  have ht : opGet st.op c!"TZID" = otherParam ps c!"TZID" := by
    rw [steps_op (by simp) (by decide) ps h]
    show (otherParam ps c!"TZID").or none = _
    cases otherParam ps c!"TZID" <;> rfl
  unfold PSpec.decode
  rw [hs]
  show (PState.steps E [] [(c!"", .dateTime)] { ps := [] } ps).bind _ = _ ↔ _
  rw [h]
  obtain ⟨sp, sv, so⟩ := st
  cases h1
  cases h2
  show ((DateTime.decode E 0 (opGet so c!"TZID") s).bind fun t => Res.ok (Val.dateTime t)).bind (fun v => Res.ok (PropVal.fields [] [some v])) = Res.ok p ↔ _
  rw [show opGet so c!"TZID" = _ from ht]
  cases DateTime.decode E 0 (otherParam ps c!"TZID") s with
  | ok t => exact ⟨fun h => by cases h; exact ⟨t, rfl, rfl⟩, by rintro ⟨_, h, rfl⟩; cases h; rfl⟩
  | err => exact ⟨(nomatch ·), by rintro ⟨_, h, _⟩; cases h⟩
  | panic => exact ⟨(nomatch ·), by rintro ⟨_, h, _⟩; cases h⟩

/-- Properties that are a number. -/
theorem decode_number {E : Env} {sp : PSpec} (hs : sp.shape = .fields [] [(c!"", .integer)]) (ps : List (Str × List PVal)) (s : Str) (p : PropVal) :
    sp.decode E ps s = .ok p ↔ ∃ i, Integer.decode s = .ok i ∧ p = .fields [] [some (.integer i)] := by
  obtain ⟨st, h, h1, h2⟩ := steps_plain E .integer c!"" ps { ps := [] }
  unfold PSpec.decode
  rw [hs]
  show (PState.steps E [] [(c!"", .integer)] { ps := [] } ps).bind _ = _ ↔ _
  rw [h]
  obtain ⟨sp, sv, so⟩ := st
  cases h1
  cases h2
  show ((Integer.decode s).bind fun t => Res.ok (Val.integer t)).bind (fun v => Res.ok (PropVal.fields [] [some v])) = Res.ok p ↔ _
  cases Integer.decode s with
  | ok t => exact ⟨fun h => by cases h; exact ⟨t, rfl, rfl⟩, by rintro ⟨_, h, rfl⟩; cases h; rfl⟩
  | err => exact ⟨(nomatch ·), by rintro ⟨_, h, _⟩; cases h⟩
  | panic => exact ⟨(nomatch ·), by rintro ⟨_, h, _⟩; cases h⟩

/-- C68.  METHOD is no enumeration: any text is read, and written. -/
theorem C68_method (E : Env) (ps : List (Str × List PVal)) (s : Str) (p : PropVal) :
    (propMethod.decode E ps s = .ok p ↔ ∃ t, LooseText s t ∧ p = .fields [] [some (.text t)]) ∧
    (∀ t, propMethod.encode E (.fields [] [some (.text t)]) = some (c!"METHOD:" ++ Text.encode t ++ crlf)) := by
  refine ⟨?_, fun t => by simp [propMethod, PSpec.encode, encParams, encVals, cat, Val.aencode, Val.head_, Val.text_]⟩
  simp only [← Text.decode_iff]
  obtain ⟨st, h, h1, h2⟩ := steps_plain E .text [] ps { ps := [] }
  show (PState.steps E [] [([], .text)] { ps := [] } ps).bind _ = _ ↔ _
  rw [h]
  obtain ⟨sp, sv, so⟩ := st
  cases h1
  cases h2
  show ((Text.decode s).bind fun t => Res.ok (Val.text t)).bind (fun v => Res.ok (PropVal.fields [] [some v])) = Res.ok p ↔ _
  cases Text.decode s with
  | ok t => exact ⟨fun h => by cases h; exact ⟨t, rfl, rfl⟩, by rintro ⟨_, h, rfl⟩; cases h; rfl⟩
  | err => exact ⟨(nomatch ·), by rintro ⟨_, h, _⟩; cases h⟩
  | panic => exact ⟨(nomatch ·), by rintro ⟨_, h, _⟩; cases h⟩

example : propMethod.decode sampleEnv [] c!"ANY\\,thing" = .ok (.fields [] [some (.text c!"ANY,thing")]) := by decide +kernel

/-- The time of such a property is in UTC exactly if there is no TZID and the value ends with Z, or the TZID is UTC or nothing. -/
theorem C77_utc_exactly_partial (E : Env) (f : SField) (hf : f ∈ allFields) (hk : f.key ∈ utcOnly) (ps : List (Str × List PVal)) (s : Str) (t : GoTime)
    (h : f.spec.decode E ps s = .ok (.fields [] [some (.dateTime t)])) :
    t.loc = .utc ↔ (otherParam ps c!"TZID" = none ∧ s.getLast? = some 'Z') ∨ otherParam ps c!"TZID" = some [] ∨ otherParam ps c!"TZID" = some c!"UTC" := by
  obtain ⟨t', ht, e⟩ := (decode_time (utcOnly_shape f hf hk) ps s _).1 h
  cases e
  have key : ∀ {z : Bool} {l : Loc}, parseDateTime E z l s = some t → t.loc = l := by
    intro z l h
    obtain ⟨_, _, _, _, _, _, _, _, _, _, _, _, _, _, rfl⟩ := (parseDateTime_iff ..).1 h
    rfl
  unfold DateTime.decode at ht
  cases hz : otherParam ps c!"TZID" with
  | none =>
    rw [hz] at ht
    dsimp only at ht
    split at ht
    · next he => simp [key (Res.ofOption_eq_ok.1 ht), he]
    · next he => simp [key (Res.ofOption_eq_ok.1 ht), he]
  | some n =>
    rw [hz] at ht
    obtain ⟨l, hl, ht⟩ := Res.bind_eq_ok.1 ht
    rw [key (Res.ofOption_eq_ok.1 ht)]
    have hl := Res.ofOption_eq_ok.1 hl
    unfold loadLocation at hl
    split at hl
    · next hn => cases hl; rcases hn with rfl | rfl <;> simp
    · next hn =>
      have : l ≠ .utc := by
        split at hl
        · cases hl; nofun
        · obtain ⟨r, _, rfl⟩ := Option.map_eq_some_iff.1 hl; nofun
      simp only [this, false_iff, reduceCtorEq, false_and, false_or, Option.some.injEq]
      exact hn

/-- C77.  It is not checked: in any accepted document, the Z at the end of such a time may be left out.  The time is then in the zone of the machine. -/
theorem C77_not_checked (E : Env) (s s' : Str) (p r : List Line) (l : Line) (v : Str) (t : Term) (c : Cal) (hn : upper l.name ∈ utcOnly)
    (hz : otherParam l.params c!"TZID" = none) (hv : l.value = v ++ ['Z']) (h : tokenise s = ⟨p ++ l :: r, t⟩) (h' : tokenise s' = ⟨p ++ { l with value := v } :: r, t⟩)
    (hc : decodeDoc E s = .ok c) :
    ∃ c', decodeDoc E s' = .ok c' ∧ CalRel (fun p q => q = p ∨ ∃ x y, p = .fields [] [some (.dateTime x)] ∧ q = .fields [] [some (.dateTime y)] ∧ x.loc = .utc ∧ y.loc = .local) c c' := by
  refine C75_one_line E _ (fun _ => .inl rfl) s s' p r l _ t c h h' (stands_value (fun _ => .inl rfl) rfl ?_ fun f hf hk q hq => ?_) hc
  · have : ∀ n ∈ utcOnly, n ∉ Spec.control := by decide
    exact this _ hn
  · have hs := utcOnly_shape f hf (hk ▸ hn)
    obtain ⟨x, hx, rfl⟩ := (decode_time hs _ _ _).1 hq
    rw [hz, hv] at hx
    unfold DateTime.decode at hx
    dsimp only at hx
    rw [if_pos (by rw [List.getLast?_concat])] at hx
    obtain ⟨a, cl, fr, y, m, d, ho, mi, sec, ns, he, h1, h2, h3, rfl⟩ := (parseDateTime_iff ..).1 (Res.ofOption_eq_ok.1 hx)
    have hv' : v = a ++ 'T' :: cl ++ fr := List.append_cancel_right he
    refine ⟨_, (decode_time hs _ _ _).2 ⟨⟨instant E .local (dayNumber (y : Nat) m d * 86400 + ((3600 * ho + 60 * mi + sec : Nat) : Int)), ns, .local⟩, ?_, rfl⟩,
      .inr ⟨_, _, rfl, rfl, rfl, rfl⟩⟩
    show DateTime.decode E 0 (otherParam l.params c!"TZID") v = _
    rw [hz]
    exact (C22_datetime_exact_partial E 0 _ _).2 ⟨a, cl, fr, y, m, d, ho, mi, sec, ns, false, by simpa using hv', h1, h2, h3, rfl⟩

/-- A calendar with a to-do with this time of completion. -/
def completedAt (v : Str) : List Line := [plainLine kBEGIN c!"VCALENDAR", plainLine c!"VERSION" c!"2.0", plainLine c!"PRODID" c!"x", plainLine kBEGIN c!"VTODO",
  plainLine c!"UID" c!"1", plainLine c!"DTSTAMP" c!"20210729T014000Z", plainLine c!"COMPLETED" v, plainLine kEND c!"VTODO", plainLine kEND c!"VCALENDAR"]

theorem completed_locally : decodeDoc sampleEnv ((completedAt c!"20210729T014000").flatMap printLine) =
    .ok (sect tabCalendar [(c!"VERSION", val1 0 (.text c!"2.0")), (c!"PRODID", val1 0 (.text c!"x"))]
      [[], [sect tabTodo [(c!"UID", val1 0 (.text c!"1")), (c!"DTSTAMP", val1 0 (.dateTime ⟨63763119600, 0, .utc⟩)), (c!"COMPLETED", val1 0 (.dateTime ⟨63763119600, 0, .local⟩))] [[]]],
        [], [], []]) := by decide +kernel

/-- C77.  The claim as stated in full is false: a counterexample. -/
theorem C77_full_claim_is_false : ¬ C77_claim := by
  intro h
  have := h sampleEnv _ _ completed_locally (⟨c!"COMPLETED", propCompleted, .opt⟩, val1 0 (.dateTime ⟨63763119600, 0, .local⟩)) (by decide +kernel) (by decide) _
    (List.mem_singleton.2 rfl) _ rfl
  cases this

/-- The hypotheses of C77_not_checked are met by this document. -/
example : tokenise ((completedAt c!"20210729T014000Z").flatMap printLine) = ⟨(completedAt []).take 6 ++ plainLine c!"COMPLETED" c!"20210729T014000Z" :: (completedAt []).drop 7, .done⟩ ∧
    tokenise ((completedAt c!"20210729T014000").flatMap printLine) = ⟨(completedAt []).take 6 ++ { plainLine c!"COMPLETED" c!"20210729T014000Z" with value := c!"20210729T014000" } ::
      (completedAt []).drop 7, .done⟩ ∧ (decodeDoc sampleEnv ((completedAt c!"20210729T014000Z").flatMap printLine)).isOk = true := by decide +kernel

/-! ## C78 Numbers that have a range -/

/-- The ranges of RFC 5545 (3.8.1.8, 3.8.1.9, 3.8.6.2, 3.8.7.4); the last two are not negative. -/
def ranges : List (Str × Int × Int) := [(c!"PERCENT-COMPLETE", 0, 100), (c!"PRIORITY", 0, 9), (c!"REPEAT", 0, 2 ^ 31 - 1), (c!"SEQUENCE", 0, 2 ^ 31 - 1)]

/-- The property: in an accepted document, these numbers are in their range. -/
def C78_claim : Prop := ∀ (E : Env) (s : Str) (c : Cal), decodeDoc E s = .ok c → ∀ x ∈ calProps c, ∀ y ∈ ranges, x.1.key = y.1 → ∀ i, Val.integer i ∈ propVals x.2 →
  y.2.1 ≤ i ∧ i ≤ y.2.2

theorem ranges_shape : ∀ f ∈ allFields, f.key ∈ ranges.map (·.1) → f.spec.shape = .fields [] [(c!"", .integer)] := by decide +kernel

/-- What is known of them: they are numbers of 32 bits. -/
theorem C78_int32_partial (E : Env) (f : SField) (hf : f ∈ allFields) (hk : f.key ∈ ranges.map (·.1)) (ps : List (Str × List PVal)) (s : Str) (p : PropVal) :
    f.spec.decode E ps s = .ok p ↔ ∃ i, IntLit s i ∧ -(2 ^ 31 : Int) ≤ i ∧ i < 2 ^ 31 ∧ p = .fields [] [some (.integer i)] := by
  rw [decode_number (ranges_shape f hf hk)]
  simp only [C26_integer_exact, and_assoc]

/-- C78.  The range is not checked: in any accepted document any number of 32 bits may be put in the place of such a number. -/
theorem C78_not_checked (E : Env) (s s' : Str) (p r : List Line) (l : Line) (v : Str) (i : Int) (t : Term) (c : Cal) (hn : upper l.name ∈ ranges.map (·.1))
    (hv : IntLit v i) (h1 : -(2 ^ 31 : Int) ≤ i) (h2 : i < 2 ^ 31) (h : tokenise s = ⟨p ++ l :: r, t⟩) (h' : tokenise s' = ⟨p ++ { l with value := v } :: r, t⟩)
    (hc : decodeDoc E s = .ok c) :
    ∃ c', decodeDoc E s' = .ok c' ∧ CalRel (fun p q => q = p ∨ (∃ j, p = .fields [] [some (.integer j)]) ∧ q = .fields [] [some (.integer i)]) c c' := by
  refine C75_one_line E _ (fun _ => .inl rfl) s s' p r l _ t c h h' (stands_value (fun _ => .inl rfl) rfl ?_ fun f hf hk q hq => ?_) hc
  · have : ∀ n ∈ ranges.map (·.1), n ∉ Spec.control := by decide
    exact this _ hn
  · obtain ⟨j, _, _, _, rfl⟩ := (C78_int32_partial E f hf (hk ▸ hn) ..).1 hq
    exact ⟨_, (C78_int32_partial E f hf (hk ▸ hn) ..).2 ⟨i, hv, h1, h2, rfl⟩, .inr ⟨⟨j, rfl⟩, rfl⟩⟩

/-- A calendar with an event of this priority. -/
def priority (v : Str) : List Line := eventWith (plainLine c!"PRIORITY" v)

/-- C78.  The claim as stated in full is false: a counterexample. -/
theorem C78_full_claim_is_false : ¬ C78_claim := by
  intro h
  have hd : decodeDoc sampleEnv ((priority c!"-7").flatMap printLine) =
      .ok (sect tabCalendar [(c!"VERSION", val1 0 (.text c!"2.0")), (c!"PRODID", val1 0 (.text c!"x"))]
        [[sect tabEvent [(c!"UID", val1 0 (.text c!"1")), (c!"DTSTAMP", val1 0 (.dateTime ⟨63763119600, 0, .utc⟩)), (c!"PRIORITY", val1 0 (.integer (-7)))] [[]]],
          [], [], [], []]) := by decide +kernel
  have := h sampleEnv _ _ hd (⟨c!"PRIORITY", propPriority, .opt⟩, val1 0 (.integer (-7))) (by decide +kernel) (c!"PRIORITY", 0, 9) (by decide) rfl (-7) (List.mem_singleton.2 rfl)
  exact absurd this.1 (by decide)

example : tokenise ((priority c!"5").flatMap printLine) = ⟨inAlarm.take 6 ++ plainLine c!"PRIORITY" c!"5" :: afterAlarm.drop 1, .done⟩ ∧
    (decodeDoc sampleEnv ((priority c!"5").flatMap printLine)).isOk = true := by decide +kernel

/-! ## C79 An event ends after it begins -/

/-- The property: in an accepted document, an event that has a beginning and an end, both with a time of day, ends after it begins. -/
def C79_claim : Prop := ∀ (E : Env) (s : Str) (c : Cal), decodeDoc E s = .ok c → ∀ e ∈ comps c!"VEVENT" c, ∀ x ∈ sectProps tabEvent e, ∀ y ∈ sectProps tabEvent e,
  x.1.key = c!"DTSTART" → y.1.key = c!"DTEND" → ∀ a b, Val.dateTime a ∈ propVals x.2 → Val.dateTime b ∈ propVals y.2 → a.sec < b.sec

/-- Beginnings and ends. -/
def bounds : List Str := [c!"DTSTART", c!"DTEND", c!"DUE"]

theorem bounds_shape : ∀ f ∈ allFields, f.key ∈ bounds → f.spec.shape = propDateTimeStart.shape := by decide +kernel

/-- C79.  Beginning and end are not compared: in any accepted document, any date or time may be put in the place of a beginning or an end, also of another type. -/
theorem C79_not_compared (E : Env) (s s' : Str) (p r : List Line) (l : Line) (ps : List (Str × List PVal)) (v : Str) (q : PropVal) (t : Term) (c : Cal) (hn : upper l.name ∈ bounds)
    (hq : propDateTimeStart.decode E ps v = .ok q) (h : tokenise s = ⟨p ++ l :: r, t⟩) (h' : tokenise s' = ⟨p ++ ⟨l.name, ps, v⟩ :: r, t⟩) (hc : decodeDoc E s = .ok c) :
    ∃ c', decodeDoc E s' = .ok c' ∧ CalRel (fun p p' => p' = p ∨ p' = q) c c' := by
  refine C75_one_line E _ (fun _ => .inl rfl) s s' p r l _ t c h h' (stands_value (fun _ => .inl rfl) rfl ?_ fun f hf hk _ _ => ⟨q, ?_, .inr rfl⟩) hc
  · have : ∀ n ∈ bounds, n ∉ Spec.control := by decide
    exact this _ hn
  · rw [PSpec.decode_shape (bounds_shape f hf (hk ▸ hn))]
    exact hq

/-- C79.  In particular, beginning and end may be exchanged. -/
theorem C79_exchanged (E : Env) (s s' : Str) (p q r : List Line) (l m : Line) (t : Term) (c : Cal) (hl : upper l.name ∈ bounds) (hm : upper m.name ∈ bounds)
    (hlr : (propDateTimeStart.decode E l.params l.value).isOk = true) (hmr : (propDateTimeStart.decode E m.params m.value).isOk = true)
    (h : tokenise s = ⟨p ++ l :: (q ++ m :: r), t⟩) (h' : tokenise s' = ⟨p ++ ⟨l.name, m.params, m.value⟩ :: (q ++ ⟨m.name, l.params, l.value⟩ :: r), t⟩)
    (hc : decodeDoc E s = .ok c) : (decodeDoc E s').isOk = true := by
  have key : ∀ {a b : Line}, upper a.name ∈ bounds → (propDateTimeStart.decode E b.params b.value).isOk = true → Stands E E (fun _ _ => True) a ⟨a.name, b.params, b.value⟩ := by
    intro a b ha hb
    refine stands_value (fun _ => trivial) rfl ?_ fun f hf hk _ _ => ?_
    · have : ∀ n ∈ bounds, n ∉ Spec.control := by decide
      exact this _ ha
    · rw [PSpec.decode_shape (bounds_shape f hf (hk ▸ ha))]
      cases hd : propDateTimeStart.decode E b.params b.value with
      | ok x => exact ⟨x, rfl, trivial⟩
      | err => rw [hd] at hb; cases hb
      | panic => rw [hd] at hb; cases hb
  have hs : ∀ (p : List Line) {a b : List Line}, Pairwise2 (Stands E E fun _ _ => True) a b → Pairwise2 (Stands E E fun _ _ => True) (p ++ a) (p ++ b) := by
    intro p a b hab
    induction p with
    | nil => exact hab
    | cons x p ih => exact .cons (stands_self E (fun _ => trivial) x) ih
  obtain ⟨c', hc', _⟩ := C75_line_by_line E (fun _ _ => True) s s' _ _ t c h h' (hs p (.cons (key hl hmr) (pairwise_at (stands_self E fun _ => trivial) (key hm hlr) q r))) hc
  rw [hc']
  rfl

/-- An event from one time to another. -/
def fromTo (a b : Str) : List Line := inAlarm.take 6 ++ plainLine c!"DTSTART" a :: ([] ++ plainLine c!"DTEND" b :: afterAlarm.drop 1)

example : tokenise ((fromTo c!"20210729T014000Z" c!"20210729T024000Z").flatMap printLine) = ⟨fromTo c!"20210729T014000Z" c!"20210729T024000Z", .done⟩ ∧
    (decodeDoc sampleEnv ((fromTo c!"20210729T014000Z" c!"20210729T024000Z").flatMap printLine)).isOk = true := by decide +kernel

/-- C79.  The claim as stated in full is false: a counterexample. -/
theorem C79_full_claim_is_false : ¬ C79_claim := by
  intro h
  have hd : decodeDoc sampleEnv ((fromTo c!"20210729T024000Z" c!"20210729T014000Z").flatMap printLine) =
      .ok (sect tabCalendar [(c!"VERSION", val1 0 (.text c!"2.0")), (c!"PRODID", val1 0 (.text c!"x"))]
        [[sect tabEvent [(c!"UID", val1 0 (.text c!"1")), (c!"DTSTAMP", val1 0 (.dateTime ⟨63763119600, 0, .utc⟩)),
          (c!"DTSTART", .fields [] [some (.dateTime ⟨63763123200, 0, .utc⟩), none]), (c!"DTEND", .fields [] [some (.dateTime ⟨63763119600, 0, .utc⟩), none])] [[]]],
          [], [], [], []]) := by decide +kernel
  have := h sampleEnv _ _ hd _ (List.mem_singleton.2 rfl)
    (⟨c!"DTSTART", propDateTimeStart, .opt⟩, .fields [] [some (.dateTime ⟨63763123200, 0, .utc⟩), none]) (by decide +kernel)
    (⟨c!"DTEND", propDateTimeEnd, .opt⟩, .fields [] [some (.dateTime ⟨63763119600, 0, .utc⟩), none]) (by decide +kernel) rfl rfl _ _
    (List.mem_singleton.2 rfl) (List.mem_singleton.2 rfl)
  exact absurd this (by decide)

end Ics.Props
