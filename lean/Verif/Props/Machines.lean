import Verif.MachinesLemmas
import Verif.Props.Exchange
/-!
# Theorems about the same document on different machines, and about time zones: C76, C80
-/

namespace Ics.Props

open Spec

/-! ## C76 The same document on two machines -/

/-- The property: a document that is accepted on one machine is accepted on every other, with the same calendar. -/
def C76_claim : Prop := ∀ (E E' : Env) (s : Str) (c : Cal), SameLibrary E E' → decodeDoc E s = .ok c → decodeDoc E' s = .ok c

/-- C76.  It is accepted, and the calendars differ in times only, if the second machine knows the time zones that the document names, and the document has no rule with COUNT and
UNTIL.  The times have the same date and clock reading, in the zone with the same name, or in the zones of the machines.

Missing: unknown zones; local times and zones with other rules, which give other instants; rules with COUNT and UNTIL. -/
theorem C76_same_reading_partial (E E' : Env) (hL : SameLibrary E E') (s : Str) (c : Cal) (hp : ∀ l ∈ (tokenise s).lines, Portable E E' l) (h : decodeDoc E s = .ok c) :
    ∃ c', decodeDoc E' s = .ok c' ∧ CalRel (PropRel E E') c c' := by
  unfold decodeDoc at h ⊢
  cases ht : tokenise s with
  | mk ls t =>
    rw [ht] at h hp
    exact decodeStream_machines hL hp h

/-- C76.  If all times of the calendar are in UTC (dates are), it is the same calendar. -/
theorem C76_utc_partial (E E' : Env) (hL : SameLibrary E E') (s : Str) (c : Cal) (hp : ∀ l ∈ (tokenise s).lines, Portable E E' l) (hu : InUTC c) (h : decodeDoc E s = .ok c) :
    decodeDoc E' s = .ok c := by
  obtain ⟨c', h', hr⟩ := C76_same_reading_partial E E' hL s c hp h
  rw [h', hr.eq_of fun p hp q hq => hq.utc (hu p hp)]

/-- C76.  On two machines in the same zone, which have the same rules for the zones they both know, it is the same calendar.  (Rules are numbers in the model; the
same rules have the same number.) -/
theorem C76_same_zones_partial (E E' : Env) (hL : SameLibrary E E') (s : Str) (c : Cal) (hp : ∀ l ∈ (tokenise s).lines, Portable E E' l)
    (hl : E'.localOff = E.localOff) (hz : ∀ n r r', E.loadZone n = some r → E'.loadZone n = some r' → r' = r ∧ E'.zoneOff r = E.zoneOff r) (h : decodeDoc E s = .ok c) :
    decodeDoc E' s = .ok c := by
  obtain ⟨c', h', hr⟩ := C76_same_reading_partial E E' hL s c hp h
  rw [h', hr.eq_of fun p hp q hq => ?_]
  have hi : ∀ {l l' : Loc} {w : Int}, (∀ t, locOff E' l' t = locOff E l t) → instant E' l' w = instant E l w := by
    intro l l' w h
    unfold instant
    simp only [h]
  have ht : ∀ {t t' : GoTime}, TimeRel E E' t t' → t' = t := by
    rintro ⟨a, b, l⟩ ⟨a', b', l'⟩ ⟨h1, h2, w, h3, h4⟩
    dsimp only at *
    subst h2 h3 h4
    cases h1 with
    | utc => rfl
    | «local» =>
      congr 1
      exact hi fun t => by simp only [locOff, hl]
    | zone e1 e2 =>
      obtain ⟨rfl, e⟩ := hz _ _ _ e1 e2
      congr 1
      exact hi fun t => by simp only [locOff, e]
  have hv : ∀ {v v' : Val}, ValRel E E' v v' → v' = v := by
    intro v v' h
    cases h with
    | same => rfl
    | dateTime h => rw [ht h]
    | @period p p' h1 h2 h3 =>
      have e1 := ht h1
      have e2 := ht h2
      cases p; cases p'
      dsimp only at *
      rw [e1, e2, h3]
    | recur h => rw [ht h]
  cases hq with
  | enum => rfl
  | fields h =>
    congr 1
    refine h.eq_of ?_
    intro a _ b hab
    cases hab with
    | none => rfl
    | some h => rw [hv h]

/-- A machine an hour east of the sample machine, which does not know Paris. -/
def eastEnv : Env := { sampleEnv with localOff := fun _ => 3600, loadZone := fun _ => none }

theorem east_library : SameLibrary sampleEnv eastEnv := ⟨rfl, rfl⟩

/-- A time in Paris is read on the one machine only. -/
theorem C76_unknown_zone : (decodeDoc sampleEnv ((eventWith ⟨c!"DTSTART", [(c!"TZID", [⟨false, c!"Europe/Paris"⟩])], c!"20210729T014000"⟩).flatMap printLine)).isOk = true ∧
    decodeDoc eastEnv ((eventWith ⟨c!"DTSTART", [(c!"TZID", [⟨false, c!"Europe/Paris"⟩])], c!"20210729T014000"⟩).flatMap printLine) = .err .ext := by decide +kernel

/-- A local time is another instant. -/
theorem C76_local_time : propDateTimeStart.decode sampleEnv [] c!"20210729T014000" = .ok (.fields [] [some (.dateTime ⟨63763119600, 0, .local⟩), none]) ∧
    propDateTimeStart.decode eastEnv [] c!"20210729T014000" = .ok (.fields [] [some (.dateTime ⟨63763116000, 0, .local⟩), none]) := by decide +kernel

/-- The zero of package time is taken for no time: this rule with UNTIL and COUNT is refused on all machines but those where clocks showed Greenwich time then. -/
theorem C76_zero_time : (decodeDoc sampleEnv ((eventWith (plainLine c!"RRULE" c!"FREQ=DAILY;UNTIL=00010101T000000;COUNT=2")).flatMap printLine)).isOk = true ∧
    decodeDoc eastEnv ((eventWith (plainLine c!"RRULE" c!"FREQ=DAILY;UNTIL=00010101T000000;COUNT=2")).flatMap printLine) = .err .invalidRecur := by decide +kernel

/-- C76.  The claim as stated in full is false: a counterexample. -/
theorem C76_full_claim_is_false : ¬ C76_claim := by
  intro h
  obtain ⟨h1, h2⟩ := C76_unknown_zone
  cases hd : decodeDoc sampleEnv ((eventWith ⟨c!"DTSTART", [(c!"TZID", [⟨false, c!"Europe/Paris"⟩])], c!"20210729T014000"⟩).flatMap printLine) with
  | ok c =>
    have := h sampleEnv eastEnv _ c east_library hd
    rw [h2] at this
    cases this
  | err => rw [hd] at h1; cases h1
  | panic => rw [hd] at h1; cases h1

/-- A line with a local time and a rule with UNTIL may be read on the second machine. -/
example : Portable sampleEnv eastEnv (plainLine c!"DTSTART" c!"20210729T014000") ∧ Portable sampleEnv eastEnv (plainLine c!"RRULE" c!"FREQ=DAILY;UNTIL=20210729T014000") := by
  refine ⟨⟨nofun, fun h => absurd h (by decide)⟩, ⟨nofun, fun _ => ?_⟩⟩
  rintro ⟨⟨x, hx⟩, _⟩
  have : splitOn ';' c!"FREQ=DAILY;UNTIL=20210729T014000" = [c!"FREQ=DAILY", c!"UNTIL=20210729T014000"] := by decide
  rw [show (plainLine c!"RRULE" c!"FREQ=DAILY;UNTIL=20210729T014000").value = c!"FREQ=DAILY;UNTIL=20210729T014000" from rfl, this] at hx
  simp at hx

example : InUTC (sect tabCalendar [] [[sect tabEvent [(c!"DTSTAMP", val1 0 (.dateTime ⟨63763119600, 0, .utc⟩))] [[]]]]) := by
  intro p hp
  have : p ∈ [val1 0 (.dateTime ⟨63763119600, 0, .utc⟩)] := by
    revert hp
    rw [show everyProp (sect tabCalendar [] [[sect tabEvent [(c!"DTSTAMP", val1 0 (.dateTime ⟨63763119600, 0, .utc⟩))] [[]]]]) = [val1 0 (.dateTime ⟨63763119600, 0, .utc⟩)]
      by decide +kernel]
    exact id
  rw [List.mem_singleton.1 this]
  intro v hv
  cases List.mem_singleton.1 hv
  rfl

/-! ## C80 Time zones that the document defines -/

/-- The times in a value. -/
def timesOf : Val → List GoTime
  | .dateTime t => [t]
  | .period p => [p.start, p.stop]
  | .recur r => [r.until_]
  | _ => []

/-- The property: an event of an accepted document may begin at a local time of a time zone that the document defines. -/
def C80_claim : Prop := ∀ (E : Env) (s s' : Str) (p r : List Line) (v n : Str) (t : Term) (c : Cal), decodeDoc E s = .ok c → (∃ z ∈ comps c!"VTIMEZONE" c, ∃ x ∈ sectProps tabTimezone z,
    x.1.key = c!"TZID" ∧ Val.text n ∈ propVals x.2) → (∃ t, DateTime.decode E 0 none v = .ok t ∧ t.loc = .local) →
  tokenise s = ⟨p ++ ⟨c!"DTSTART", [], v⟩ :: r, t⟩ → tokenise s' = ⟨p ++ ⟨c!"DTSTART", [(c!"TZID", [⟨false, n⟩])], v⟩ :: r, t⟩ → (decodeDoc E s').isOk = true

theorem parsed_loc {E : Env} {z : Bool} {l : Loc} {s : Str} {t : GoTime} (h : parseDateTime E z l s = some t) : t.loc = l := by
  obtain ⟨_, _, _, _, _, _, _, _, _, _, _, _, _, _, rfl⟩ := (parseDateTime_iff ..).1 h
  rfl

/-- UTC, the zone of the machine, or a zone that the machine knows. -/
def MachineZone (E : Env) (l : Loc) : Prop := l = .utc ∨ l = .local ∨ ∃ n p r, l = .zone n p r ∧ E.loadZone n = some r

theorem loaded_zone {E : Env} {p : Nat} {n : Str} {l : Loc} (h : loadLocation E p n = some l) : MachineZone E l := by
  unfold loadLocation at h
  split at h
  · cases h; exact .inl rfl
  · split at h
    · cases h; exact .inr (.inl rfl)
    · obtain ⟨r, hr, rfl⟩ := Option.map_eq_some_iff.1 h
      exact .inr (.inr ⟨_, _, r, rfl, hr⟩)

theorem dateTime_zone {E : Env} {p : Nat} {tz : Option Str} {s : Str} {t : GoTime} (h : DateTime.decode E p tz s = .ok t) : MachineZone E t.loc := by
  unfold DateTime.decode at h
  cases tz with
  | some n =>
    obtain ⟨l, hl, h⟩ := Res.bind_eq_ok.1 h
    rw [parsed_loc (Res.ofOption_eq_ok.1 h)]
    exact loaded_zone (Res.ofOption_eq_ok.1 hl)
  | none =>
    dsimp only at h
    split at h
    · rw [parsed_loc (Res.ofOption_eq_ok.1 h)]; exact .inl rfl
    · rw [parsed_loc (Res.ofOption_eq_ok.1 h)]; exact .inr (.inl rfl)

theorem until_zone {E : Env} {p : Nat} {tz : Option Str} : ∀ (ps : List Str) {x y : RState}, MachineZone E x.1.until_.loc → Recur.loop E p tz x ps = .ok y → MachineZone E y.1.until_.loc := by
  intro ps
  induction ps with
  | nil => intro x y hx h; cases h; exact hx
  | cons q ps ih =>
    intro x y hx h
    unfold Recur.loop at h
    split at h
    · cases h
    · split at h
      · cases h
      · next k _ =>
        obtain ⟨z, hz, h⟩ := Res.bind_eq_ok.1 h
        refine ih ?_ h
        clear h ih
        cases k <;> simp only [Recur.part] at hz
        case «until» =>
          split at hz
          · cases hz
          · split at hz
            · split at hz
              · next hd => cases hz; exact dateTime_zone hd
              · cases hz
              · cases hz
            · split at hz
              · next hd =>
                cases hz
                obtain ⟨_, _, _, _, _, _, rfl⟩ := (Date.decode_iff _ _).1 hd
                exact .inl rfl
              · cases hz
              · cases hz
        case freq =>
          split at hz
          · cases hz; exact hx
          · cases hz
        case count =>
          split at hz
          · cases hz
          · split at hz
            · cases hz; exact hx
            · cases hz
        case interval =>
          split at hz
          · cases hz
          · split at hz
            · cases hz; exact hx
            · cases hz
        case weekStart =>
          split at hz
          · cases hz
          · split at hz
            · cases hz; exact hx
            · cases hz
        all_goals
          unfold once at hz
          split at hz
          · obtain ⟨l, _, hz⟩ := Res.bind_eq_ok.1 hz
            cases hz
            exact hx
          · cases hz

theorem value_zone {E : Env} {op : Str → Option Str} {k : Kind} {s : Str} {v : Val} (h : Val.decode E op k s = .ok v) : ∀ t ∈ timesOf v, MachineZone E t.loc := by
  unfold Val.decode at h
  cases k with
  | dateTime =>
    obtain ⟨t, ht, rfl⟩ := map_ok h
    intro u hu
    cases List.mem_singleton.1 hu
    exact dateTime_zone ht
  | period =>
    obtain ⟨t, ht, rfl⟩ := map_ok h
    unfold Period.decode at ht
    split at ht
    · cases ht
    · cases ht
    · obtain ⟨a, ha, ht⟩ := Res.bind_eq_ok.1 ht
      split at ht
      · obtain ⟨b, hb, ht⟩ := Res.bind_eq_ok.1 ht
        cases ht
        intro u hu
        simp only [timesOf, List.mem_cons, List.not_mem_nil, or_false] at hu
        rcases hu with rfl | rfl
        · exact dateTime_zone ha
        · exact .inl rfl
      · obtain ⟨b, hb, ht⟩ := Res.bind_eq_ok.1 ht
        cases ht
        intro u hu
        simp only [timesOf, List.mem_cons, List.not_mem_nil, or_false] at hu
        rcases hu with rfl | rfl
        · exact dateTime_zone ha
        · exact dateTime_zone hb
  | recur =>
    obtain ⟨t, ht, rfl⟩ := map_ok h
    unfold Recur.decode at ht
    obtain ⟨⟨x, f⟩, hx, ht⟩ := Res.bind_eq_ok.1 ht
    cases f with
    | false => cases ht
    | true =>
      cases ht
      intro u hu
      cases List.mem_singleton.1 hu
      exact until_zone _ (.inl rfl) hx
  | binary | boolean | date | duration | integer | mtext | text | utcOffset | tfloat | calAddress | uri =>
    obtain ⟨t, ht, rfl⟩ := map_ok h
    exact nofun

/-- C80.  Every time of an accepted document, in whatever component, is in UTC, in the zone of the machine, or in a zone of the database of the machine: none is in a zone that is
known from the document alone. -/
theorem C80_machine_zones (E : Env) (s : Str) (c : Cal) (h : decodeDoc E s = .ok c) : ∀ x ∈ calProps c, ∀ v ∈ propVals x.2, ∀ t ∈ timesOf v, MachineZone E t.loc := by
  have := decodeStream_all (L := fun _ => True) (P := fun _ p => ∀ v ∈ propVals p, ∀ t ∈ timesOf v, MachineZone E t.loc) (fun f l p _ _ hd => ?_) (fun _ _ => trivial) h
  · exact this.props
  · unfold PSpec.decode at hd
    split at hd
    · split at hd
      · cases hd; exact nofun
      · cases hd
    · obtain ⟨st, _, hd⟩ := Res.bind_eq_ok.1 hd
      obtain ⟨v, hv, hd⟩ := Res.bind_eq_ok.1 hd
      cases hd
      intro w hw
      have : w = v := by
        simp only [propVals, oneOf, List.mem_filterMap, id] at hw
        obtain ⟨_, hm, rfl⟩ := hw
        rcases List.mem_or_eq_of_mem_set hm with hm | hm
        · exact absurd (List.eq_of_mem_replicate hm) (by simp)
        · cases hm; rfl
      rw [this]
      exact value_zone hv

open Rfc in
theorem body_zones {E : Env} {p : Part} {is : List Item} (hb : BodyOk .library E p is) : ∀ n o ks ps, Edition.library.occurs p n = some o → content p n = some (.value (.dateTime :: ks) ps) →
      ∀ l ∈ linesNamed is n, valuesOf l.params c!"VALUE" = [] → ∀ z, otherParam l.params c!"TZID" = some z → z ∈ [c!"", c!"UTC", c!"Local"] ∨ E.loadZone z ≠ none := by
  intro n o ks ps ho ht l hl hv z hz
  obtain ⟨r, qs, i, m, k, v, _, _, hu, hg, hm⟩ := (hb.1 n o _ ho ht).2 l hl
  have hi : i = 0 := by
    unfold UsesType at hu
    rw [hv] at hu
    simpa only [ite_self] using hu
  subst hi
  have hk : k = .dateTime := by
    simp only [List.map_cons, List.getElem?_cons_zero, Option.some.injEq, Prod.mk.injEq] at hg
    exact hg.2.symm
  subst hk
  have hd := (Val.decode_iff ..).2 hm
  obtain ⟨t, ht, _⟩ := map_ok hd
  rw [hz] at ht
  unfold DateTime.decode at ht
  obtain ⟨l, hl, _⟩ := Res.bind_eq_ok.1 ht
  have hl := Res.ofOption_eq_ok.1 hl
  unfold loadLocation at hl
  split at hl
  · next hn => rcases hn with rfl | rfl <;> simp
  · split at hl
    · next hn => subst hn; simp
    · obtain ⟨r, hr, _⟩ := Option.map_eq_some_iff.1 hl
      exact .inr (by rw [hr]; nofun)

open Rfc in
/-- C80.  A time with the TZID of a zone that the machine does not know makes the document unreadable, whatever time zones the document defines: an accepted document has none in
its components. -/
theorem C80_refused_partial (E : Env) (s : Str) (c : Cal) (h : decodeDoc E s = .ok c) (hk : Keywords (tokenise s).lines) :
    ∃ pre rest, (tokenise s).lines = pre ++ rest ∧ DocAll (fun p is => ∀ n o ks ps, Edition.library.occurs p n = some o → content p n = some (.value (.dateTime :: ks) ps) →
      ∀ l ∈ linesNamed is n, valuesOf l.params c!"VALUE" = [] → ∀ z, otherParam l.params c!"TZID" = some z → z ∈ [c!"", c!"UTC", c!"Local"] ∨ E.loadZone z ≠ none) pre := by
  obtain ⟨pre, rest, h1, h2⟩ := C49_sound_partial E s c h hk
  exact ⟨pre, rest, h1, DocAll.mono (fun _ _ => body_zones) h2⟩

open Rfc in
/-- C80.  The same for all documents, whatever the case of their names. -/
theorem C80_every_document (E : Env) (s : Str) (c : Cal) (h : decodeDoc E s = .ok c) :
    ∃ pre rest, (tokenise s).lines = pre ++ rest ∧ DocEach (fun p is => ∀ n o ks ps, Edition.library.occurs p n = some o → content p n = some (.value (.dateTime :: ks) ps) →
      ∀ l ∈ linesNamed is n, valuesOf l.params c!"VALUE" = [] → ∀ z, otherParam l.params c!"TZID" = some z → z ∈ [c!"", c!"UTC", c!"Local"] ∨ E.loadZone z ≠ none) pre := by
  obtain ⟨pre, rest, h1, h2⟩ := (C49_every_document E s).1 ⟨c, h⟩
  exact ⟨pre, rest, h1, DocEach.mono (fun _ _ => body_zones) h2⟩

/-- A calendar with a time zone of its own, and an event that begins at a local time. -/
def ownZone (ps : List (Str × List PVal)) : List Line := [plainLine kBEGIN c!"VCALENDAR", plainLine c!"VERSION" c!"2.0", plainLine c!"PRODID" c!"x", plainLine kBEGIN c!"VTIMEZONE",
  plainLine c!"TZID" c!"Office", plainLine kBEGIN c!"STANDARD", plainLine c!"DTSTART" c!"19700101T000000", plainLine c!"TZOFFSETTO" c!"+0100", plainLine c!"TZOFFSETFROM" c!"+0100",
  plainLine kEND c!"STANDARD", plainLine kEND c!"VTIMEZONE", plainLine kBEGIN c!"VEVENT", plainLine c!"UID" c!"1", plainLine c!"DTSTAMP" c!"20210729T014000Z",
  ⟨c!"DTSTART", ps, c!"20210729T014000"⟩, plainLine kEND c!"VEVENT", plainLine kEND c!"VCALENDAR"]

/-- C80.  A zone that the document itself defines is not used. -/
theorem C80_own_zone : decodeDoc sampleEnv ((ownZone [(c!"TZID", [⟨false, c!"Office"⟩])]).flatMap printLine) = .err .ext ∧
    decodeDoc sampleEnv ((ownZone []).flatMap printLine) = .ok (sect tabCalendar [(c!"VERSION", val1 0 (.text c!"2.0")), (c!"PRODID", val1 0 (.text c!"x"))]
      [[sect tabEvent [(c!"UID", val1 0 (.text c!"1")), (c!"DTSTAMP", val1 0 (.dateTime ⟨63763119600, 0, .utc⟩)),
          (c!"DTSTART", .fields [] [some (.dateTime ⟨63763119600, 0, .local⟩), none])] [[]]], [], [], [],
        [sect tabTimezone [(c!"TZID", val1 0 (.text c!"Office"))] [[.leaf (sect tabStandard [(c!"DTSTART", .fields [] [some (.dateTime ⟨62135596800, 0, .local⟩), none]),
          (c!"TZOFFSETTO", val1 0 (.utcOffset 3600)), (c!"TZOFFSETFROM", val1 0 (.utcOffset 3600))] [])], []]]]) := by decide +kernel

/-- C80.  The claim as stated in full is false: a counterexample. -/
theorem C80_full_claim_is_false : ¬ C80_claim := by
  intro h
  obtain ⟨h1, h2⟩ := C80_own_zone
  have := h sampleEnv _ ((ownZone [(c!"TZID", [⟨false, c!"Office"⟩])]).flatMap printLine) ((ownZone []).take 14) ((ownZone []).drop 15) c!"20210729T014000" c!"Office" .done _ h2
    ⟨_, List.mem_singleton.2 rfl, (⟨c!"TZID", propTimezoneID, .req⟩, val1 0 (.text c!"Office")), by decide +kernel, rfl, List.mem_singleton.2 rfl⟩
    ⟨⟨63763119600, 0, .local⟩, by decide +kernel, rfl⟩ (by decide +kernel) (by decide +kernel)
  rw [h1] at this
  cases this

end Ics.Props
