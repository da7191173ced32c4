import Verif.WholeLemmas
import Verif.Props.Recur
/-!
# A sample calendar for the theorems about whole documents
-/

namespace Ics.Props

open Spec

/-- A section from named properties. -/
def sect {κ σ : Type} (T : Tab κ) (ps : List (Str × PropVal)) (subs : List (List σ)) : Sect σ :=
  ⟨T.fields.map fun f => (ps.filter (·.1 = f.key)).map (·.2), subs⟩

/-- A property with a single value and no parameters (of the number given). -/
def val1 (n : Nat) (v : Val) : PropVal := .fields (List.replicate n none) [some v]

def sampleAlarm : Sub := .alarm (some (.display, sect tabAlarmDisplay [
  (c!"DESCRIPTION", val1 2 (.text c!"Soon")),
  (c!"TRIGGER", .fields [] [some (.duration { neg := true, minutes := 15 }), none])] []))

def sampleEvent : Comp := sect tabEvent [
  (c!"DTSTAMP", val1 0 (.dateTime ⟨63763119600, 0, .utc⟩)),
  (c!"UID", val1 0 (.text c!"1@example.com")),
  (c!"DTSTART", .fields [] [some (.dateTime ⟨63763119600, 0, .zone c!"Europe/Paris" 7 0⟩), none]),
  (c!"CLASS", .enum 1),
  (c!"SUMMARY", .fields [none, some (.str c!"en")] [some (.text c!"Lunch; with Ann,\nand\\or Bob")]),
  (c!"ATTENDEE", .fields [some (.enum 1), none, some (.enum 2), none, some (.bool true), none, none, none, some (.str c!"Ann: B"), none, none]
    [some (.calAddress ⟨c!"mailto:ann@example.com"⟩)]),
  (c!"ATTENDEE", .fields [none, none, none, none, none, none, none, none, some (.str c!"Bob"), none, none]
    [some (.calAddress ⟨c!"mailto:bob@example.com"⟩)]),
  (c!"RRULE", val1 0 (.recur sampleRecur)),
  (c!"DTEND", .fields [] [none, some (.date ⟨63763113600, 0, .utc⟩)])] [[sampleAlarm]]

def sampleZone : Comp := sect tabTimezone [(c!"TZID", val1 0 (.text c!"Europe/Paris"))]
  [[.leaf (sect tabStandard [
      (c!"DTSTART", .fields [] [some (.dateTime ⟨63763119600, 0, .local⟩), none]),
      (c!"TZOFFSETTO", val1 0 (.utcOffset 3600)),
      (c!"TZOFFSETFROM", val1 0 (.utcOffset (-7200)))] [])], []]

/-- An event in a time zone, with attendees, a rule and an alarm, and the time zone. -/
def sampleCal : Cal := sect tabCalendar [(c!"VERSION", val1 0 (.text c!"2.0")), (c!"PRODID", val1 0 (.text c!"-//x"))]
  [[sampleEvent], [], [], [], [sampleZone]]

theorem sampleCal_typed : sampleCal.typed = true := by decide +kernel
theorem sampleCal_valid : sampleCal.valid = .ok () := by decide +kernel

instance {κ σ : Type} (T : Tab κ) (s : Sect σ) (n : Str) : Decidable (Has T s n) := by unfold Has; infer_instance

instance {κ σ : Type} (T : Tab κ) (s : Sect σ) : (r : Rule) → Decidable (Holds T s r)
  | .notBoth _ _ => by unfold Holds; infer_instance
  | .needs _ _ => by unfold Holds; infer_instance
  | .onlyOne _ _ => by unfold Holds; infer_instance
  | .anySub => decidable_of_iff (s.subs.any (fun x => !x.isEmpty) = true) (by
      unfold Holds
      simp)

instance {κ σ : Type} (T : Tab κ) (s : Sect σ) : Decidable (SectRules T s) := by unfold SectRules; infer_instance

instance {κ σ : Type} (P : κ → σ → Prop) [∀ k s, Decidable (P k s)] (T : Tab κ) (s : Sect σ) : Decidable (Below P T s) := by
  unfold Below; infer_instance

instance : (k : SubKind) → (s : Sub) → Decidable (SubRules k s)
  | .leaf T, .leaf s => by unfold SubRules; infer_instance
  | .alarm, .alarm (some (a, s)) => by unfold SubRules; infer_instance
  | .alarm, .alarm none => .isTrue trivial
  | .alarm, .leaf _ => .isTrue trivial
  | .leaf _, .alarm _ => .isTrue trivial

instance (c : Cal) : Decidable (CalRules c) := by unfold CalRules; infer_instance

instance : (k : SubKind) → (s : Sub) → Decidable (NotNil k s)
  | .leaf _, _ => .isTrue (by simp [NotNil])
  | .alarm, .alarm (some _) => .isTrue trivial
  | .alarm, .alarm none => .isFalse id
  | .alarm, .leaf _ => .isTrue trivial

instance (c : Cal) : Decidable (NoNilAlarm c) := by unfold NoNilAlarm; infer_instance

theorem sampleCal_rules : CalRules sampleCal := by decide +kernel

/-- The document, unfolded. -/
def sampleDoc : Str := List.flatten [
  c!"BEGIN:VCALENDAR\r\nVERSION:2.0\r\nPRODID:-//x\r\nBEGIN:VEVENT\r\nDTSTAMP:20210729T014000Z\r\nUID:1@example.com\r\n",
  c!"DTSTART;TZID=Europe/Paris:20210729T024000\r\nCLASS:PRIVATE\r\nSUMMARY;LANGUAGE=en:Lunch\\; with Ann\\,\\nand\\\\or Bob\r\n",
  c!"RRULE:FREQ=MONTHLY;COUNT=12;INTERVAL=2;BYHOUR=8,17;BYDAY=1MO,-1FR,WE;BYMONTHDAY=-1,15;BYMONTH=1,12;BYSETPOS=-366;WKST=MO\r\n",
  c!"DTEND;VALUE=DATE:20210729\r\nATTENDEE;CUTYPE=INDIVIDUAL;ROLE=CHAIR;RSVP=TRUE;CN=\"Ann: B\":mailto:ann@example.com\r\n",
  c!"ATTENDEE;CN=Bob:mailto:bob@example.com\r\nBEGIN:VALARM\r\nACTION:DISPLAY\r\nDESCRIPTION:Soon\r\nTRIGGER:-PT15M\r\nEND:VALARM\r\n",
  c!"END:VEVENT\r\nBEGIN:VTIMEZONE\r\nTZID:Europe/Paris\r\nBEGIN:STANDARD\r\nDTSTART:20210729T014000\r\nTZOFFSETTO:0100\r\n",
  c!"TZOFFSETFROM:-0200\r\nEND:STANDARD\r\nEND:VTIMEZONE\r\nEND:VCALENDAR\r\n"]

theorem sampleCal_doc : encodeDoc sampleEnv sampleCal = some sampleDoc := by decide +kernel

/-! ## Its properties are good -/

theorem NoCtl_all {s : Str} (h : s.all (fun c => decide (32 ≤ c.toNat ∧ c.toNat ≠ 127 ∨ c.toNat = 9)) = true) : ∀ c ∈ s, NoCtl c := by
  intro c hc
  have := List.all_eq_true.1 h c hc
  simpa [NoCtl] using this

theorem Plain_all {s : Str} (h : s.all (fun c => decide ((32 ≤ c.toNat ∧ c.toNat ≠ 127 ∨ c.toNat = 9) ∧ c.toNat ≠ 94 ∧ c.toNat ≠ 34)) = true) :
    PlainText s := by
  intro c hc
  have := List.all_eq_true.1 h c hc
  simpa [NoCtl] using this

theorem sampleCal_params : ∀ x ∈ calProps sampleCal, ∀ y ∈ propParams x.1.spec x.2, GoodParam y.1.kind y.2 := by
  have h : ∀ y ∈ (calProps sampleCal).flatMap (fun x => propParams x.1.spec x.2), y ∈ [
      (paramLanguage, ParamVal.str c!"en"), (paramCalendarUserType, .enum 1), (paramParticipationRole, .enum 2), (paramRSVP, .bool true),
      (paramCommonName, .str c!"Ann: B"), (paramCommonName, .str c!"Bob")] := by decide +kernel
  intro x hx y hy
  have := h y (List.mem_flatMap.2 ⟨x, hx, hy⟩)
  simp only [List.mem_cons, List.not_mem_nil, or_false] at this
  rcases this with rfl | rfl | rfl | rfl | rfl | rfl
  · exact .str _ _ (by decide) (Plain_all (by decide))
  · exact .names _ _ (by decide)
  · exact .names _ _ (by decide)
  · exact .bool
  · exact .str _ _ (by decide) (Plain_all (by decide))
  · exact .str _ _ (by decide) (Plain_all (by decide))

theorem sampleTime (l : Loc) (h : l = .utc ∨ l = .local ∨ l = .zone c!"Europe/Paris" 7 0) : TimeOk sampleEnv ⟨63763119600, 0, l⟩ := by
  rcases h with rfl | rfl | rfl
  · exact ⟨rfl, by decide +kernel, by decide +kernel, trivial, by decide +kernel⟩
  · exact ⟨rfl, by decide +kernel, by decide +kernel, trivial, by decide +kernel⟩
  · exact ⟨rfl, by decide +kernel, by decide +kernel, ⟨by decide, by decide, by decide, rfl⟩, by decide +kernel⟩

theorem sampleCal_values : ∀ x ∈ calProps sampleCal, ∀ v ∈ propVals x.2, ValOk sampleEnv v ∧
    ∀ n, v.tzid = some n → ∀ c ∈ n, BareChar c := by
  have h : ∀ v ∈ (calProps sampleCal).flatMap (fun x => propVals x.2), v ∈ [
      .dateTime ⟨63763119600, 0, .utc⟩, .dateTime ⟨63763119600, 0, .local⟩, .dateTime ⟨63763119600, 0, .zone c!"Europe/Paris" 7 0⟩,
      .date ⟨63763113600, 0, .utc⟩, .recur sampleRecur, .calAddress ⟨c!"mailto:ann@example.com"⟩, .calAddress ⟨c!"mailto:bob@example.com"⟩,
      .duration { neg := true, minutes := 15 }, .utcOffset 3600, .utcOffset (-7200)] ∨ v.kind = .text := by decide +kernel
  intro x hx v hv
  have := h v (List.mem_flatMap.2 ⟨x, hx, hv⟩)
  simp only [List.mem_cons, List.not_mem_nil, or_false] at this
  rcases this with (rfl | rfl | rfl | rfl | rfl | rfl | rfl | rfl | rfl | rfl) | h
  · exact ⟨sampleTime _ (Or.inl rfl), fun n h => by cases h⟩
  · exact ⟨sampleTime _ (Or.inr (Or.inl rfl)), fun n h => by cases h⟩
  · refine ⟨sampleTime _ (Or.inr (Or.inr rfl)), fun n h => ?_⟩
    cases h
    unfold BareChar NoCtl
    decide
  · exact ⟨⟨rfl, rfl, by decide, by decide +kernel, by decide +kernel⟩, fun n h => by cases h⟩
  · refine ⟨⟨?_, ⟨fun _ => ⟨rfl, rfl⟩, fun h => absurd h (by decide), fun h => absurd h (by decide)⟩⟩, fun n h => by cases h⟩
    constructor <;> (try unfold Ordinal) <;> decide
  · exact ⟨⟨rfl, NoCtl_all (by decide)⟩, fun n h => by cases h⟩
  · exact ⟨⟨rfl, NoCtl_all (by decide)⟩, fun n h => by cases h⟩
  · exact ⟨⟨by constructor <;> decide, by decide⟩, fun n h => by cases h⟩
  · exact ⟨by unfold ValOk; decide, fun n h => by cases h⟩
  · exact ⟨by unfold ValOk; decide, fun n h => by cases h⟩
  · cases v <;> simp [Val.kind] at h
    exact ⟨trivial, fun n h => by cases h⟩

end Ics.Props
