import Verif.RfcLemmas
/-!
# The grammar of accepted documents against the lists of RFC 5545
-/

namespace Ics

open Spec Spec.Rfc

variable {κ σ : Type}

theorem divided_exists {E : Env} (p : Part) {T : Tab κ} (hw : T.Wf) {R : κ → List Line → σ → Prop} (hb : p.block = T.name) (hi : p.inside = T.subs.map (·.1))
    (hp : partFields p = T.fields)
    (hl : (∀ x ∈ T.rules.map (lawOf (T.subs.map (·.1))), x ∈ libLaws p) ∧ ∀ x ∈ libLaws p, x ∈ T.rules.map (lawOf (T.subs.map (·.1))))
    (hr : ∀ r ∈ T.rules, ∀ n ∈ ruleNames r, n ∈ T.fields.map (·.key)) (k : List Line) :
    (∃ s, ExactSect E T R k s) ↔ ∃ is, Divided p k is ∧ BodyOk .library E p is ∧ ∀ x ∈ T.subs, ∀ b ∈ blocksNamed is x.1, ∃ y, R x.2 b y := by
  unfold ExactSect Divided
  rw [hb, hi]
  constructor
  · rintro ⟨s, k, e, is, rfl, h1, h2, h3, h4⟩
    obtain ⟨g1, g2, g3⟩ := (filled_exists hw hr is).1 ⟨s, h4⟩
    exact ⟨is, ⟨k, e, rfl, h1, h2, h3⟩, (body_iff p hw hp hl is).2 ⟨g1, g3⟩, g2⟩
  · rintro ⟨is, ⟨k, e, rfl, h1, h2, h3⟩, h4, g2⟩
    obtain ⟨g1, g3⟩ := (body_iff p hw hp hl is).1 h4
    obtain ⟨s, hs⟩ := (filled_exists hw hr is).2 ⟨g1, g2, g3⟩
    exact ⟨s, k, e, is, rfl, h1, h2, h3, hs⟩

theorem divided_leaf {E : Env} (p : Part) {T : Tab Empty} (hw : T.Wf) (hs : T.subs = []) (hb : p.block = T.name) (hi : p.inside = []) (hp : partFields p = T.fields)
    (hl : (∀ x ∈ T.rules.map (lawOf (T.subs.map (·.1))), x ∈ libLaws p) ∧ ∀ x ∈ libLaws p, x ∈ T.rules.map (lawOf (T.subs.map (·.1))))
    (hr : ∀ r ∈ T.rules, ∀ n ∈ ruleNames r, n ∈ T.fields.map (·.key)) (k : List Line) :
    (∃ s : Leaf, ExactSect E T (fun x => nomatch x) k s) ↔ ∃ is, Divided p k is ∧ BodyOk .library E p is := by
  rw [divided_exists p hw hb (by rw [hi, hs]; rfl) hp hl hr]
  constructor
  · rintro ⟨is, h1, h2, _⟩; exact ⟨is, h1, h2⟩
  · rintro ⟨is, h1, h2⟩; exact ⟨is, h1, h2, by rw [hs]; simp⟩

theorem exactLeaf_exists {E : Env} {T : Tab Empty} (k : List Line) : (∃ y, ExactSub E (.leaf T) k y) ↔ ∃ s : Leaf, ExactSect E T (fun x => nomatch x) k s := by
  constructor
  · rintro ⟨y, h⟩
    cases y with
    | leaf s => exact ⟨s, h⟩
    | alarm a => exact absurd h id
  · rintro ⟨s, h⟩
    exact ⟨.leaf s, h⟩

theorem exactAlarm_exists {E : Env} (k : List Line) : (∃ y, ExactSub E .alarm k y) ↔ AlarmEach (BodyOk .library E) k := by
  have hleaf : ∀ (a : AKind) (k : List Line), (∃ s : Leaf, ExactSect E a.tab (fun x => nomatch x) k s) ↔ ∃ is, Divided (.alarm a) k is ∧ BodyOk .library E (.alarm a) is := by
    intro a k
    exact divided_leaf (.alarm a) (aTab_wf a) (by cases a <;> rfl) (by cases a <;> rfl) rfl rfl (by cases a <;> decide) (by cases a <;> decide) k
  unfold AlarmEach
  constructor
  · rintro ⟨y, h⟩
    cases y with
    | leaf s => exact absurd h id
    | alarm a =>
      cases a with
      | none => exact absurd h id
      | some a =>
        obtain ⟨a, s⟩ := a
        obtain ⟨body, e, h0, h1, h2, ⟨us, h3, h4⟩, p, q, h5, h6⟩ := h
        obtain ⟨is, g1, g2⟩ := (hleaf a p).1 ⟨s, h6⟩
        exact ⟨body, e, h0, h1, h2, us, a, by rw [← action_eq]; exact h3, fun u hu b => by rw [← action_eq]; exact h4 u hu b, p, q, is, h5, g1, g2⟩
  · rintro ⟨body, e, h0, h1, h2, us, a, h3, h4, p, q, is, h5, g1, g2⟩
    obtain ⟨s, hs⟩ := (hleaf a p).2 ⟨is, g1, g2⟩
    exact ⟨.alarm (some (a, s)), body, e, h0, h1, h2, ⟨us, by rw [action_eq]; exact h3, fun u hu b => by rw [action_eq]; exact h4 u hu b⟩, p, q, h5, hs⟩

theorem exactComp_exists {E : Env} (p : Part) {T : Tab SubKind} (hw : T.Wf) (hb : p.block = T.name) (hi : p.inside = T.subs.map (·.1)) (hp : partFields p = T.fields)
    (hl : (∀ x ∈ T.rules.map (lawOf (T.subs.map (·.1))), x ∈ libLaws p) ∧ ∀ x ∈ libLaws p, x ∈ T.rules.map (lawOf (T.subs.map (·.1))))
    (hr : ∀ r ∈ T.rules, ∀ n ∈ ruleNames r, n ∈ T.fields.map (·.key))
    (hin : ∀ is, InnerEach (BodyOk .library E) p is ↔ ∀ x ∈ T.subs, ∀ b ∈ blocksNamed is x.1, ∃ y, ExactSub E x.2 b y) (k : List Line) :
    (∃ s, ExactComp E T k s) ↔ ComponentEach (BodyOk .library E) p k := by
  unfold ExactComp ComponentEach
  rw [divided_exists p hw hb hi hp hl hr]
  simp only [hin]

theorem exactStandard_exists {E : Env} (k : List Line) : (∃ y, ExactSub E (.leaf tabStandard) k y) ↔ ∃ is, Divided .standard k is ∧ BodyOk .library E .standard is :=
  (exactLeaf_exists k).trans (divided_leaf .standard (Tab.wf_iff (by decide)) rfl rfl rfl rfl (by decide) (by decide) k)

theorem exactDaylight_exists {E : Env} (k : List Line) : (∃ y, ExactSub E (.leaf tabDaylight) k y) ↔ ∃ is, Divided .daylight k is ∧ BodyOk .library E .daylight is :=
  (exactLeaf_exists k).trans (divided_leaf .daylight (Tab.wf_iff (by decide)) rfl rfl rfl rfl (by decide) (by decide) k)

theorem exactComps_exist {E : Env} (x : Str × Tab SubKind) (hx : x ∈ tabCalendar.subs) : ∃ p ∈ [Part.event, .todo, .journal, .freeBusy, .timezone],
    p.block = x.1 ∧ ∀ k, (∃ s, ExactComp E x.2 k s) ↔ ComponentEach (BodyOk .library E) p k := by
  have hw := (compTab_good x hx).1
  simp only [tabCalendar, List.mem_cons, List.not_mem_nil, or_false] at hx
  rcases hx with rfl | rfl | rfl | rfl | rfl
  · refine ⟨.event, by decide, rfl, exactComp_exists .event hw rfl rfl rfl (by decide) (by decide) fun is => ?_⟩
    simp only [InnerEach, ← exactAlarm_exists]
    simp [tabEvent]
  · refine ⟨.todo, by decide, rfl, exactComp_exists .todo hw rfl rfl rfl (by decide) (by decide) fun is => ?_⟩
    simp only [InnerEach, ← exactAlarm_exists]
    simp [tabTodo]
  · exact ⟨.journal, by decide, rfl, exactComp_exists .journal hw rfl rfl rfl (by decide) (by decide) fun is => by simp [InnerEach, tabJournal]⟩
  · exact ⟨.freeBusy, by decide, rfl, exactComp_exists .freeBusy hw rfl rfl rfl (by decide) (by decide) fun is => by simp [InnerEach, tabFreeBusy]⟩
  · refine ⟨.timezone, by decide, rfl, exactComp_exists .timezone hw rfl rfl rfl (by decide) (by decide) fun is => ?_⟩
    simp only [InnerEach, ← exactStandard_exists, ← exactDaylight_exists]
    simp [tabTimezone]

/-- A document is accepted exactly if it is as the specification says. -/
theorem exactDoc_exists {E : Env} (ls : List Line) : (∃ c, ExactDoc E ls c) ↔ DocEach (BodyOk .library E) ls := by
  unfold ExactDoc DocEach
  have hs := fun k => divided_exists (E := E) (R := ExactComp E) .calendar calTab_wf rfl rfl rfl (by decide) (by decide) k
  have hin : ∀ is, (∀ x ∈ tabCalendar.subs, ∀ b ∈ blocksNamed is x.1, ∃ y, ExactComp E x.2 b y) ↔
      ∀ p ∈ [Part.event, .todo, .journal, .freeBusy, .timezone], ∀ j ∈ blocksNamed is p.block, ComponentEach (BodyOk .library E) p j := by
    intro is
    constructor
    · intro h p hp j hj
      have hx : ∃ x ∈ tabCalendar.subs, x.1 = p.block := by
        have : ∀ p ∈ [Part.event, .todo, .journal, .freeBusy, .timezone], p.block ∈ tabCalendar.subs.map (·.1) := by decide
        obtain ⟨x, hx, he⟩ := List.mem_map.1 (this p hp)
        exact ⟨x, hx, he⟩
      obtain ⟨x, hx, he⟩ := hx
      obtain ⟨q, hq, hqb, hqe⟩ := exactComps_exist (E := E) x hx
      have := part_block hp hq (by rw [hqb, he])
      subst this
      exact (hqe j).1 (h x hx j (by rw [he]; exact hj))
    · intro h x hx b hb
      obtain ⟨q, hq, hqb, hqe⟩ := exactComps_exist (E := E) x hx
      exact (hqe b).2 (h q hq b (by rw [hqb]; exact hb))
  constructor
  · rintro ⟨c, b, k, rfl, h1, h2⟩
    obtain ⟨is, h3, h4, h5⟩ := (hs k).1 ⟨c, h2⟩
    exact ⟨b, k, is, rfl, h1, h3, h4, (hin is).1 h5⟩
  · rintro ⟨b, k, is, rfl, h1, h3, h4, h5⟩
    obtain ⟨c, hc⟩ := (hs k).2 ⟨is, h3, h4, (hin is).2 h5⟩
    exact ⟨c, b, k, rfl, h1, hc⟩

theorem AlarmEach.mono {P Q : PartClaim} (h : ∀ p is, P p is → Q p is) {k : List Line} (ha : AlarmEach P k) : AlarmEach Q k := by
  obtain ⟨body, e, h0, h1, h2, us, a, h3, h4, p, q, is, h5, g1, g2⟩ := ha
  exact ⟨body, e, h0, h1, h2, us, a, h3, h4, p, q, is, h5, g1, h _ _ g2⟩

theorem InnerEach.mono {P Q : PartClaim} (h : ∀ p is, P p is → Q p is) {p : Part} {is : List Item} (ha : InnerEach P p is) : InnerEach Q p is := by
  cases p with
  | event => exact fun k hk => AlarmEach.mono h (ha k hk)
  | todo => exact fun k hk => AlarmEach.mono h (ha k hk)
  | timezone =>
    exact ⟨fun k hk => (ha.1 k hk).imp fun js g => ⟨g.1, h _ _ g.2⟩, fun k hk => (ha.2 k hk).imp fun js g => ⟨g.1, h _ _ g.2⟩⟩
  | _ => trivial

theorem DocEach.mono {P Q : PartClaim} (h : ∀ p is, P p is → Q p is) {ls : List Line} (ha : DocEach P ls) : DocEach Q ls := by
  obtain ⟨b, k, is, h1, h2, h3, h4, h5⟩ := ha
  refine ⟨b, k, is, h1, h2, h3, h _ _ h4, fun p hp j hj => ?_⟩
  obtain ⟨js, g1, g2, g3⟩ := h5 p hp j hj
  exact ⟨js, g1, h _ _ g2, InnerEach.mono h g3⟩

end Ics
