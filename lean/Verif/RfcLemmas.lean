import Verif.Spec.RfcExact
import Verif.PropLineLemmas
import Verif.DecodedLemmas
/-!
# The tables of the model against the lists of RFC 5545
-/

namespace Ics

open Spec Spec.Rfc

variable {κ σ : Type}

/-! ## Tables -/

/-- The table of a component. -/
def partFields : Part → List SField
  | .calendar => tabCalendar.fields
  | .event => tabEvent.fields
  | .todo => tabTodo.fields
  | .journal => tabJournal.fields
  | .freeBusy => tabFreeBusy.fields
  | .timezone => tabTimezone.fields
  | .standard => tabStandard.fields
  | .daylight => tabDaylight.fields
  | .alarm a => a.tab.fields

def occOf : Mult → Occ
  | .req => .one
  | .opt => .upToOne
  | .many => .any

/-- What the table says about a name. -/
def fieldFor (fs : List SField) (n : Str) : Option (Occ × Shape) := (fs.find? fun f => f.key = n).map fun f => (occOf f.mult, f.spec.shape)

/-- What the specification says. -/
def specFor (p : Part) (n : Str) : Option (Occ × Shape) := (libOccurs p n).bind fun o => (content p n).map fun t => (o, t.shape)

/-- All names that either of them mentions. -/
def partNames (p : Part) : List Str := (partFields p).map (·.key) ++ (properties p).flatMap (·.2) ++ (changes p).map (·.1)

def allParts : List Part := [.calendar, .event, .todo, .journal, .freeBusy, .timezone, .standard, .daylight, .alarm .audio, .alarm .display, .alarm .email,
  .alarm .uri, .alarm .none]

theorem mem_allParts (p : Part) : p ∈ allParts := by
  cases p with
  | alarm a => cases a <;> decide
  | _ => decide

theorem tables_agree : ∀ p ∈ allParts, ∀ n ∈ partNames p, fieldFor (partFields p) n = specFor p n := by decide +kernel

theorem table_is_spec (p : Part) (n : Str) : fieldFor (partFields p) n = specFor p n := by
  by_cases h : n ∈ partNames p
  · exact tables_agree p (mem_allParts p) n h
  · unfold partNames at h
    simp only [List.mem_append, not_or] at h
    obtain ⟨⟨h1, h2⟩, h3⟩ := h
    have e1 : fieldFor (partFields p) n = none := by
      unfold fieldFor
      rw [List.find?_eq_none.2]
      · rfl
      · intro f hf hk
        exact h1 (List.mem_map.2 ⟨f, hf, by simpa using hk⟩)
    have e2 : libOccurs p n = none := by
      unfold libOccurs
      rw [List.find?_eq_none.2]
      · unfold occurs
        dsimp only
        rw [List.find?_eq_none.2]
        · rfl
        · intro x hx hk
          exact h2 (List.mem_flatMap.2 ⟨x, hx, by simpa using hk⟩)
      · intro x hx hk
        exact h3 (List.mem_map.2 ⟨x, hx, by simpa using hk⟩)
    rw [e1]
    unfold specFor
    rw [e2]
    rfl

theorem find_key {fs : List SField} (h : (fs.map (·.key)).Nodup) {f : SField} (hf : f ∈ fs) : (fs.find? fun g => g.key = f.key) = some f := by
  induction fs with
  | nil => cases hf
  | cons g gs ih =>
    rw [List.find?_cons]
    rw [List.map_cons, List.nodup_cons] at h
    rcases List.mem_cons.1 hf with rfl | hf
    · simp
    · have : g.key ≠ f.key := fun he => h.1 (he ▸ List.mem_map.2 ⟨f, hf, rfl⟩)
      simp [this, ih h.2 hf]

/-- The properties of a component, as the table has them. -/
theorem propsOk_iff {E : Env} {p : Part} (hn : ((partFields p).map (·.key)).Nodup) (hw : ∀ f ∈ partFields p, f.spec.wf = true) (is : List Item) :
    PropsOk .library E p is ↔ ∀ f ∈ partFields p, CountOk f.mult (linesNamed is f.key).length ∧
      ∀ l ∈ linesNamed is f.key, ∃ r, f.spec.decode E l.params l.value = .ok r := by
  have hc : ∀ m n, (occOf m).ok n ↔ CountOk m n := by intro m n; cases m <;> exact Iff.rfl
  constructor
  · intro h f hf
    have h1 := table_is_spec p f.key
    unfold fieldFor at h1
    rw [find_key hn hf] at h1
    unfold specFor at h1
    cases ho : libOccurs p f.key with
    | none => rw [ho] at h1; cases h1
    | some o =>
      cases ht : content p f.key with
      | none => rw [ho, ht] at h1; cases h1
      | some t =>
        rw [ho, ht] at h1
        simp only [Option.map_some, Option.bind_some, Option.some.injEq, Prod.mk.injEq] at h1
        obtain ⟨h2, h3⟩ := h _ _ _ ho ht
        refine ⟨(hc _ _).1 (h1.1 ▸ h2), fun l hl => ?_⟩
        obtain ⟨r, hr⟩ := h3 l hl
        exact ⟨r, (PSpec.decode_iff (hw f hf) _ _ _).2 (h1.2 ▸ hr)⟩
  · intro h n o t ho ht
    change libOccurs p n = some o at ho
    have h1 := table_is_spec p n
    unfold specFor at h1
    rw [ho, ht] at h1
    simp only [Option.map_some, Option.bind_some] at h1
    unfold fieldFor at h1
    obtain ⟨f, hf, he⟩ := Option.map_eq_some_iff.1 h1
    have hm := List.mem_of_find?_eq_some hf
    have hk : f.key = n := by simpa using List.find?_some hf
    subst hk
    simp only [Prod.mk.injEq] at he
    obtain ⟨h2, h3⟩ := h f hm
    refine ⟨he.1 ▸ (hc _ _).2 h2, fun l hl => ?_⟩
    obtain ⟨r, hr⟩ := h3 l hl
    exact ⟨r, he.2 ▸ (PSpec.decode_iff (hw f hm) _ _ _).1 hr⟩

/-! ## Existence of a section -/

theorem pairwise2_exists {α β : Type} {R : α → β → Prop} {as : List α} : (∀ a ∈ as, ∃ b, R a b) ↔ ∃ bs, Pairwise2 R as bs := by
  constructor
  · intro h
    induction as with
    | nil => exact ⟨[], .nil⟩
    | cons a as ih =>
      obtain ⟨b, hb⟩ := h a (by simp)
      obtain ⟨bs, hbs⟩ := ih fun x hx => h x (by simp [hx])
      exact ⟨b :: bs, .cons hb hbs⟩
  · rintro ⟨bs, h⟩
    induction h with
    | nil => intro a h; cases h
    | cons h1 _ ih =>
      intro a ha
      rcases List.mem_cons.1 ha with rfl | ha
      · exact ⟨_, h1⟩
      · exact ih a ha

/-- The rules of a table, as rules of the specification. -/
def lawOf (subs : List Str) : Rule → Law
  | .notBoth a b => .notBoth a b
  | .needs a b => .needs a b
  | .onlyOne a b => .notBothNorNone a b
  | .anySub => .block subs

def ruleNames : Rule → List Str
  | .notBoth a b => [a, b]
  | .needs a b => [a, b]
  | .onlyOne a b => [a, b]
  | .anySub => []

theorem has_iff_lines {E : Env} {T : Tab κ} (hw : T.Wf) {s : Sect σ} {is : List Item} (l1 : s.fields.length = T.fields.length)
    (hf : ∀ (i : Nat) (f : SField), T.fields[i]? = some f →
      Pairwise2 (fun l p => f.spec.decode E l.params l.value = .ok p) (linesNamed is f.key) (s.fields.getD i [])) {n : Str}
    (hn : n ∈ T.fields.map (·.key)) : Has T s n ↔ linesNamed is n ≠ [] := by
  rw [← hasField_iff T hw s l1.symm n]
  unfold hasField
  cases hi : fieldIdx n T.fields with
  | none => exact absurd hn (fieldIdx_none.1 hi)
  | some i =>
    obtain ⟨f, hf1, rfl⟩ := fieldIdx_some hi
    have hl := Pairwise2.length (hf i f hf1)
    dsimp only
    rw [bne_iff_ne]
    constructor
    · intro h h0
      rw [h0] at hl
      exact h (List.length_eq_zero_iff.1 hl.symm)
    · intro h h0
      rw [h0] at hl
      exact h (List.length_eq_zero_iff.1 hl)

theorem filled_exists {E : Env} {T : Tab κ} (hw : T.Wf) {R : κ → List Line → σ → Prop} (hr : ∀ r ∈ T.rules, ∀ n ∈ ruleNames r, n ∈ T.fields.map (·.key))
    (is : List Item) : (∃ s, Filled E T R is s) ↔
      (∀ f ∈ T.fields, CountOk f.mult (linesNamed is f.key).length ∧ ∀ l ∈ linesNamed is f.key, ∃ r, f.spec.decode E l.params l.value = .ok r) ∧
      (∀ x ∈ T.subs, ∀ b ∈ blocksNamed is x.1, ∃ y, R x.2 b y) ∧ ∀ r ∈ T.rules, (lawOf (T.subs.map (·.1)) r).ok is := by
  have hrule : ∀ (s : Sect σ) (is : List Item), s.fields.length = T.fields.length → s.subs.length = T.subs.length →
      (∀ (i : Nat) (f : SField), T.fields[i]? = some f →
        Pairwise2 (fun l p => f.spec.decode E l.params l.value = .ok p) (linesNamed is f.key) (s.fields.getD i [])) →
      (∀ (i : Nat) (x : Str × κ), T.subs[i]? = some x → Pairwise2 (R x.2) (blocksNamed is x.1) (s.subs.getD i [])) →
      ∀ r ∈ T.rules, (Holds T s r ↔ (lawOf (T.subs.map (·.1)) r).ok is) := by
    intro s is l1 l2 hf hs r hrm
    have hh := fun n hn => has_iff_lines hw l1 hf (n := n) (hr r hrm n hn)
    cases r with
    | notBoth a b => simp only [Holds, lawOf, Law.ok]; rw [hh a (by simp [ruleNames]), hh b (by simp [ruleNames])]
    | needs a b => simp only [Holds, lawOf, Law.ok]; rw [hh a (by simp [ruleNames]), hh b (by simp [ruleNames])]
    | onlyOne a b =>
      simp only [Holds, lawOf, Law.ok]
      rw [hh a (by simp [ruleNames]), hh b (by simp [ruleNames])]
      by_cases h1 : linesNamed is a = [] <;> by_cases h2 : linesNamed is b = [] <;> simp [h1, h2]
    | anySub =>
      simp only [Holds, lawOf, Law.ok]
      constructor
      · rintro ⟨xs, hx, hne⟩
        obtain ⟨i, hlt, rfl⟩ := List.mem_iff_getElem.1 hx
        have hlt2 : i < T.subs.length := by omega
        have hp := Pairwise2.length (hs i _ (List.getElem?_eq_getElem hlt2))
        refine ⟨T.subs[i].1, List.mem_map.2 ⟨_, List.getElem_mem hlt2, rfl⟩, fun h0 => ?_⟩
        rw [h0, List.getD_eq_getElem?_getD, List.getElem?_eq_getElem hlt] at hp
        exact hne (List.length_eq_zero_iff.1 hp.symm)
      · rintro ⟨n, hn, hne⟩
        obtain ⟨x, hx, rfl⟩ := List.mem_map.1 hn
        obtain ⟨i, hlt, rfl⟩ := List.mem_iff_getElem.1 hx
        have hlt2 : i < s.subs.length := by omega
        have hp := Pairwise2.length (hs i _ (List.getElem?_eq_getElem hlt))
        rw [List.getD_eq_getElem?_getD, List.getElem?_eq_getElem hlt2] at hp
        refine ⟨_, List.getElem_mem hlt2, fun h0 => hne ?_⟩
        rw [Option.getD_some, h0] at hp
        exact List.length_eq_zero_iff.1 hp
  constructor
  · rintro ⟨s, l1, l2, hf, hs, hrul⟩
    refine ⟨fun f hm => ?_, fun x hm => ?_, fun r hm => ?_⟩
    · obtain ⟨i, hlt, rfl⟩ := List.mem_iff_getElem.1 hm
      obtain ⟨h1, h2⟩ := hf i _ (List.getElem?_eq_getElem hlt)
      exact ⟨h2, pairwise2_exists.2 ⟨_, h1⟩⟩
    · obtain ⟨i, hlt, rfl⟩ := List.mem_iff_getElem.1 hm
      exact pairwise2_exists.2 ⟨_, hs i _ (List.getElem?_eq_getElem hlt)⟩
    · exact (hrule s is l1 l2 (fun i f h => (hf i f h).1) hs r hm).1 (hrul r hm)
  · rintro ⟨hf, hs, hrul⟩
    obtain ⟨fs, h1⟩ := (pairwise2_exists (as := T.fields)
      (R := fun f vs => Pairwise2 (fun l p => f.spec.decode E l.params l.value = .ok p) (linesNamed is f.key) vs)).1
      fun f hm => pairwise2_exists.1 (hf f hm).2
    obtain ⟨ss, h2⟩ := (pairwise2_exists (as := T.subs) (R := fun x ys => Pairwise2 (R x.2) (blocksNamed is x.1) ys)).1
      fun x hm => pairwise2_exists.1 (hs x hm)
    obtain ⟨l1, h1⟩ := (pairwise2_iff []).1 h1
    obtain ⟨l2, h2⟩ := (pairwise2_iff []).1 h2
    refine ⟨⟨fs, ss⟩, l1, l2, fun i f h => ⟨h1 i f h, (hf f (List.mem_of_getElem? h)).1⟩, h2, fun r hm => ?_⟩
    exact (hrule ⟨fs, ss⟩ is l1 l2 h1 h2 r hm).2 (hrul r hm)

theorem sect_exists {E : Env} {T : Tab κ} (hw : T.Wf) {R : κ → List Line → σ → Prop} (hr : ∀ r ∈ T.rules, ∀ n ∈ ruleNames r, n ∈ T.fields.map (·.key))
    (k : List Line) : (∃ s, SectReads E T R k s) ↔ ∃ is, Items k is ∧
      (∀ f ∈ T.fields, CountOk f.mult (linesNamed is f.key).length ∧ ∀ l ∈ linesNamed is f.key, ∃ r, f.spec.decode E l.params l.value = .ok r) ∧
      (∀ x ∈ T.subs, ∀ b ∈ blocksNamed is x.1, ∃ y, R x.2 b y) ∧ ∀ r ∈ T.rules, (lawOf (T.subs.map (·.1)) r).ok is := by
  simp only [← filled_exists hw hr]
  exact ⟨fun ⟨s, is, hi, h⟩ => ⟨is, hi, s, h⟩, fun ⟨is, hi, s, h⟩ => ⟨s, is, hi, h⟩⟩

/-! ## Documents -/

/-- The laws of a table are those of the specification. -/
theorem laws_agree {A B : List Law} (h : (∀ x ∈ A, x ∈ B) ∧ ∀ x ∈ B, x ∈ A) (is : List Item) : (∀ x ∈ A, x.ok is) ↔ ∀ x ∈ B, x.ok is :=
  ⟨fun g x hx => g x (h.2 x hx), fun g x hx => g x (h.1 x hx)⟩

/-- A body, as the table of the component has it. -/
theorem body_iff {E : Env} (p : Part) {T : Tab κ} (hw : T.Wf) (hp : partFields p = T.fields)
    (hl : (∀ x ∈ T.rules.map (lawOf (T.subs.map (·.1))), x ∈ libLaws p) ∧ ∀ x ∈ libLaws p, x ∈ T.rules.map (lawOf (T.subs.map (·.1)))) (is : List Item) :
    BodyOk .library E p is ↔ (∀ f ∈ T.fields, CountOk f.mult (linesNamed is f.key).length ∧ ∀ l ∈ linesNamed is f.key, ∃ r, f.spec.decode E l.params l.value = .ok r) ∧
      ∀ r ∈ T.rules, (lawOf (T.subs.map (·.1)) r).ok is := by
  unfold BodyOk
  change _ ∧ (∀ x ∈ libLaws p, x.ok is) ↔ _
  rw [propsOk_iff (by rw [hp]; exact hw.keys) (by rw [hp]; exact fun f hf => (hw.field f hf).spec), hp, ← laws_agree hl is]
  simp only [List.mem_map, forall_exists_index, and_imp, forall_apply_eq_imp_iff₂]

/-- A component without components in it. -/
theorem leaf_exists {E : Env} (p : Part) {T : Tab Empty} (hw : T.Wf) (hs : T.subs = []) (hp : partFields p = T.fields)
    (hl : (∀ x ∈ T.rules.map (lawOf (T.subs.map (·.1))), x ∈ libLaws p) ∧ ∀ x ∈ libLaws p, x ∈ T.rules.map (lawOf (T.subs.map (·.1))))
    (hr : ∀ r ∈ T.rules, ∀ n ∈ ruleNames r, n ∈ T.fields.map (·.key)) (k : List Line) :
    (∃ s : Leaf, SectReads E T (fun x => nomatch x) k s) ↔ ∃ is, Items k is ∧ BodyOk .library E p is := by
  rw [sect_exists hw hr]
  constructor
  · rintro ⟨is, hi, hf, _, hrul⟩
    exact ⟨is, hi, (body_iff p hw hp hl is).2 ⟨hf, hrul⟩⟩
  · rintro ⟨is, hi, hb⟩
    obtain ⟨hf, hrul⟩ := (body_iff p hw hp hl is).1 hb
    exact ⟨is, hi, hf, by rw [hs]; simp, hrul⟩

theorem action_eq (a : AKind) : a.action = action a := by cases a <;> rfl

theorem alarm_exists {E : Env} (k : List Line) : (∃ y, SubReads E .alarm k y) ↔ AlarmAll (BodyOk .library E) k := by
  have hleaf : ∀ a : AKind, (∃ s : Leaf, SectReads E a.tab (fun x => nomatch x) k s) ↔ ∃ is, Items k is ∧ BodyOk .library E (.alarm a) is := by
    intro a
    exact leaf_exists (.alarm a) (aTab_wf a) (by cases a <;> rfl) rfl (by cases a <;> decide) (by cases a <;> decide) k
  unfold AlarmAll
  constructor
  · rintro ⟨y, h⟩
    cases y with
    | leaf s => exact absurd h id
    | alarm a =>
      cases a with
      | none => exact absurd h id
      | some a =>
        obtain ⟨a, s⟩ := a
        obtain ⟨h1, ⟨us, h2, h3⟩, h4⟩ := h
        exact ⟨h1, us, a, by rw [← action_eq]; exact h2, fun u hu b => by rw [← action_eq]; exact h3 u hu b, (hleaf a).1 ⟨s, h4⟩⟩
  · rintro ⟨h1, us, a, h2, h3, h4⟩
    obtain ⟨s, hs⟩ := (hleaf a).2 h4
    exact ⟨.alarm (some (a, s)), h1, ⟨us, by rw [action_eq]; exact h2, fun u hu b => by rw [action_eq]; exact h3 u hu b⟩, hs⟩

theorem part_exists {E : Env} (p : Part) {T : Tab Empty} (hw : T.Wf) (hs : T.subs = []) (hp : partFields p = T.fields)
    (hl : (∀ x ∈ T.rules.map (lawOf (T.subs.map (·.1))), x ∈ libLaws p) ∧ ∀ x ∈ libLaws p, x ∈ T.rules.map (lawOf (T.subs.map (·.1))))
    (hr : ∀ r ∈ T.rules, ∀ n ∈ ruleNames r, n ∈ T.fields.map (·.key)) (k : List Line) :
    (∃ y, SubReads E (.leaf T) k y) ↔ ∃ is, Items k is ∧ BodyOk .library E p is := by
  rw [← leaf_exists p hw hs hp hl hr k]
  constructor
  · rintro ⟨y, h⟩
    cases y with
    | leaf s => exact ⟨s, h⟩
    | alarm a => exact absurd h id
  · rintro ⟨s, h⟩
    exact ⟨.leaf s, h⟩

/-- A component of a calendar. -/
theorem comp_exists {E : Env} (p : Part) {T : Tab SubKind} (hw : T.Wf) (hp : partFields p = T.fields)
    (hl : (∀ x ∈ T.rules.map (lawOf (T.subs.map (·.1))), x ∈ libLaws p) ∧ ∀ x ∈ libLaws p, x ∈ T.rules.map (lawOf (T.subs.map (·.1))))
    (hr : ∀ r ∈ T.rules, ∀ n ∈ ruleNames r, n ∈ T.fields.map (·.key))
    (hin : ∀ is, InnerAll (BodyOk .library E) p is ↔ ∀ x ∈ T.subs, ∀ b ∈ blocksNamed is x.1, ∃ y, SubReads E x.2 b y) (k : List Line) :
    (∃ s, CompReads E T k s) ↔ ComponentAll (BodyOk .library E) p k := by
  unfold CompReads ComponentAll
  rw [sect_exists hw hr]
  constructor
  · rintro ⟨is, hi, hf, hs, hrul⟩
    exact ⟨is, hi, (body_iff p hw hp hl is).2 ⟨hf, hrul⟩, (hin is).2 hs⟩
  · rintro ⟨is, hi, hb, hs⟩
    obtain ⟨hf, hrul⟩ := (body_iff p hw hp hl is).1 hb
    exact ⟨is, hi, hf, (hin is).1 hs, hrul⟩

theorem standard_exists {E : Env} (k : List Line) : (∃ y, SubReads E (.leaf tabStandard) k y) ↔ ∃ is, Items k is ∧ BodyOk .library E .standard is :=
  part_exists .standard (Tab.wf_iff (by decide)) rfl rfl (by decide) (by decide) k

theorem daylight_exists {E : Env} (k : List Line) : (∃ y, SubReads E (.leaf tabDaylight) k y) ↔ ∃ is, Items k is ∧ BodyOk .library E .daylight is :=
  part_exists .daylight (Tab.wf_iff (by decide)) rfl rfl (by decide) (by decide) k

theorem comps_exist {E : Env} (x : Str × Tab SubKind) (hx : x ∈ tabCalendar.subs) : ∃ p ∈ [Part.event, .todo, .journal, .freeBusy, .timezone],
    p.block = x.1 ∧ ∀ k, (∃ s, CompReads E x.2 k s) ↔ ComponentAll (BodyOk .library E) p k := by
  have hw := (compTab_good x hx).1
  simp only [tabCalendar, List.mem_cons, List.not_mem_nil, or_false] at hx
  rcases hx with rfl | rfl | rfl | rfl | rfl
  · refine ⟨.event, by decide, rfl, comp_exists .event hw rfl (by decide) (by decide) fun is => ?_⟩
    simp only [InnerAll, ← alarm_exists]
    simp [tabEvent]
  · refine ⟨.todo, by decide, rfl, comp_exists .todo hw rfl (by decide) (by decide) fun is => ?_⟩
    simp only [InnerAll, ← alarm_exists]
    simp [tabTodo]
  · exact ⟨.journal, by decide, rfl, comp_exists .journal hw rfl (by decide) (by decide) fun is => by simp [InnerAll, tabJournal]⟩
  · exact ⟨.freeBusy, by decide, rfl, comp_exists .freeBusy hw rfl (by decide) (by decide) fun is => by simp [InnerAll, tabFreeBusy]⟩
  · refine ⟨.timezone, by decide, rfl, comp_exists .timezone hw rfl (by decide) (by decide) fun is => ?_⟩
    simp only [InnerAll, ← standard_exists, ← daylight_exists]
    simp [tabTimezone]

theorem part_block {p q : Part} (hp : p ∈ [Part.event, .todo, .journal, .freeBusy, .timezone]) (hq : q ∈ [Part.event, .todo, .journal, .freeBusy, .timezone])
    (h : p.block = q.block) : p = q := by
  have : ∀ p ∈ [Part.event, .todo, .journal, .freeBusy, .timezone], ∀ q ∈ [Part.event, .todo, .journal, .freeBusy, .timezone],
    p.block = q.block → p = q := by decide
  exact this p hp q hq h

/-- A document is read as some calendar exactly if it is as the specification says. -/
theorem doc_exists {E : Env} (ls : List Line) : (∃ c, DocReads E ls c) ↔ DocOk .library E ls := by
  unfold DocReads DocOk DocAll
  have hs := fun k => sect_exists (E := E) (R := CompReads E) calTab_wf (by decide) k
  have hb := fun is => body_iff (E := E) .calendar calTab_wf rfl (by decide) is
  have hin : ∀ is, (∀ x ∈ tabCalendar.subs, ∀ b ∈ blocksNamed is x.1, ∃ y, CompReads E x.2 b y) ↔
      ∀ p ∈ [Part.event, .todo, .journal, .freeBusy, .timezone], ∀ j ∈ blocksNamed is p.block, ComponentAll (BodyOk .library E) p j := by
    intro is
    constructor
    · intro h p hp j hj
      have hx : ∃ x ∈ tabCalendar.subs, x.1 = p.block := by
        have : ∀ p ∈ [Part.event, .todo, .journal, .freeBusy, .timezone], p.block ∈ tabCalendar.subs.map (·.1) := by decide
        obtain ⟨x, hx, he⟩ := List.mem_map.1 (this p hp)
        exact ⟨x, hx, he⟩
      obtain ⟨x, hx, he⟩ := hx
      obtain ⟨q, hq, hqb, hqe⟩ := comps_exist (E := E) x hx
      have := part_block hp hq (by rw [hqb, he])
      subst this
      exact (hqe j).1 (h x hx j (by rw [he]; exact hj))
    · intro h x hx b hb
      obtain ⟨q, hq, hqb, hqe⟩ := comps_exist (E := E) x hx
      exact (hqe b).2 (h q hq b (by rw [hqb]; exact hb))
  constructor
  · rintro ⟨c, b, k, e, rfl, h1, h2, h3, h4, h5⟩
    obtain ⟨is, hi, hf, hsub, hrul⟩ := (hs k).1 ⟨c, h5⟩
    exact ⟨b, k, e, is, rfl, h1, h2, h3, h4, hi, (hb is).2 ⟨hf, hrul⟩, (hin is).1 hsub⟩
  · rintro ⟨b, k, e, is, rfl, h1, h2, h3, h4, hi, h5, h6⟩
    obtain ⟨hf, hrul⟩ := (hb is).1 h5
    obtain ⟨c, hc⟩ := (hs k).2 ⟨is, hi, hf, (hin is).2 h6, hrul⟩
    exact ⟨c, b, k, e, rfl, h1, h2, h3, h4, hc⟩

/-! ## Weaker statements -/

theorem AlarmAll.mono {P Q : PartClaim} (h : ∀ p is, P p is → Q p is) {k : List Line} (ha : AlarmAll P k) : AlarmAll Q k := by
  obtain ⟨h1, us, a, h2, h3, is, h4, h5⟩ := ha
  exact ⟨h1, us, a, h2, h3, is, h4, h _ _ h5⟩

theorem InnerAll.mono {P Q : PartClaim} (h : ∀ p is, P p is → Q p is) {p : Part} {is : List Item} (ha : InnerAll P p is) : InnerAll Q p is := by
  cases p with
  | event => exact fun k hk => AlarmAll.mono h (ha k hk)
  | todo => exact fun k hk => AlarmAll.mono h (ha k hk)
  | timezone =>
    exact ⟨fun k hk => (ha.1 k hk).imp fun js g => ⟨g.1, h _ _ g.2⟩, fun k hk => (ha.2 k hk).imp fun js g => ⟨g.1, h _ _ g.2⟩⟩
  | _ => trivial

theorem DocAll.mono {P Q : PartClaim} (h : ∀ p is, P p is → Q p is) {ls : List Line} (ha : DocAll P ls) : DocAll Q ls := by
  obtain ⟨b, k, e, is, h1, h2, h3, h4, h5, h6, h7, h8⟩ := ha
  refine ⟨b, k, e, is, h1, h2, h3, h4, h5, h6, h _ _ h7, fun p hp j hj => ?_⟩
  obtain ⟨js, g1, g2, g3⟩ := h8 p hp j hj
  exact ⟨js, g1, h _ _ g2, InnerAll.mono h g3⟩

/-- Every property that the library has occurs in the list of contents. -/
theorem content_exists {p : Part} {n : Str} {o : Occ} (h : libOccurs p n = some o) : ∃ t, content p n = some t := by
  have hs := table_is_spec p n
  unfold specFor at hs
  rw [h] at hs
  cases ht : content p n with
  | some t => exact ⟨t, rfl⟩
  | none =>
    exfalso
    have : ∀ p ∈ allParts, ∀ n ∈ partNames p, content p n ≠ none := by decide +kernel
    refine this p (mem_allParts p) n ?_ ht
    unfold libOccurs at h
    unfold partNames
    simp only [List.mem_append]
    split at h
    · next x hx => exact .inr (List.mem_map.2 ⟨x, List.mem_of_find?_eq_some hx, by simpa using List.find?_some hx⟩)
    · unfold occurs at h
      obtain ⟨x, hx, _⟩ := Option.map_eq_some_iff.1 h
      exact .inl (.inr (List.mem_flatMap.2 ⟨x, List.mem_of_find?_eq_some hx, by simpa using List.find?_some hx⟩))

/-! ## Parameters -/

theorem paramReads_congr {E : Env} {ps ps' : List (Str × List PVal)} (h : ∀ n, valuesOf ps n = valuesOf ps' n) : ParamReads E ps = ParamReads E ps' := by
  funext d q
  unfold ParamReads
  rw [h]

theorem propReads_congr {E : Env} {sh : Shape} {ps ps' : List (Str × List PVal)} (h : ∀ n, valuesOf ps n = valuesOf ps' n) {value : Str} {r : PropVal} :
    PropReads E sh ps value r ↔ PropReads E sh ps' value r := by
  unfold PropReads
  cases sh with
  | enum names => exact Iff.rfl
  | fields params vals =>
    have h1 : otherParam ps = otherParam ps' := by funext n; unfold otherParam; rw [h]
    have h2 : ∀ i, UsesType vals ps i ↔ UsesType vals ps' i := by intro i; unfold UsesType; rw [h]
    dsimp only
    rw [paramReads_congr h, h1]
    simp only [h2]

theorem valuesOf_perm {ps ps' : List (Str × List PVal)} (h : ps.Perm ps') (hn : (ps.map fun p => upper p.1).Nodup) (n : Str) :
    valuesOf ps n = valuesOf ps' n := by
  induction h with
  | nil => rfl
  | cons x _ ih =>
    rw [List.map_cons, List.nodup_cons] at hn
    rw [valuesOf_cons, valuesOf_cons, ih hn.2]
  | swap x y l =>
    simp only [List.map_cons, List.nodup_cons, List.mem_cons, not_or] at hn
    simp only [valuesOf_cons]
    by_cases h1 : upper x.1 = n <;> by_cases h2 : upper y.1 = n <;> simp [h1, h2]
    exact absurd (h2.trans h1.symm) hn.1.1
  | trans h1 _ ih1 ih2 =>
    rw [ih1 hn, ih2 ((List.Perm.nodup_iff (h1.map _)).1 hn)]

end Ics
