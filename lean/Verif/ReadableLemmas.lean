import Verif.Spec.Readable
import Verif.LooseLemmas
import Verif.RfcLemmas
import Verif.WrittenLemmas
/-!
# Lemmas: exactly which written documents are read again
-/

namespace Ics
open Spec

variable {κ σ : Type}

/-! ## Sections -/

/-- The line that is written for the property is read. -/
def Legible (E : Env) (f : SField) (p : PropVal) : Prop := ∃ p', f.spec.decode E (toLine E f.spec p).params (toLine E f.spec p).value = .ok p'

theorem FieldsAll.at {P : SField → PropVal → Prop} : ∀ {fs : List SField} {vs : List (List PropVal)}, FieldsAll P fs vs → fs.length = vs.length := by
  intro fs
  induction fs with
  | nil => intro vs h; cases vs <;> first | rfl | exact absurd h id
  | cons f fs ih => intro vs h; cases vs <;> first | exact absurd h id | simp [ih h.2]

theorem SubsAll.same {P : κ → σ → Prop} : ∀ {ks : List (Str × κ)} {vs : List (List σ)}, SubsAll P ks vs → ks.length = vs.length := by
  intro ks
  induction ks with
  | nil => intro vs h; cases vs <;> first | rfl | exact absurd h id
  | cons k ks ih => intro vs h; cases vs <;> first | exact absurd h id | simp [ih h.2]

theorem counts_at : ∀ {fs : List SField} {vs : List (List PropVal)}, MultOk fs vs → reqMet fs vs = true → ∀ {i : Nat} {f : SField}, fs[i]? = some f →
    CountOk f.mult (vs.getD i []).length := by
  intro fs
  induction fs with
  | nil => intro vs _ _ i f h; simp at h
  | cons g fs ih =>
    intro vs h1 h2 i f hf
    cases vs with
    | nil => exact absurd h1 id
    | cons v vs =>
      simp only [reqMet, Bool.and_eq_true, Bool.or_eq_true, bne_iff_ne] at h2
      cases i with
      | succ i =>
        simp only [List.getElem?_cons_succ] at hf
        simpa using ih h1.2 h2.2 hf
      | zero =>
        simp only [List.getElem?_cons_zero, Option.some.injEq] at hf
        subst hf
        obtain ⟨h1, _⟩ := h1
        obtain ⟨h2, _⟩ := h2
        simp only [List.getD_cons_zero]
        unfold CountOk
        cases hm : g.mult with
        | req =>
          have := h1 (by rw [hm]; decide)
          rcases h2 with h2 | h2
          · exact absurd hm h2
          · cases v with
            | nil => exact absurd rfl h2
            | cons a v => simp only [List.length_cons] at this ⊢; omega
        | opt => exact h1 (by rw [hm]; decide)
        | many => trivial

theorem mem_sectProps {T : Tab κ} {s : Sect σ} {x : SField × PropVal} : x ∈ sectProps T s ↔ ∃ i, T.fields[i]? = some x.1 ∧ x.2 ∈ s.fields.getD i [] := by
  constructor
  · intro hx
    obtain ⟨z, hz, hx⟩ := List.mem_flatMap.1 hx
    obtain ⟨p, hp, rfl⟩ := List.mem_map.1 hx
    obtain ⟨i, e1, e2⟩ := mem_zip_getD hz
    exact ⟨i, e1, by rw [e2]; exact hp⟩
  · rintro ⟨i, h1, h2⟩
    rw [List.getD_eq_getElem?_getD] at h2
    cases hv : s.fields[i]? with
    | none => rw [hv] at h2; cases h2
    | some v =>
      rw [hv] at h2
      refine List.mem_flatMap.2 ⟨(x.1, v), List.mem_of_getElem? (i := i) (List.getElem?_zip_eq_some.2 ⟨h1, hv⟩), List.mem_map.2 ⟨x.2, h2, rfl⟩⟩

/-- The body of a section is read exactly if its rules hold and each of its properties and subsections is read. -/
theorem sect_legible {E : Env} {P : SField → PropVal → Prop} {S : κ → σ → Prop} {T : Tab κ} (hw : T.Wf) (hr : ∀ r ∈ T.rules, ∀ n ∈ ruleNames r, n ∈ T.fields.map (·.key))
    {R : κ → List Line → σ → Prop} {body : κ → σ → List Line} {s : Sect σ} {pre k : List Line} (hs : GoodSect P S T s)
    (hpre : ∀ l ∈ pre, l.name = c!"ACTION") (hitems : Items k ((pre ++ fieldLines E T.fields s.fields).map Item.line ++ subItems body T.subs s.subs)) :
    (∃ s', SectReads E T R k s') ↔ SectRules T s ∧ (∀ x ∈ sectProps T s, x.1.key = x.1.spec.name → Legible E x.1 x.2) ∧
      ∀ x ∈ T.subs.zip s.subs, ∀ y ∈ x.2, ∃ y', R x.1.2 (body x.1.2 y) y' := by
  obtain ⟨g1, g2, g3, g4⟩ := hs
  have hl1 := FieldsAll.at g1
  have hl2 := SubsAll.same g3
  generalize hI : ((pre ++ fieldLines E T.fields s.fields).map Item.line ++ subItems body T.subs s.subs) = is at hitems
  have hlines : ∀ (i : Nat) (f : SField), T.fields[i]? = some f → linesNamed is f.key = if f.key = f.spec.name then (s.fields.getD i []).map (toLine E f.spec) else [] := by
    intro i f h
    have hfw := hw.field f (List.mem_of_getElem? h)
    rw [← hI, linesNamed_append, linesNamed_subItems, List.append_nil, linesNamed_lines, List.filter_append, List.filter_eq_nil_iff.2, List.nil_append,
      filter_fieldLines hw.keys hw.field (fun f hf hk => (hw.names f hf hk).1) h]
    intro l hl
    rw [hpre l hl]
    have ha : upper c!"ACTION" = c!"ACTION" := by decide
    simpa [ha] using fun e => hfw.notCtl.2.2 e.symm
  have hblocks : ∀ (i : Nat) (x : Str × κ), T.subs[i]? = some x → blocksNamed is x.1 = (s.subs.getD i []).map (body x.2) := by
    intro i x h
    rw [← hI, blocksNamed_append, blocksNamed_lines, List.nil_append, blocksNamed_subItems hw.subs h]
  have hhas : ∀ r ∈ T.rules, ∀ n ∈ ruleNames r, (Has T s n ↔ linesNamed is n ≠ []) := by
    intro r hrm n hn
    obtain ⟨f, hf, rfl⟩ := List.mem_map.1 (hr r hrm n hn)
    obtain ⟨i, hlt, rfl⟩ := List.mem_iff_getElem.1 hf
    have hk : T.fields[i].key = T.fields[i].spec.name := hw.ruleNames r hrm _ (by cases r <;> exact hn) _ hf rfl
    rw [hlines i _ (List.getElem?_eq_getElem hlt), if_pos hk]
    constructor
    · rintro ⟨x, hx, e⟩
      obtain ⟨j, h1, h2⟩ := mem_sectProps.1 hx
      have : i = j := by
        refine (List.getElem?_inj (l := T.fields.map (·.key)) (by simpa using hlt) hw.keys).1 ?_
        rw [List.getElem?_map, List.getElem?_map, h1, List.getElem?_eq_getElem hlt]
        simp [e]
      subst this
      exact fun h0 => (List.ne_nil_of_mem h2) (List.map_eq_nil_iff.1 h0)
    · intro h
      obtain ⟨p, hp⟩ := List.exists_mem_of_ne_nil (s.fields.getD i []) (fun h0 => h (by rw [h0]; rfl))
      exact ⟨(T.fields[i], p), mem_sectProps.2 ⟨i, List.getElem?_eq_getElem hlt, hp⟩, rfl⟩
  have hrules : SectRules T s ↔ ∀ r ∈ T.rules, (lawOf (T.subs.map (·.1)) r).ok is := by
    unfold SectRules
    refine forall_congr' fun r => forall_congr' fun hrm => ?_
    have hh := hhas r hrm
    cases r with
    | notBoth a b => simp only [Holds, lawOf, Rfc.Law.ok]; rw [hh a (by simp [ruleNames]), hh b (by simp [ruleNames])]
    | needs a b => simp only [Holds, lawOf, Rfc.Law.ok]; rw [hh a (by simp [ruleNames]), hh b (by simp [ruleNames])]
    | onlyOne a b =>
      simp only [Holds, lawOf, Rfc.Law.ok]
      rw [hh a (by simp [ruleNames]), hh b (by simp [ruleNames])]
      by_cases h1 : linesNamed is a = [] <;> by_cases h2 : linesNamed is b = [] <;> simp [h1, h2]
    | anySub =>
      simp only [Holds, lawOf, Rfc.Law.ok]
      constructor
      · rintro ⟨xs, hx, hne⟩
        obtain ⟨i, hlt, rfl⟩ := List.mem_iff_getElem.1 hx
        have hlt2 : i < T.subs.length := by omega
        refine ⟨T.subs[i].1, List.mem_map.2 ⟨_, List.getElem_mem hlt2, rfl⟩, fun h0 => ?_⟩
        rw [hblocks i _ (List.getElem?_eq_getElem hlt2), List.getD_eq_getElem?_getD, List.getElem?_eq_getElem hlt] at h0
        exact hne (List.map_eq_nil_iff.1 h0)
      · rintro ⟨n, hn, hne⟩
        obtain ⟨x, hx, rfl⟩ := List.mem_map.1 hn
        obtain ⟨i, hlt, rfl⟩ := List.mem_iff_getElem.1 hx
        have hlt2 : i < s.subs.length := by omega
        refine ⟨_, List.getElem_mem hlt2, fun h0 => hne ?_⟩
        rw [hblocks i _ (List.getElem?_eq_getElem hlt), List.getD_eq_getElem?_getD, List.getElem?_eq_getElem hlt2, Option.getD_some, h0]
        rfl
  rw [sect_exists hw hr, hrules]
  constructor
  · rintro ⟨is', hi, hf, hb, hl⟩
    cases Items.unique hi hitems
    refine ⟨hl, fun x hx hk => ?_, fun x hx y hy => ?_⟩
    · obtain ⟨i, h1, h2⟩ := mem_sectProps.1 hx
      refine (hf x.1 (List.mem_of_getElem? h1)).2 (toLine E x.1.spec x.2) ?_
      rw [hlines i _ h1, if_pos hk]
      exact List.mem_map.2 ⟨_, h2, rfl⟩
    · obtain ⟨i, h1, h2⟩ := mem_zip_getD hx
      refine hb x.1 (List.mem_of_getElem? h1) _ ?_
      rw [hblocks i _ h1, h2]
      exact List.mem_map.2 ⟨_, hy, rfl⟩
  · rintro ⟨hl, hf, hb⟩
    refine ⟨is, hitems, fun f hm => ?_, fun x hm b hb' => ?_, hl⟩
    · obtain ⟨i, hlt, rfl⟩ := List.mem_iff_getElem.1 hm
      have hi := List.getElem?_eq_getElem hlt
      rw [hlines i _ hi]
      by_cases hk : T.fields[i].key = T.fields[i].spec.name
      · rw [if_pos hk, List.length_map]
        refine ⟨counts_at g2 g4 hi, fun l hl => ?_⟩
        obtain ⟨p, hp, rfl⟩ := List.mem_map.1 hl
        exact hf (T.fields[i], p) (mem_sectProps.2 ⟨i, hi, hp⟩) hk
      · rw [if_neg hk]
        refine ⟨?_, by simp⟩
        have := (hw.names _ hm hk).2
        unfold CountOk
        cases hmu : T.fields[i].mult with
        | req => exact absurd hmu this
        | opt => simp
        | many => trivial
    · obtain ⟨i, hlt, rfl⟩ := List.mem_iff_getElem.1 hm
      have hi := List.getElem?_eq_getElem hlt
      rw [hblocks i _ hi] at hb'
      obtain ⟨y, hy, rfl⟩ := List.mem_map.1 hb'
      have hlt2 : i < s.subs.length := by omega
      rw [List.getD_eq_getElem?_getD, List.getElem?_eq_getElem hlt2] at hy
      exact hb (T.subs[i], s.subs[i]) (List.mem_of_getElem? (i := i) (List.getElem?_zip_eq_some.2 ⟨hi, List.getElem?_eq_getElem hlt2⟩)) y hy


/-! ## Subsections, components, calendars -/

theorem rules_known : (∀ r ∈ tabCalendar.rules, ∀ n ∈ ruleNames r, n ∈ tabCalendar.fields.map (·.key)) ∧
    (∀ x ∈ tabCalendar.subs, ∀ r ∈ x.2.rules, ∀ n ∈ ruleNames r, n ∈ x.2.fields.map (·.key)) ∧
    (∀ a : AKind, ∀ r ∈ a.tab.rules, ∀ n ∈ ruleNames r, n ∈ a.tab.fields.map (·.key)) ∧
    (∀ T ∈ [tabStandard, tabDaylight], ∀ r ∈ T.rules, ∀ n ∈ ruleNames r, n ∈ T.fields.map (·.key)) := by
  refine ⟨by decide, by decide, ?_, by decide⟩
  intro a
  cases a <;> decide

theorem sub_legible {E : Env} {P : SField → PropVal → Prop} {x : Str × SubKind} (hg : SubKind.Good x)
    (hx : ∀ T, x.2 = .leaf T → T ∈ [tabStandard, tabDaylight]) {s : Sub} (h : GoodSub P x.2 s) :
    (∃ s', SubReads E x.2 (subBody E x.2 s) s') ↔ SubRules x.2 s ∧ ∀ y ∈ subProps x.2 s, y.1.key = y.1.spec.name → Legible E y.1 y.2 := by
  obtain ⟨n, k⟩ := x
  cases k with
  | leaf T =>
    cases s with
    | alarm a => exact absurd h id
    | leaf s =>
      obtain ⟨hw, hn, hsub⟩ := hg
      have hi : Items (subBody E (.leaf T) (.leaf s)) (([] ++ fieldLines E T.fields s.fields).map Item.line ++ subItems noInner T.subs s.subs) := by
        simp only [subBody]
        rw [leaf_body hsub, hsub]
        simp only [subItems, List.zip_nil_left, List.flatMap_nil, List.append_nil, List.nil_append]
        exact items_lines fun l hl => ⟨(fieldLines_lines hw l hl).1, (fieldLines_lines hw l hl).2.1⟩
      have := sect_legible (R := fun x => nomatch x) hw (rules_known.2.2.2 T (hx T rfl)) h (pre := []) (by simp) hi
      constructor
      · rintro ⟨s', hr⟩
        cases s' with
        | alarm a => exact absurd hr id
        | leaf s' =>
          obtain ⟨a, b, _⟩ := this.1 ⟨s', hr⟩
          exact ⟨a, b⟩
      · rintro ⟨a, b⟩
        obtain ⟨s', hr⟩ := this.2 ⟨a, b, by rw [hsub]; simp⟩
        exact ⟨.leaf s', hr⟩
  | alarm =>
    cases s with
    | leaf s => exact absurd h id
    | alarm o =>
      cases o with
      | none => exact absurd h id
      | some o =>
        obtain ⟨a, s⟩ := o
        have hflat : ∀ l ∈ subBody E .alarm (.alarm (some (a, s))), ¬ Begins l ∧ ¬ Ends l := by
          intro l hl
          obtain ⟨a, b, _⟩ := (sub_shape (E := E) hg h).2 l hl
          exact ⟨a, b⟩
        have hi : Items (subBody E .alarm (.alarm (some (a, s))))
            (([plainLine kACTION a.action] ++ fieldLines E a.tab.fields s.fields).map Item.line ++ subItems noInner a.tab.subs s.subs) := by
          have := items_lines (ls := subBody E .alarm (.alarm (some (a, s)))) hflat
          simp only [subBody] at this ⊢
          rw [leaf_body (aTab_name a).2] at this ⊢
          rw [(aTab_name a).2]
          simpa [subItems] using this
        have hact : actions (subBody E .alarm (.alarm (some (a, s)))) = [a.action] := by
          simp only [subBody]
          rw [leaf_body (aTab_name a).2]
          unfold actions
          rw [List.filter_cons, plainLine_name, if_pos (show decide (upper kACTION = c!"ACTION") = true by decide), List.filter_eq_nil_iff.2]
          · rfl
          · intro l hl
            simpa using (fieldLines_lines (aTab_wf a) l hl).2.2.1
        have key := sect_legible (R := fun x => nomatch x) (aTab_wf a) (rules_known.2.2.1 a) h (pre := [plainLine kACTION a.action])
          (by intro l hl; rw [List.mem_singleton] at hl; subst hl; rfl) hi
        constructor
        · rintro ⟨s', hr⟩
          cases s' with
          | leaf s' => exact absurd hr id
          | alarm o =>
            cases o with
            | none => exact absurd hr id
            | some o =>
              obtain ⟨b, s'⟩ := o
              obtain ⟨_, ⟨us, h1, _⟩, hr⟩ := hr
              have hab : b = a := by
                rw [hact] at h1
                have : us = [] := by
                  cases us with
                  | nil => rfl
                  | cons u us => simp at h1
                subst this
                simp only [List.nil_append, List.cons.injEq, and_true] at h1
                cases a <;> cases b <;> first | rfl | exact absurd h1 (by decide)
              subst hab
              obtain ⟨r1, r2, _⟩ := key.1 ⟨s', hr⟩
              exact ⟨r1, r2⟩
        · rintro ⟨r1, r2⟩
          obtain ⟨s', hr⟩ := key.2 ⟨r1, r2, by rw [(aTab_name a).2]; simp⟩
          exact ⟨.alarm (some (a, s')), hflat, ⟨[], by simpa using hact, by simp⟩, hr⟩

theorem comp_legible {E : Env} {P : SField → PropVal → Prop} {x : Str × Tab SubKind} (hx : x ∈ tabCalendar.subs) {s : Comp} (h : GoodSect P (GoodSub P) x.2 s) :
    (∃ s', CompReads E x.2 (compBody E x.2 s) s') ↔ (SectRules x.2 s ∧ Below SubRules x.2 s) ∧ ∀ y ∈ compProps x.2 s, y.1.key = y.1.spec.name → Legible E y.1 y.2 := by
  obtain ⟨hw, hn, hg⟩ := compTab_good x hx
  have hsub : ∀ y ∈ x.2.subs.zip s.subs, ∀ z ∈ y.2, (∃ z', SubReads E y.1.2 (subBody E y.1.2 z) z') ↔
      SubRules y.1.2 z ∧ ∀ w ∈ subProps y.1.2 z, w.1.key = w.1.spec.name → Legible E w.1 w.2 := by
    intro y hy z hz
    exact sub_legible (hg _ (List.of_mem_zip hy).1) (fun T e => leafTab_mem _ hx _ (List.of_mem_zip hy).1 T e) (h.2.2.1.of_zip y hy z hz)
  unfold CompReads
  rw [sect_legible hw (rules_known.2.1 x hx) h (pre := []) (by simp) (comp_shape (E := E) hx h).2]
  constructor
  · rintro ⟨a, b, c⟩
    refine ⟨⟨a, fun y hy z hz => ((hsub y hy z hz).1 (c y hy z hz)).1⟩, fun y hy => ?_⟩
    rcases List.mem_append.1 hy with hy | hy
    · exact b y hy
    · obtain ⟨w, hw, z, hz, hy⟩ := mem_below.1 hy
      exact ((hsub w hw z hz).1 (c w hw z hz)).2 y hy
  · rintro ⟨⟨a, b⟩, c⟩
    exact ⟨a, fun y hy => c y (List.mem_append.2 (.inl hy)), fun y hy z hz => (hsub y hy z hz).2 ⟨b y hy z hz, fun w hw =>
      c w (List.mem_append.2 (.inr (mem_below.2 ⟨y, hy, z, hz, hw⟩)))⟩⟩

/-- The names of components in a calendar are in upper case. -/
theorem calLines_loud {E : Env} {P : SField → PropVal → Prop} {c : Cal} (h : GoodCal P c) : ∀ l ∈ calLines E c, l.name ∈ [c!"BEGIN", c!"END"] → l.value = upper l.value := by
  have flat : ∀ {l : Line}, ¬ Begins l → ¬ Ends l → upper l.name = l.name → l.name ∈ [c!"BEGIN", c!"END"] → l.value = upper l.value := by
    intro l h1 h2 h3 hm
    unfold Begins at h1
    unfold Ends at h2
    simp only [List.mem_cons, List.not_mem_nil, or_false] at hm
    rcases hm with hm | hm
    · exact absurd (h3.trans hm) h1
    · exact absurd (h3.trans hm) h2
  have subs : ∀ {κ σ : Type} {inner : κ → σ → List Line} {ks : List (Str × κ)} {vs : List (List σ)}, (∀ x ∈ ks, nameOk x.1 = true) →
      (∀ x ∈ ks.zip vs, ∀ y ∈ x.2, ∀ l ∈ inner x.1.2 y, l.name ∈ [c!"BEGIN", c!"END"] → l.value = upper l.value) →
      ∀ l ∈ subsLines inner ks vs, l.name ∈ [c!"BEGIN", c!"END"] → l.value = upper l.value := by
    intro κ σ inner ks
    induction ks with
    | nil => intro vs _ _ l hl; simp [subsLines] at hl
    | cons k ks ih =>
      intro vs hn h l hl
      cases vs with
      | nil => simp [subsLines] at hl
      | cons v vs =>
        simp only [subsLines, List.mem_append, List.mem_flatMap] at hl
        rcases hl with ⟨y, hy, hl⟩ | hl
        · rcases List.mem_cons.1 hl with rfl | hl
          · exact fun _ => (nameOk_up (hn k (by simp))).symm
          · exact h (k, v) (by simp) y hy l hl
        · exact ih (fun x hx => hn x (by simp [hx])) (fun x hx => h x (by simp [hx])) l hl
  have sect : ∀ {κ σ : Type} {inner : κ → σ → List Line} {T : Tab κ} {s : Sect σ}, T.Wf →
      (∀ x ∈ T.subs.zip s.subs, ∀ y ∈ x.2, ∀ l ∈ inner x.1.2 y, l.name ∈ [c!"BEGIN", c!"END"] → l.value = upper l.value) →
      ∀ l ∈ T.inner E inner s, l.name ∈ [c!"BEGIN", c!"END"] → l.value = upper l.value := by
    intro κ σ inner T s hw h l hl
    simp only [Tab.inner, List.mem_append, List.mem_singleton] at hl
    rcases hl with (hl | hl) | rfl
    · obtain ⟨a, b, _, d⟩ := fieldLines_lines hw l hl
      exact flat a b d
    · exact subs hw.subNames h l hl
    · exact fun _ => (nameOk_up hw.name).symm
  intro l hl
  rcases List.mem_cons.1 hl with rfl | hl
  · exact fun _ => by decide
  · refine sect calTab_wf (fun x hx y hy => ?_) l hl
    have hx' := (List.of_mem_zip hx).1
    obtain ⟨hw, hn, hg⟩ := compTab_good _ hx'
    refine sect hw fun z hz w hw' m hm => ?_
    obtain ⟨a, b⟩ := sub_shape (E := E) (hg _ (List.of_mem_zip hz).1) (((h.2.2.1.of_zip x hx y hy).2.2.1).of_zip z hz w hw')
    rw [a] at hm
    rcases List.mem_append.1 hm with hm | hm
    · obtain ⟨p, q, r⟩ := b m hm
      exact flat p q r
    · cases List.mem_singleton.1 hm
      exact fun _ => (nameOk_up (hw.subNames _ (List.of_mem_zip hz).1)).symm

/-- The lines of a calendar are read exactly if its rules hold and each of its properties is read. -/
theorem cal_legible {E : Env} {P : SField → PropVal → Prop} {c : Cal} (h : GoodCal P c) (t : Term) :
    (∃ c', decodeStream E ⟨calLines E c, t⟩ = .ok c') ↔ CalRules c ∧ ∀ y ∈ calProps c, y.1.key = y.1.spec.name → Legible E y.1 y.2 := by
  have hkw : Keywords (calLines E c) := fun l hl _ => (calLines_upper h l hl).symm
  have hshape : ∀ x ∈ tabCalendar.subs.zip c.subs, ∀ y ∈ x.2, compInner E x.1.2 y = compBody E x.1.2 y ++ [plainLine kEND x.1.1] ∧ Closed (compBody E x.1.2 y) := by
    intro x hx y hy
    obtain ⟨a, b⟩ := comp_shape (E := E) (List.of_mem_zip hx).1 (h.2.2.1.of_zip x hx y hy)
    exact ⟨a, Items.closed b⟩
  have hi : Items (fieldLines E tabCalendar.fields c.fields ++ subsLines (compInner E) tabCalendar.subs c.subs)
      (([] ++ fieldLines E tabCalendar.fields c.fields).map Item.line ++ subItems (compBody E) tabCalendar.subs c.subs) :=
    Spec.Items.append (items_lines fun l hl => ⟨(fieldLines_lines calTab_wf l hl).1, (fieldLines_lines calTab_wf l hl).2.1⟩)
      (items_subs calTab_wf.subNames hshape)
  have hcomp : ∀ x ∈ tabCalendar.subs.zip c.subs, ∀ y ∈ x.2, (∃ y', CompReads E x.1.2 (compBody E x.1.2 y) y') ↔ (SectRules x.1.2 y ∧ Below SubRules x.1.2 y) ∧
      ∀ z ∈ compProps x.1.2 y, z.1.key = z.1.spec.name → Legible E z.1 z.2 := fun x hx y hy =>
    comp_legible (List.of_mem_zip hx).1 (h.2.2.1.of_zip x hx y hy)
  have key := sect_legible (R := CompReads E) calTab_wf rules_known.1 h (pre := []) (by simp) hi
  have all : (∃ s', SectReads E tabCalendar (CompReads E) (fieldLines E tabCalendar.fields c.fields ++ subsLines (compInner E) tabCalendar.subs c.subs) s') ↔
      CalRules c ∧ ∀ y ∈ calProps c, y.1.key = y.1.spec.name → Legible E y.1 y.2 := by
    rw [key]
    constructor
    · rintro ⟨r1, r2, r3⟩
      refine ⟨⟨r1, fun x hx y hy => ((hcomp x hx y hy).1 (r3 x hx y hy)).1⟩, fun y hy => ?_⟩
      rcases List.mem_append.1 hy with hy | hy
      · exact r2 y hy
      · obtain ⟨x, hx, z, hz, hy⟩ := mem_below.1 hy
        exact ((hcomp x hx z hz).1 (r3 x hx z hz)).2 y hy
    · rintro ⟨⟨r1, r2⟩, r3⟩
      exact ⟨r1, fun y hy => r3 y (List.mem_append.2 (.inl hy)), fun x hx y hy => (hcomp x hx y hy).2 ⟨r2 x hx y hy, fun z hz =>
        r3 z (List.mem_append.2 (.inr (mem_below.2 ⟨x, hx, y, hy, hz⟩)))⟩⟩
  rw [← all]
  constructor
  · rintro ⟨c', hr⟩
    obtain ⟨pre, rest, e, hd⟩ := decodeStream_sound hkw hr
    obtain ⟨b, k, l, rfl, hb, _, hl, _, hk⟩ := hd
    have hkc : Closed k := by
      obtain ⟨is, hi, _⟩ := hk
      exact Items.closed hi
    have hk' : k = fieldLines E tabCalendar.fields c.fields ++ subsLines (compInner E) tabCalendar.subs c.subs := by
      simp only [calLines, Tab.inner, List.cons_append, List.append_assoc, List.cons.injEq] at e
      have e := e.2
      rw [← List.append_assoc] at e
      exact (closed_split (Items.closed hi) hkc (show Ends (plainLine kEND tabCalendar.name) by unfold Ends; rw [plainLine_name]; decide) hl
        (by simpa using e)).1.symm
    subst hk'
    exact ⟨c', hk⟩
  · rintro ⟨c', hr⟩
    refine ⟨c', ?_⟩
    have := decodeStream_complete (E := E) (pre := calLines E c) (c := c') ⟨hkw, calLines_loud h⟩
      ⟨_, _, _, by simp only [calLines, Tab.inner, List.cons_append, List.append_assoc]; rfl, by unfold Begins; rw [plainLine_name]; decide, by decide,
        by unfold Ends; rw [plainLine_name]; decide, by decide, hr⟩ [] t
    simpa using this

/-! ## Times, offsets, periods -/

theorem ofOption_ok {α : Type} {e : Err} {o : Option α} : (∃ x, Res.ofOption e o = .ok x) ↔ ∃ x, o = some x := by
  cases o <;> simp [Res.ofOption]

theorem locKnown_iff (E : Env) (q : Nat) (n : Str) (a b : Nat) : LocKnown E (.zone n a b) ↔ ∃ l, loadLocation E q n = some l := by
  unfold LocKnown loadLocation
  by_cases h1 : n = [] ∨ n = c!"UTC"
  · rw [if_pos h1]
    rcases h1 with h1 | h1 <;> simp [h1]
  · rw [if_neg h1]
    rw [not_or] at h1
    by_cases h2 : n = c!"Local"
    · simp [h2]
    · rw [if_neg h2]
      cases h : E.loadZone n <;> simp [h1, h2, h]

theorem date_legible (E : Env) (t : GoTime) : (∃ t', Date.decode (Date.encode E t) = .ok t') ↔ FourDigits E t := by
  constructor
  · rintro ⟨t', h⟩
    obtain ⟨y, m, d, k, h1, h2, rfl⟩ := (Date.decode_iff _ _).1 h
    have : parseDate8 (Date.encode E t ++ []) = some (dayNumber y m d, []) := by
      rw [parseDate8_iff]
      exact ⟨_, y, m, d, rfl, h1, rfl⟩
    exact fmtDate8_year this (by simp)
  · intro h
    obtain ⟨y, m, d, h1, _⟩ := dayText_encode h
    obtain ⟨k, hk, _⟩ := dayCount_sec h1
    exact ⟨_, (Date.decode_iff _ _).2 ⟨y, m, d, k, h1, hk, rfl⟩⟩

theorem dateTime_legible (E : Env) (q : Nat) (t : GoTime) : (∃ t', DateTime.decode E q (tzidOf t.loc) (DateTime.encode E t) = .ok t') ↔ FourDigits E t ∧ LocKnown E t.loc := by
  constructor
  · rintro ⟨t', h⟩
    refine ⟨dateTime_year h, ?_⟩
    cases hl : t.loc with
    | utc => trivial
    | «local» => trivial
    | zone n a b =>
      rw [hl] at h
      rw [locKnown_iff E q]
      simp only [tzidOf, DateTime.decode, Res.bind_eq_ok] at h
      obtain ⟨l, h, _⟩ := h
      exact ofOption_ok.1 ⟨l, h⟩
  · rintro ⟨⟨h1, h2⟩, h3⟩
    cases hl : t.loc with
    | utc =>
      have e : DateTime.encode E t = fmtDate8 (t.wall E / 86400) ++ 'T' :: fmtClock (t.wall E % 86400).toNat ++ (if true then ['Z'] else []) := by simp [DateTime.encode, hl]
      simp only [tzidOf, DateTime.decode]
      rw [if_pos (by rw [e, if_pos rfl]; exact List.getLast?_concat), e, parseDateTime_fmt E true _ _ h1 h2]
      exact ⟨_, rfl⟩
    | «local» =>
      have e : DateTime.encode E t = fmtDate8 (t.wall E / 86400) ++ 'T' :: fmtClock (t.wall E % 86400).toNat ++ (if false then ['Z'] else []) := by simp [DateTime.encode, hl]
      simp only [tzidOf, DateTime.decode]
      rw [if_neg (by rw [e, if_neg (by decide), List.append_nil]; exact fmtClock_last _ _), e, parseDateTime_fmt E false _ _ h1 h2]
      exact ⟨_, rfl⟩
    | zone n a b =>
      have e : DateTime.encode E t = fmtDate8 (t.wall E / 86400) ++ 'T' :: fmtClock (t.wall E % 86400).toNat ++ (if false then ['Z'] else []) := by simp [DateTime.encode, hl]
      rw [hl, locKnown_iff E q] at h3
      obtain ⟨l, h3⟩ := h3
      simp only [tzidOf, DateTime.decode]
      refine ⟨⟨instant E l (t.wall E), 0, l⟩, Res.bind_eq_ok.2 ⟨l, by rw [h3]; rfl, ?_⟩⟩
      rw [e, parseDateTime_fmt E false _ _ h1 h2]
      rfl

theorem offset_legible (o : Int) : (∃ u, UTCOffset.decode (UTCOffset.encode o) = .ok u) ↔ OffsetReadable o := by
  unfold OffsetReadable
  by_cases hm : o = -(2 ^ 63)
  · subst hm
    rw [UTCOffset.encode_least]
    have : UTCOffset.decode c!"-00F6H8" = .err .invalidOffset := by decide +kernel
    rw [this]
    constructor
    · rintro ⟨_, h⟩; cases h
    · rintro (h | h)
      · omega
      · exact absurd rfl h.1
  · rw [UTCOffset.encode_of hm]
    generalize hH : (if o.natAbs / 60 / 60 % 256 > 99 then 0 else o.natAbs / 60 / 60 % 256) = H
    have hH' : H < 100 := by split at hH <;> omega
    have hb := UTCOffset.body_encode H (o.natAbs / 60 % 60) (o.natAbs % 60) hH' (by omega) (by omega)
    unfold UTCOffset.decode
    by_cases hn : o < 0
    · rw [if_pos hn]
      simp only [List.append_assoc, List.cons_append, List.nil_append, List.head?_cons, if_true, true_or, List.tail_cons]
      rw [List.append_assoc] at hb
      rw [hb]
      simp only
      split
      · next h0 =>
        constructor
        · rintro ⟨_, h⟩; cases h
        · rintro (h | ⟨_, h⟩)
          · omega
          · exfalso; apply h; split at hH <;> omega
      · next h0 =>
        refine ⟨fun _ => .inr ⟨by omega, fun h => h0 ?_⟩, fun _ => ⟨_, rfl⟩⟩
        split at hH <;> omega
    · rw [if_neg hn, List.nil_append]
      rw [List.append_assoc] at hb ⊢
      obtain ⟨h1, h2⟩ := UTCOffset.encode_head H hH' (dd (o.natAbs / 60 % 60) ++ if o.natAbs % 60 > 0 then dd (o.natAbs % 60) else [])
      simp only [h1, h2, false_or, if_false, hb]
      exact ⟨fun _ => .inl (by omega), fun _ => ⟨_, rfl⟩⟩

theorem period_legible (E : Env) (q : Nat) (p : Period) (hw : p.dur.WF) (hv : p.valid = .ok ()) :
    (∃ p', Period.decode E q (tzidOf p.start.loc) (Period.encode E p) = .ok p') ↔
      FourDigits E p.start ∧ LocKnown E p.start.loc ∧ (p.stop.isZero = false → FourDigits E p.stop) := by
  have hns : '/' ∉ DateTime.encode E p.start := by
    intro hm
    exact timeChar_ne (DateTime.encode_mem hm) (d := '/') (by decide) (by decide) (by decide) (by decide) rfl
  unfold Period.encode Period.decode
  rw [split2_append '/' _ _ hns]
  unfold Period.valid at hv
  split at hv
  · cases hv
  have hst := dateTime_legible E q p.start
  cases hz : p.stop.isZero with
  | true =>
    rw [hz] at hv
    simp only [if_true, Res.guard_eq_ok, Bool.not_eq_true'] at hv
    have hdd := Duration.decode_encode p.dur hw
    have hP : Duration.encode p.dur = 'P' :: p.dur.body := by simp [Duration.encode, hv]
    simp only [if_true]
    rw [hP] at hdd ⊢
    simp only
    constructor
    · rintro ⟨p', h⟩
      obtain ⟨t1, h1, h⟩ := Res.bind_eq_ok.1 h
      obtain ⟨a, b⟩ := hst.1 ⟨t1, h1⟩
      exact ⟨a, b, fun h => absurd h (by simp)⟩
    · rintro ⟨a, b, _⟩
      obtain ⟨t1, h1⟩ := hst.2 ⟨a, b⟩
      refine ⟨{ start := t1, dur := p.dur.kept }, Res.bind_eq_ok.2 ⟨t1, h1, ?_⟩⟩
      rw [if_pos (.inl trivial)]
      exact Res.bind_eq_ok.2 ⟨_, hdd, rfl⟩
  | false =>
    rw [hz] at hv
    simp only [Bool.false_eq_true, if_false, Res.guard_eq_ok, Bool.and_eq_true, decide_eq_true_eq] at hv
    have hen := dateTime_legible E (q + 1) p.stop
    rw [← hv.2] at hen
    simp only [Bool.false_eq_true, if_false]
    obtain ⟨c, r, he, hc⟩ : ∃ c r, DateTime.encode E p.stop = c :: r ∧ ¬ (c = 'P' ∨ c = '+') := by
      cases he : DateTime.encode E p.stop with
      | nil => simp [DateTime.encode] at he
      | cons c r =>
        refine ⟨c, r, rfl, ?_⟩
        have := DateTime.encode_mem (E := E) (t := p.stop) (c := c) (by rw [he]; simp)
        rintro (rfl | rfl)
        · exact timeChar_ne this (d := 'P') (by decide) (by decide) (by decide) (by decide) rfl
        · exact timeChar_ne this (d := '+') (by decide) (by decide) (by decide) (by decide) rfl
    rw [he] at hen ⊢
    simp only
    constructor
    · rintro ⟨p', h⟩
      obtain ⟨t1, h1, h⟩ := Res.bind_eq_ok.1 h
      rw [if_neg hc] at h
      obtain ⟨t2, h2, h⟩ := Res.bind_eq_ok.1 h
      obtain ⟨a, b⟩ := hst.1 ⟨t1, h1⟩
      exact ⟨a, b, fun _ => (hen.1 ⟨t2, h2⟩).1⟩
    · rintro ⟨a, b, d⟩
      obtain ⟨t1, h1⟩ := hst.2 ⟨a, b⟩
      obtain ⟨t2, h2⟩ := hen.2 ⟨d (by trivial), b⟩
      refine ⟨{ start := t1, stop := t2 }, Res.bind_eq_ok.2 ⟨t1, h1, ?_⟩⟩
      rw [if_neg hc]
      exact Res.bind_eq_ok.2 ⟨t2, h2, rfl⟩

/-! ## Rules -/

theorem digits_unique {a b x y : Str} (ha : a.all isDigit = true) (hb : b.all isDigit = true) (hx : ∀ c ∈ x.head?, isDigit c = false) (hy : ∀ c ∈ y.head?, isDigit c = false)
    (h : a ++ x = b ++ y) : a = b ∧ x = y := by
  induction a generalizing b with
  | nil =>
    cases b with
    | nil => exact ⟨rfl, h⟩
    | cons d b =>
      simp only [List.nil_append, List.cons_append] at h
      subst h
      simp only [List.all_cons, Bool.and_eq_true] at hb
      exact absurd (hx d (by simp)) (by rw [hb.1]; decide)
  | cons c a ih =>
    simp only [List.all_cons, Bool.and_eq_true] at ha
    cases b with
    | nil =>
      simp only [List.nil_append, List.cons_append] at h
      subst h
      exact absurd (hy c (by simp)) (by rw [ha.1]; decide)
    | cons d b =>
      simp only [List.all_cons, Bool.and_eq_true] at hb
      simp only [List.cons_append, List.cons.injEq] at h
      obtain ⟨rfl, h⟩ := h
      obtain ⟨e1, e2⟩ := ih ha.2 hb.2 h
      exact ⟨by rw [e1], e2⟩

/-- The number of weeks of a day that is read again. -/
theorem weekday_legible {x y : DayRecur} (hd : 1 ≤ x.day ∧ x.day ≤ 7) (h : LooseWeekday (fmtDayRecur x) y) : x.occ = 0 ∨ Ordinal 53 x.occ := by
  by_cases h0 : x.occ = 0
  · exact .inl h0
  right
  have hday : ∀ d n, (d, n) ∈ weekdays → ∀ c ∈ d.head?, isDigit c = false ∧ c ≠ '-' ∧ c ≠ '+' := by
    have : ∀ y ∈ weekdays, ∀ c ∈ y.1.head?, isDigit c = false ∧ c ≠ '-' ∧ c ≠ '+' := by decide
    exact fun d n hm => this (d, n) hm
  have hx : ∃ n, (fmtDay x.day, n) ∈ weekdays := by
    obtain ⟨h1, h2⟩ := hd
    have : ∀ k : Fin 8, 1 ≤ k.1 → (fmtDay k.1, k.1) ∈ weekdays := by decide +kernel
    exact ⟨_, this ⟨x.day, by omega⟩ h1⟩
  obtain ⟨nx, hx⟩ := hx
  have hxd := fun c hc => (hday _ _ hx c hc).1
  unfold fmtDayRecur at h
  rw [if_pos h0] at h
  have nat : ∀ {o : Str} {n k : Nat} {d : Str} {m : Nat}, WeekOrdinal o n → (d, m) ∈ weekdays → fmtNat k ++ fmtDay x.day = o ++ d → k ≤ 53 := by
    intro o n k d m ho hm e
    obtain ⟨ho, _, _, hn⟩ := ho
    obtain ⟨e, _⟩ := digits_unique (fmtNat_all k) (Dec_facts ho).2.1 hxd (fun c hc => (hday _ _ hm c hc).1) e
    rw [← e] at ho
    have := (Dec_facts ho).2.2.symm.trans (fmtNat_val k)
    omega
  have hint : (0 < x.occ ∧ fmtInt x.occ = fmtNat x.occ.natAbs) ∨ (x.occ < 0 ∧ fmtInt x.occ = '-' :: fmtNat x.occ.natAbs) := by
    unfold fmtInt
    by_cases h : x.occ < 0
    · right; rw [if_pos h]; exact ⟨h, rfl⟩
    · left; rw [if_neg h]; exact ⟨by omega, rfl⟩
  have hdig : ∀ k, ∃ c r, fmtNat k = c :: r ∧ isDigit c = true := by
    intro k
    cases hk : fmtNat k with
    | nil => exact absurd hk (fmtNat_ne_nil k)
    | cons c r => exact ⟨c, r, rfl, List.all_eq_true.1 (fmtNat_all k) c (by rw [hk]; simp)⟩
  have hhead : ∃ c r, fmtInt x.occ = c :: r ∧ (isDigit c = true ∨ c = '-') := by
    rcases hint with ⟨_, e⟩ | ⟨_, e⟩
    · obtain ⟨c, r, h1, h2⟩ := hdig x.occ.natAbs
      exact ⟨c, r, by rw [e, h1], .inl h2⟩
    · exact ⟨_, _, e, .inr rfl⟩
  obtain ⟨c, r, hc, hcd⟩ := hhead
  have plus : ∀ {s : Str}, fmtInt x.occ ++ fmtDay x.day = '+' :: s → False := by
    intro s e
    rw [hc] at e
    simp only [List.cons_append, List.cons.injEq] at e
    rw [e.1] at hcd
    revert hcd
    decide
  have day : ∀ {d : Str} {m : Nat}, (d, m) ∈ weekdays → fmtInt x.occ ++ fmtDay x.day = d → False := by
    intro d m hm e
    rw [hc] at e
    have := hday _ _ hm c (by rw [← e]; simp)
    rcases hcd with h | h
    · rw [this.1] at h; cases h
    · exact this.2.1 h
  unfold Ordinal
  rcases h with h | ⟨d, n, hm, e, _⟩
  · generalize hs : fmtInt x.occ ++ fmtDay x.day = s at h
    cases h with
    | every hm => exact (day hm hs).elim
    | plus _ _ => exact (plus hs).elim
    | @plain o d n k ho hm =>
      rcases hint with ⟨hp, e⟩ | ⟨hp, e⟩
      · rw [e] at hs
        have := nat ho hm hs
        omega
      · exfalso
        rw [e] at hs
        obtain ⟨ho, _⟩ := ho
        obtain ⟨q1, q2, _⟩ := Dec_facts ho
        cases o with
        | nil => exact q1 rfl
        | cons a o =>
          simp only [List.cons_append, List.cons.injEq] at hs
          rw [← hs.1] at q2
          simp [isDigit] at q2
    | @minus o d n k ho hm =>
      rcases hint with ⟨hp, e⟩ | ⟨hp, e⟩
      · exfalso
        obtain ⟨c, r, h1, h2⟩ := hdig x.occ.natAbs
        rw [e, h1] at hs
        simp only [List.cons_append, List.cons.injEq] at hs
        rw [hs.1] at h2
        revert h2
        decide
      · rw [e] at hs
        simp only [List.cons_append, List.cons.injEq, true_and] at hs
        have := nat ho hm hs
        omega
  · exact (plus e).elim

open Props

theorem partsNamed_byDay (E : Env) (r : Recur) (h : r.byDay ≠ []) : join [','] (r.byDay.map fmtDayRecur) ∈ partsNamed (ruleOf E r) c!"BYDAY" := by
  rw [partsNamed_mem]
  unfold ruleOf
  have : (c!"BYDAY", join [','] (r.byDay.map fmtDayRecur)) ∈ listPart c!"BYDAY" fmtDayRecur r.byDay := by
    cases hb : r.byDay with
    | nil => exact absurd hb h
    | cons a l => simp [listPart]
  simp only [List.mem_append, this, true_or, or_true]

theorem dateTime_not_date {E : Env} {t t' : GoTime} (h : DateMeans (DateTime.encode E t) t') : False := by
  obtain ⟨y, m, d, k, ⟨a, b, c, e, ⟨d1, _⟩, ⟨d2, _⟩, ⟨d3, _⟩, _⟩, _⟩ := h
  have hT : 'T' ∈ DateTime.encode E t := by simp [DateTime.encode]
  rw [e] at hT
  have no : ∀ {s : Str} {n : Nat}, Dec s n → 'T' ∉ s := by
    intro s n h hm
    have := List.all_eq_true.1 (Dec_facts h).2.1 _ hm
    revert this
    decide
  simp only [List.mem_append] at hT
  rcases hT with (hT | hT) | hT
  · exact no d1 hT
  · exact no d2 hT
  · exact no d3 hT

theorem date_not_dateTime {E : Env} {p : Nat} {tz : Option Str} {t t' : GoTime} (h : DateTimeMeans E p tz (Date.encode E t) t') : False := by
  have hT : 'T' ∈ Date.encode E t := by
    obtain ⟨a, c, f, y, m, d, h, mi, sec, ns, k, l, _, _, _, _, _, h⟩ := h
    cases tz with
    | some n => rw [h.2]; simp
    | none => rcases h with ⟨_, e⟩ | ⟨_, e⟩ <;> rw [e] <;> simp
  unfold Date.encode at hT
  rcases fmtDate8_mem hT with h | h <;> revert h <;> decide

theorem recur_legible (E : Env) (r : Recur) (hw : r.WF) (hv : r.valid = .ok ()) :
    (∃ r', Recur.decode E 0 (tzidOf r.until_.loc) (Recur.encode E r) = .ok r') ↔ RuleReadable E r := by
  obtain ⟨v1, v2, v3, v4, v5, v6, v7, v8, v9, v10, v11⟩ := (Recur.valid_iff r).1 hv
  constructor
  · rintro ⟨r', h⟩
    obtain ⟨ps, h1, _, h2⟩ := (Recur.decode_iff ..).1 h
    cases h1.unique (ruleText_ruleOf E _)
    refine ⟨fun x hx => ?_, fun hc hz => ?_⟩
    · have hm := partsNamed_byDay E r (List.ne_nil_of_mem hx)
      have := h2.lists.byDay
      revert this
      unfold Once
      split
      · next e => rw [e] at hm; cases hm
      · next v e =>
        rw [e, List.mem_singleton] at hm
        subst hm
        rintro ⟨ws, hne, hcom, e', hp⟩
        have hfree : ∀ w ∈ r.byDay.map fmtDayRecur, ',' ∉ w := by
          intro w hw
          obtain ⟨y, hy, rfl⟩ := List.mem_map.1 hw
          exact fun h => (fmtDayRecur_mem h).2 rfl
        have : ws = r.byDay.map fmtDayRecur := by
          rw [← splitOn_join ',' ws hne hcom, ← e', splitOn_join ',' _ (by simpa using List.ne_nil_of_mem hx) hfree]
        subst this
        obtain ⟨y, hy⟩ := pairwise2_exists.2 ⟨_, pairwise2_map hp⟩ x hx
        exact weekday_legible (v5 x hx) hy
      · exact False.elim
    · have hu := h2.until_
      rw [partsNamed_until, if_neg (by simp [hc]), hz] at hu
      simp only [Bool.not_false, if_true] at hu
      have hu := lastOf_one hu
      unfold UntilValue at hu
      split at hu
      · next ht =>
        rcases hu with ⟨hu, _⟩ | ⟨hu, _⟩
        · obtain ⟨a, b⟩ := (dateTime_legible E 0 r.until_).1 ⟨_, (DateTime.decode_iff ..).2 hu⟩
          exact ⟨a, fun _ => b⟩
        · exact (dateTime_not_date hu).elim
      · next ht =>
        rcases hu with ⟨hu, _⟩ | ⟨hu, _⟩
        · exact (date_not_dateTime hu).elim
        · exact ⟨(date_legible E _).1 ⟨_, (Date.decode_iff ..).2 hu⟩, fun h => absurd h ht⟩
  · rintro ⟨h1, h2⟩
    have hz : (GoTime.isZero {}) = true := by decide
    have hr : RecurInRange { r with until_ := {}, untilTime := false } :=
      ⟨v1, v11, .inr hz, hw.count, hw.interval, v2, v3, v4, fun x hx => ⟨v5 x hx, h1 x hx⟩, v6, v7, v8, v9, v10⟩
    obtain ⟨ps, a1, a2, a3, _, a4, _, a5⟩ := Props.C56_written_rules_partial E 0 { r with until_ := {}, untilTime := false } hr
      ⟨fun _ => ⟨rfl, rfl⟩, fun h => absurd h (by rw [hz]; decide), fun h => absurd h (by rw [hz]; decide)⟩
    cases a1.unique (ruleText_ruleOf E _)
    have hp := partsNamed_dropUntil E r
    rw [hp _ (by decide)] at a2 a3 a4
    have key : ∃ u, Once (UntilValue E 0 (tzidOf r.until_.loc)) ({}, false) (partsNamed (ruleOf E r) c!"UNTIL") u := by
      rw [partsNamed_until]
      by_cases hc : r.count = 0
      · rw [if_neg (by simp [hc])]
        cases hu : r.until_.isZero with
        | true => exact ⟨_, rfl⟩
        | false =>
          obtain ⟨b1, b2⟩ := h2 hc hu
          cases ht : r.untilTime with
          | true =>
            obtain ⟨t, h⟩ := (dateTime_legible E 0 r.until_).2 ⟨b1, b2 ht⟩
            exact ⟨(t, true), .inl ⟨(DateTime.decode_iff ..).1 h, rfl⟩⟩
          | false =>
            obtain ⟨t, h⟩ := (date_legible E r.until_).2 b1
            exact ⟨(t, false), .inr ⟨(Date.decode_iff ..).1 h, rfl⟩⟩
      · rw [if_pos hc]
        exact ⟨_, rfl⟩
    obtain ⟨u, hu⟩ := key
    refine ⟨{ r with until_ := u.1, untilTime := u.2 }, Props.C56_rfc_rules_read E 0 _ _ _ ⟨_, ruleText_ruleOf E r, a2, a3, hu, a4, ?_, listsRead_congr hp rfl a5⟩⟩
    rw [partsNamed_until]
    by_cases hc : r.count = 0
    · left
      rw [List.eq_nil_iff_forall_not_mem]
      intro v hv
      exact (ruleOf_mem (partsNamed_mem.1 hv)).2.2.1 rfl hc
    · exact .inr (if_pos hc)

/-! ## Values -/

theorem intLit_unique {s : Str} {i j : Int} (h : IntLit s i) (h' : IntLit s j) : i = j := by
  cases h with
  | plain a =>
    cases h' with
    | plain b => rw [Dec_unique a b]
    | plus b => exact absurd rfl (Dec_head_ne a _).2
    | minus b => exact absurd rfl (Dec_head_ne a _).1
  | plus a =>
    cases h' with
    | plain b => exact absurd rfl (Dec_head_ne b _).2
    | plus b => rw [Dec_unique a b]
  | minus a =>
    cases h' with
    | plain b => exact absurd rfl (Dec_head_ne b _).1
    | minus b => rw [Dec_unique a b]

theorem fmap_ok {α β : Type} {f : α → β} {x : Res α} : (∃ y, f <$> x = .ok y) ↔ ∃ a, x = .ok a := by
  cases x with
  | ok a => exact ⟨fun _ => ⟨a, rfl⟩, fun _ => ⟨f a, rfl⟩⟩
  | err e => exact ⟨fun ⟨_, h⟩ => (by cases h), fun ⟨_, h⟩ => by cases h⟩
  | panic => exact ⟨fun ⟨_, h⟩ => (by cases h), fun ⟨_, h⟩ => by cases h⟩

theorem val_legible {E : Env} {op : Str → Option Str} {v : Val} (hf : PlainFloats E v) (ht : op c!"TZID" = v.tzid) (hb : v.kind = .binary → op c!"ENCODING" = some c!"BASE64")
    (hs : ValSized v) (hv : v.valid = .ok ()) : (∃ w, Val.decode E op v.kind (v.text_ E) = .ok w) ↔ ValReadable E v := by
  have ok : ∀ {α : Type} {x : Res α} {a : α}, x = .ok a → ((∃ y, x = .ok y) ↔ True) := fun h => ⟨fun _ => trivial, fun _ => ⟨_, h⟩⟩
  cases v with
  | binary b =>
    simp only [Val.decode, Val.kind, Val.text_, ValReadable, fmap_ok]
    exact ok (by rw [hb rfl]; exact Binary.decode_encode b)
  | boolean b =>
    simp only [Val.decode, Val.kind, Val.text_, ValReadable, fmap_ok]
    exact ok (Boolean.decode_encode b)
  | calAddress u =>
    simp only [Val.decode, Val.kind, Val.text_, ValReadable, fmap_ok]
    exact ofOption_ok
  | uri u =>
    simp only [Val.decode, Val.kind, Val.text_, ValReadable, fmap_ok]
    exact ofOption_ok
  | date t =>
    simp only [Val.decode, Val.kind, Val.text_, ValReadable, fmap_ok]
    exact date_legible E t
  | dateTime t =>
    simp only [Val.decode, Val.kind, Val.text_, ValReadable, fmap_ok]
    rw [ht]
    exact dateTime_legible E 0 t
  | duration d =>
    simp only [Val.decode, Val.kind, Val.text_, ValReadable, fmap_ok]
    exact ok (Duration.decode_encode d hs)
  | integer i =>
    simp only [Val.decode, Val.kind, Val.text_, ValReadable, fmap_ok]
    unfold Integer.decode Integer.encode
    rw [ofOption_ok]
    constructor
    · rintro ⟨j, h⟩
      obtain ⟨h1, h2, h3⟩ := (parseInt_iff ..).1 h
      cases intLit_unique h1 (IntLit_fmtInt i)
      exact ⟨h2, by omega⟩
    · rintro ⟨h1, h2⟩
      exact ⟨i, parseInt_fmtInt h1 (by omega)⟩
  | mtext ts =>
    simp only [Val.decode, Val.kind, Val.text_, ValReadable, fmap_ok]
    cases ts with
    | nil => exact ok (a := [[]]) rfl
    | cons t ts => exact ok (MText.decode_encode _ (by simp))
  | period p =>
    simp only [Val.decode, Val.kind, Val.text_, ValReadable, fmap_ok]
    rw [ht]
    exact period_legible E 0 p hs hv
  | recur r =>
    simp only [Val.decode, Val.kind, Val.text_, ValReadable, fmap_ok]
    rw [ht]
    exact recur_legible E r hs hv
  | text t =>
    simp only [Val.decode, Val.kind, Val.text_, ValReadable, fmap_ok]
    exact ok (Text.decode_encode t)
  | tfloat t =>
    simp only [Val.decode, Val.kind, Val.text_, ValReadable, fmap_ok]
    have hn : ';' ∉ E.floatFormat t.1 := fun h => hf t rfl (List.mem_append_left _ h)
    unfold TFloat.decode TFloat.encode
    rw [split2_append ';' _ _ hn]
    simp only [FloatReadable]
    constructor
    · rintro ⟨w, h⟩
      obtain ⟨x, h1, h⟩ := Res.bind_eq_ok.1 h
      obtain ⟨y, h2, h⟩ := Res.bind_eq_ok.1 h
      exact ⟨ofOption_ok.1 ⟨x, h1⟩, ofOption_ok.1 ⟨y, h2⟩⟩
    · rintro ⟨⟨x, h1⟩, ⟨y, h2⟩⟩
      rw [h1, h2]
      exact ⟨(x, y), rfl⟩
  | utcOffset o =>
    simp only [Val.decode, Val.kind, Val.text_, ValReadable, fmap_ok]
    exact offset_legible o

/-! ## Properties -/

/-- Values of parameters that have a name.  Others are written as UNKNOWN, like zero. -/
def tameParam (k : PKind) (v : ParamVal) : ParamVal :=
  match k, v with
  | .enum names, .enum n => .enum (if n ≤ names.length then n else 0)
  | _, v => v

def tame : List PDef → List (Option ParamVal) → List (Option ParamVal)
  | d :: ds, p :: ps => p.map (tameParam d.kind) :: tame ds ps
  | _, _ => []

theorem tame_toks (E : Env) : ∀ (ds : List PDef) (ps : List (Option ParamVal)), paramToks E ds (tame ds ps) = paramToks E ds ps := by
  intro ds
  induction ds with
  | nil => intro ps; cases ps <;> rfl
  | cons d ds ih =>
    intro ps
    cases ps with
    | nil => rfl
    | cons p ps =>
      simp only [tame, paramToks, ih]
      congr 1
      cases p with
      | none => rfl
      | some v =>
        have : vanishes E d.kind (tameParam d.kind v) = vanishes E d.kind v ∧ ptokens E d.kind (tameParam d.kind v) = ptokens E d.kind v := by
          generalize d.kind = k
          cases k <;> cases v <;> first | exact ⟨rfl, rfl⟩ | skip
          next names n =>
          refine ⟨rfl, ?_⟩
          simp only [tameParam, ptokens]
          by_cases hn : n ≤ names.length
          · rw [if_pos hn]
          · rw [if_neg hn, if_pos rfl, if_neg (show ¬ n = 0 by omega), List.getD_eq_getElem?_getD, List.getElem?_eq_none (by omega), Option.getD_none]
        simp only [Option.map_some, this.1, this.2]

theorem tame_ok {E : Env} {k : PKind} {v : ParamVal} (ht : k.typed v = true) (hv : k.valid v = .ok ()) (hl : ParamLoose E k v) (hr : ParamReadable E v) :
    ParamOk E k (tameParam k v) := by
  cases k <;> cases v <;> simp only [PKind.typed, Bool.false_eq_true] at ht
  · next u =>
    have hr : E.urlString u = [] := hr
    exact ⟨by simp [tameParam, ParamSafe, hr], by simp [tameParam, vanishes, hr]⟩
  · next us =>
    have hr : us = [] := hr
    subst hr
    exact ⟨by simp [tameParam, ParamSafe], by simp [tameParam, vanishes]⟩
  · exact ⟨hl, fun _ => trivial⟩
  · next s =>
    have hv : Res.guard .invalidValue (fmtMatch s) = .ok () := hv
    rw [Res.guard_eq_ok] at hv
    exact ⟨hl, fun _ => hv⟩
  · next names n =>
    refine ⟨trivial, fun _ => ?_⟩
    simp only [tameParam]
    split <;> omega
  · exact ⟨hl, fun _ => trivial⟩
  · exact ⟨trivial, fun _ => trivial⟩
  · exact ⟨trivial, fun _ => trivial⟩

theorem tame_all {E : Env} : ∀ {ds : List PDef} {ps : List (Option ParamVal)} (n : Str) (vals : List (Str × Kind)) (vs : List (Option Val)),
    ParamsLoose E ds ps → (∀ x ∈ propParams ⟨n, .fields ds vals⟩ (.fields ps vs), x.1.kind.typed x.2 = true ∧ x.1.kind.valid x.2 = .ok () ∧ ParamReadable E x.2) →
    ParamsOk E ds (tame ds ps) := by
  intro ds
  induction ds with
  | nil => intro ps n vals vs h _; cases ps <;> first | trivial | exact absurd h id
  | cons d ds ih =>
    intro ps n vals vs h hx
    cases ps with
    | nil => exact absurd h id
    | cons p ps =>
      refine ⟨?_, ih n vals vs h.2 fun x hm => hx x ?_⟩
      · intro v e
        cases p with
        | none => cases e
        | some w =>
          cases e
          obtain ⟨a, b, c⟩ := hx (d, w) (by simp [propParams])
          exact tame_ok a b (h.1 w rfl) c
      · cases p with
        | none => simpa [propParams] using hm
        | some w => simp only [propParams, List.zip_cons_cons, List.filterMap_cons, Option.map_some] at hm ⊢; exact List.mem_cons_of_mem _ hm

/-- The line of a property with readable parameters is read as its value is. -/
theorem decode_toks (E : Env) {n : Str} {params : List PDef} {vals : List (Str × Kind)} (hf : FieldsWf params vals) {ps : List (Option ParamVal)} (h1 : ParamsOk E params ps)
    {i : Nat} {v : Val} (h2 : i < vals.length) (h4 : v.kind = (vals.getD i ([], .text)).2) :
    ∃ op : Str → Option Str, op c!"TZID" = v.tzid ∧ (v.kind = .binary → op c!"ENCODING" = some c!"BASE64") ∧
      ((∃ p', PSpec.decode E ⟨n, .fields params vals⟩ (paramToks E params ps ++ valueToks vals i ++ headToks v) (v.text_ E) = .ok p') ↔
        ∃ w, Val.decode E op v.kind (v.text_ E) = .ok w) ∧
      ∀ w, Val.decode E op v.kind (v.text_ E) = .ok w → PSpec.decode E ⟨n, .fields params vals⟩ (paramToks E params ps ++ valueToks vals i ++ headToks v) (v.text_ E) =
        .ok (.fields (paramsNorm E params ps) (oneOf vals.length i w)) := by
  have hunk : ∀ m : Str, (m = c!"VALUE" ∨ m = c!"TZID" ∨ m = c!"ENCODING") → paramIdx m params = none := by
    intro m hm
    rw [paramIdx_none]
    intro hc
    obtain ⟨d, hd, rfl⟩ := List.mem_map.1 hc
    have := hf.known d hd
    rcases hm with hm | hm | hm
    · exact this.nv hm
    · exact this.nt hm
    · exact this.ne hm
  have s1 := paramToks_steps E vals [] none params [] ps [] hf.known (by simpa using hf.nodup) h1 rfl
  simp only [List.nil_append] at s1
  have s2 : ∀ q, PState.steps E params vals ⟨q, none, []⟩ (valueToks vals i) =
      .ok ⟨q, if i = 0 then none else some i, []⟩ := by
    intro q
    unfold valueToks
    split
    · rfl
    · next h0 =>
      have hu : upper c!"VALUE" = c!"VALUE" := by decide
      have hl2 : 2 ≤ vals.length := by omega
      simp only [PState.steps, PState.step, hu, hunk _ (Or.inl rfl), indexOf_value hf h2 h0, true_and, hl2, if_true,
        Option.isSome_none, Bool.false_eq_true, if_false, Res.ok_bind]
  have s3 : ∀ q vt, ∃ op, PState.steps E params vals ⟨q, vt, []⟩ (headToks v) = .ok ⟨q, vt, op⟩ ∧
      opGet op c!"TZID" = v.tzid ∧ (v.kind = .binary → opGet op c!"ENCODING" = some c!"BASE64") := by
    intro q vt
    by_cases hb : v.kind = .binary
    · cases v <;> simp only [Val.kind, reduceCtorEq] at hb
      refine ⟨[(c!"ENCODING", c!"BASE64")], ?_, by simp [opGet, Val.tzid], fun _ => by decide⟩
      have hu : upper c!"ENCODING" = c!"ENCODING" := by decide
      simp only [headToks, PState.steps, PState.step, hu, hunk _ (Or.inr (Or.inr rfl))]
      rw [if_neg (by rintro ⟨hh, _⟩; exact absurd hh (by decide))]
      rfl
    · have hh : headToks v = match v.tzid with
          | some n => [(c!"TZID", [⟨false, n⟩])]
          | none => [] := by cases v <;> first | rfl | (exact absurd rfl hb)
      rw [hh]
      cases v.tzid with
      | none => exact ⟨[], rfl, rfl, fun h => absurd h hb⟩
      | some z =>
        refine ⟨[(c!"TZID", z)], ?_, by simp [opGet], fun h => absurd h hb⟩
        have hu : upper c!"TZID" = c!"TZID" := by decide
        simp only [PState.steps, PState.step, hu, hunk _ (Or.inr (Or.inl rfl))]
        rw [if_neg (by rintro ⟨hh, _⟩; exact absurd hh (by decide))]
        simp [join]
  obtain ⟨op, s3, o1, o2⟩ := s3 (paramsNorm E params ps) (if i = 0 then none else some i)
  have hs : PState.steps E params vals { ps := params.map fun _ => none } (paramToks E params ps ++ valueToks vals i ++ headToks v) =
      .ok ⟨paramsNorm E params ps, if i = 0 then none else some i, op⟩ := by
    rw [PState.steps_append, PState.steps_append, s1]
    show ((Res.ok _).bind _).bind _ = _
    simp only [Res.bind]
    rw [s2]
    exact s3
  refine ⟨opGet op, o1, o2, ?_⟩
  simp only [PSpec.decode, hs, Res.ok_bind]
  have hi : (if i = 0 then none else some i : Option Nat).getD 0 = i := by
    split
    · next h => simp [h]
    · rfl
  simp only [hi, ← h4]
  refine ⟨⟨?_, ?_⟩, ?_⟩
  · rintro ⟨p', h⟩
    obtain ⟨w, h, _⟩ := Res.bind_eq_ok.1 h
    exact ⟨w, h⟩
  · rintro ⟨w, h⟩
    rw [h]
    exact ⟨_, rfl⟩
  · intro w h
    rw [h]
    rfl

theorem readable_vanishes {E : Env} {k : PKind} {v : ParamVal} (ht : k.typed v = true) (h : ¬ ParamReadable E v) : (k = .url ∨ k = .urls) ∧ vanishes E k v = false := by
  cases k <;> cases v <;> simp only [PKind.typed, Bool.false_eq_true] at ht <;> first | exact absurd trivial h | skip
  · next u =>
    have h : ¬ E.urlString u = [] := h
    exact ⟨.inl rfl, by simp [vanishes, h]⟩
  · next us =>
    have h : ¬ us = [] := h
    exact ⟨.inr rfl, by simp [vanishes, h]⟩

theorem readable_safe {E : Env} {k : PKind} {v : ParamVal} (ht : k.typed v = true) (hl : ParamLoose E k v) (h : ParamReadable E v) : ParamSafe E k v := by
  cases k <;> cases v <;> simp only [PKind.typed, Bool.false_eq_true] at ht <;> first | exact hl | skip
  · next u =>
    have h : E.urlString u = [] := h
    simp [ParamSafe, h]
  · next us =>
    have h : us = [] := h
    subst h
    simp [ParamSafe]

/-- Of a property that can be written: when its line is read. -/
theorem prop_legible {E : Env} {f : SField} {p : PropVal} (hf : FieldWf f) (ht : f.spec.typed p = true) (hv : f.spec.valid p = .ok ())
    (hp : ∀ y ∈ propParams f.spec p, ParamWritable E y.1.kind y.2) (hl : ∀ v ∈ propVals p, CleanVal E v ∧ PlainFloats E v) (hz : ∀ v ∈ propVals p, ValSized v)
    (he : f.spec.encode E p ≠ none) :
    PropLoose E f.spec p ∧ ((∀ y ∈ propParams f.spec p, ParamReadable E y.2) → PropSafe E f.spec p) ∧
      (Legible E f p ↔ (∀ y ∈ propParams f.spec p, ParamReadable E y.2) ∧ ∀ v ∈ propVals p, ValReadable E v) := by
  have htp := PSpec.typed_params ht
  have hvp := valid_params hv
  have hw : ∀ y ∈ propParams f.spec p, ParamLoose E y.1.kind y.2 := by
    intro y hy
    refine (param_written (htp y hy) (hvp y hy) (hp y hy) fun h => he ?_).1
    rw [PSpec.encode_none]
    exact ⟨y, hy, (PKind.encode_none E y.1.name y.1.kind y.2 (htp y hy)).2 h⟩
  have hpl := propLoose_of ht hv hw (fun v hv => cleanVal_safe (hl v hv).1)
  refine ⟨hpl, fun hr => propSafe_of ht hv (fun y hy => readable_safe (htp y hy) (hw y hy) (hr y hy)) (fun v hv => cleanVal_safe (hl v hv).1), ?_⟩
  have par : Legible E f p → ∀ y ∈ propParams f.spec p, ParamReadable E y.2 := by
    rintro ⟨p', hb⟩ y hy
    by_cases h : ParamReadable E y.2
    · exact h
    · exfalso
      obtain ⟨hk, hn⟩ := readable_vanishes (htp y hy) h
      obtain ⟨hm, ds, vals, hs, hd⟩ := toLine_param hpl hy hn
      refine decode_unquoted hf.spec hm ?_ (ptokens_unquoted (htp y hy) hk hn) _ _ hb
      rw [hs]
      exact ⟨y.1, hd, rfl, hk⟩
  suffices hs : (∀ y ∈ propParams f.spec p, ParamReadable E y.2) → (Legible E f p ↔ ∀ v ∈ propVals p, ValReadable E v) from
    ⟨fun h => ⟨par h, (hs (par h)).1 h⟩, fun h => (hs h.1).2 h.2⟩
  intro hr
  have hwf := hf.spec
  obtain ⟨key, ⟨n, sh⟩, mult⟩ := f
  cases sh with
  | «enum» names =>
    cases p with
    | fields => simp [PSpec.typed] at ht
    | «enum» m =>
      refine ⟨fun _ v hv => by simp [propVals] at hv, fun _ => ⟨_, PSpec.decode_line E _ (.enum m) hwf ?_⟩⟩
      exact enum_valid hv
  | fields params vals =>
    cases p with
    | «enum» => simp [PSpec.typed] at ht
    | fields ps vs =>
      obtain ⟨_, t1, i, v, hi, e, hk, hvv⟩ := PSpec.typed_valid ht hv
      subst e
      have hvals : ∀ w, w ∈ propVals (.fields ps (oneOf vals.length i v)) ↔ w = v := by
        intro w
        simp only [propVals, List.mem_filterMap, id]
        constructor
        · rintro ⟨o, ho, rfl⟩
          rcases List.mem_or_eq_of_mem_set ho with ho | ho
          · rw [List.mem_replicate] at ho; cases ho.2
          · cases ho; rfl
        · rintro rfl
          exact ⟨some w, List.mem_of_getElem? (i := i) (by simp [oneOf, hi]), rfl⟩
      have h1 := tame_all n vals (oneOf vals.length i v) hpl.1 fun x hx => ⟨htp x hx, hvp x hx, hr x hx⟩
      obtain ⟨op, o1, o2, o3, _⟩ := decode_toks E (n := n) (PSpec.wf_fields hwf) h1 hi hk
      rw [tame_toks] at o3
      have hline : toLine E ⟨n, .fields params vals⟩ (.fields ps (oneOf vals.length i v)) =
          ⟨n, paramToks E params ps ++ valueToks vals i ++ headToks v, v.text_ E⟩ := by
        simp only [toLine, oneOf_findIdx _ i v hi, oneOf_get _ i v hi]
      unfold Legible
      simp only [hvals, forall_eq, hline] at hl hz ⊢
      rw [o3]
      exact val_legible hl.2 o1 o2 hz hvv

/-- LAST-MODIFIED has no parameters. -/
theorem lastMod_plain : ∀ x ∈ tabCalendar.subs, ∀ d ∈ x.2.fields, d.key = kLastMod → ∀ p, propParams d.spec p = [] := by
  have : ∀ x ∈ tabCalendar.subs, ∀ d ∈ x.2.fields, d.key = kLastMod → d.spec = propLastModified := by decide +kernel
  intro x hx d hd hk p
  rw [this x hx d hd hk]
  cases p <;> rfl

theorem GoodCal.lastMod {P : SField → PropVal → Prop} {c : Cal} (h : GoodCal P c) : ∀ x ∈ calProps c, x.1.key = kLastMod → propParams x.1.spec x.2 = [] := by
  intro x hx hk
  rcases List.mem_append.1 hx with hx | hx
  · exact absurd hk (names_match.1 _ (h.props x hx).2).2
  obtain ⟨y, hy, z, hz, hx⟩ := mem_below.1 hx
  have hy' := (List.of_mem_zip hy).1
  have hc := h.2.2.1.of_zip y hy z hz
  rcases List.mem_append.1 hx with hx | hx
  · exact lastMod_plain _ hy' _ (hc.props x hx).2 hk _
  obtain ⟨w, hw, v, hv, hx⟩ := mem_below.1 hx
  have hs := hc.2.2.1.of_zip w hw v hv
  have hw' := (List.of_mem_zip hw).1
  obtain ⟨⟨n, k⟩, ws⟩ := w
  cases k with
  | leaf T =>
    cases v with
    | alarm a => exact absurd hs id
    | leaf s => exact absurd hk (names_match.2.2.2 T (leafTab_mem _ hy' _ hw' T rfl) _ (GoodSect.props hs x hx).2).2
  | alarm =>
    cases v with
    | leaf s => exact absurd hs id
    | alarm o =>
      cases o with
      | none => exact absurd hs id
      | some o => exact absurd hk (names_match.2.2.1 o.1 _ (GoodSect.props hs x hx).2).2

end Ics
