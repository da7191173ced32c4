import Verif.Spec.Spelling
import Verif.Props.Wording
/-!
# The words of the errors, letter by letter: C89, C91, C92

`Verif.Spec.Message` and `Verif.Spec.Wording` say which words the texts are made of; here is how they are spelt.
-/

namespace Ics.Props

open Ics Ics.Spec

/-- C89.  What is said of lines and blocks; everything else is said by others. -/
theorem C89_spelling (W : Words) : (∀ x ∈ blockWords, x.1.text W = x.2) ∧ ∀ e, e ∉ blockWords.map (·.1) → e.text W = W.ext e := by
  constructor
  · intro x hx
    simp only [blockWords, List.mem_cons, List.not_mem_nil, or_false] at hx
    rcases hx with h | h | h | h | h | h | h | h | h | h | h | h | h <;> rw [h] <;> rfl
  · intro e he
    cases e <;> first | rfl | (exact absurd (by decide) he)

/-- C89.  What the blocks are called. -/
theorem C89_block_names : (∀ T ∈ tabCalendar.subs, (T.2.name, goSect T.2.name) ∈ blockNames) ∧ (tabCalendar.name, goSect tabCalendar.name) ∈ blockNames ∧
    (∀ T ∈ [tabStandard, tabDaylight], (T.name, goSect T.name) ∈ blockNames) ∧ ∀ a : AKind, (a.action, a.goName) ∈ alarmNames := by
  refine ⟨by decide, by decide, by decide, fun a => ?_⟩
  cases a <;> decide

/-- C89.  What their properties are called. -/
theorem C89_property_names :
    (∀ f ∈ tabCalendar.fields, (f.key, goField c!"Calendar" f.key) ∈ propertyNames) ∧
    (∀ T ∈ tabCalendar.subs, ∀ f ∈ T.2.fields, (f.key, goField (goSect T.2.name) f.key) ∈ propertyNames) ∧
    (∀ T ∈ [tabStandard, tabDaylight], ∀ f ∈ T.fields, (f.key, goField (goSect T.name) f.key) ∈ propertyNames) ∧
    (∀ a : AKind, ∀ f ∈ a.tab.fields, if f.key = c!"STATUS" then goField a.goName f.key = c!"AlarmStatus" else (f.key, goField a.goName f.key) ∈ propertyNames) := by
  refine ⟨by decide +kernel, by decide +kernel, by decide +kernel, fun a => ?_⟩
  cases a <;> decide +kernel

/-- The names that are listed are the only ones. -/
theorem names_once : (blockNames.map (·.1)).Nodup ∧ (alarmNames.map (·.1)).Nodup ∧ (propertyNames.map (·.1)).Nodup ∧ (parameterNames.map (·.1)).Nodup ∧ (typeNames.map (·.1)).Nodup := by
  decide +kernel

/-- With one name for each, the listed one is the name. -/
theorem listed_once {α : Type} {L : List (α × Str)} (h : (L.map (·.1)).Nodup) {a : α} {x y : Str} (hx : (a, x) ∈ L) (hy : (a, y) ∈ L) : x = y := by
  induction L with
  | nil => cases hx
  | cons z L ih =>
    rw [List.map_cons, List.nodup_cons] at h
    rcases List.mem_cons.1 hx with rfl | hx'
    · rcases List.mem_cons.1 hy with hy | hy
      · injection hy with _ hy; exact hy.symm
      · exact absurd (List.mem_map.2 ⟨_, hy, rfl⟩) h.1
    · rcases List.mem_cons.1 hy with rfl | hy
      · exact absurd (List.mem_map.2 ⟨(a, x), hx', rfl⟩ : a ∈ L.map (·.1)) h.1
      · exact ih h.2 hx' hy

/-- C89.  A wrong property of a component, letter by letter: the calendar, the component and the property are named, each by its name in the lists, then comes what the property says. -/
theorem C89_component_words (W : Words) (E : Env) {s : Str} {pre r : List Line} {l : Line} {p q : Level} {T : Str × Tab SubKind} {f : SField} {e : Err} {t n : Str}
    (hs : (tokenise s).lines = pre ++ l :: r) (h : Midway E pre [p, q]) (hT : T ∈ tabCalendar.subs) (hp : p.frame = .comp T.2) (hf : f ∈ T.2.fields) (hk : f.key = upper l.name)
    (ho : f.mult = .many ∨ ¬ HasLine p.own f.key) (hd : f.spec.decode E l.params l.value = .err e) (ht : (T.2.name, t) ∈ blockNames) (hn : (f.key, n) ∈ propertyNames) :
    docSays W E s = some (c!"error decoding Calendar->" ++ t ++ c!": error decoding " ++ t ++ c!"->" ++ n ++ c!": " ++ W.prop f l) := by
  rw [C89_component_property W E hs h hp hf hk ho hd, listed_once names_once.2.2.1 (C89_property_names.2.1 T hT f hf) hn, listed_once names_once.1 (C89_block_names.1 T hT) ht]

/-- C91.  What is said of properties, parameters and values. -/
theorem C91_spelling : (∀ x ∈ valueWords, x.1.sentinel = x.2) ∧ ∀ e, e ∉ valueWords.map (·.1) → e.sentinel = [] := by
  constructor
  · decide +kernel
  · intro e he
    cases e <;> first | rfl | (exact absurd (by decide) he)

/-- C91.  What parameters and types are called, in every property that there is. -/
theorem C91_words_names : ∀ f ∈ allFields, ∀ params vals, f.spec.shape = .fields params vals →
    (∀ d ∈ params, (d.name, goParam d.name) ∈ parameterNames) ∧ (params = [] ∧ vals.length = 1 ∨ ∀ x ∈ vals, (x.2, x.2.goName) ∈ typeNames) := by
  have h : (allFields.all fun f => match f.spec.shape with
      | .fields params vals => params.all (fun d => decide ((d.name, goParam d.name) ∈ parameterNames)) && (decide (params = [] ∧ vals.length = 1) || vals.all fun x => decide ((x.2, x.2.goName) ∈ typeNames))
      | .enum _ => true) = true := by decide +kernel
  intro f hf params vals hs
  have := List.all_eq_true.1 h f hf
  rw [hs] at this
  simpa using this

/-- C91, C92.  What a property calls itself, wherever it is. -/
theorem C91_own_names : ∀ f ∈ allFields, (f.key, goProp f) ∈ propertyNames ∨ f.key = c!"STATUS" ∧ goProp f = c!"AlarmStatus" := by
  decide +kernel

/-- C92.  What is said of values that `Encode` refuses is in the list, too. -/
theorem C92_spelling (v : Val) (m : Str) (h : valSaysInvalid v = some m) : ∃ e, v.valid = .err e ∧ (e, m) ∈ valueWords := by
  unfold valSaysInvalid Res.wording at h
  split at h
  · next e he =>
    refine ⟨e, he, ?_⟩
    have hr := (val_refused v e).1 he
    have hm : e ∈ valueWords.map (·.1) := by
      unfold ValRefused at hr
      split at hr
      · rw [hr.1]; decide
      · rw [hr.1]; decide
      · rw [hr.1]; decide
      · rw [hr.1]; decide
      · rcases hr with hr | hr | hr <;> rw [hr.1] <;> decide
      · obtain ⟨a, x, b, h1, _, _, rfl⟩ := hr
        have hall : ∀ r, ∀ e ∈ (ruleChecks r).map (·.1), e ∈ valueWords.map (·.1) := by
          intro r
          simp only [ruleChecks, List.map]
          decide
        have hx := List.mem_append_right a (List.mem_cons_self : x ∈ x :: b)
        rw [← h1] at hx
        exact hall _ _ (List.mem_map.2 ⟨x, hx, rfl⟩)
      · rw [hr.1]; decide
      · cases hr
    obtain ⟨y, hy, rfl⟩ := List.mem_map.1 hm
    have hw := C91_spelling.1 y hy
    have : y.1.wording [] = y.1.sentinel := by
      unfold Err.wording
      split
      · next h => rw [h] at hm; exact absurd hm (by decide)
      · rfl
    rw [← Option.some.inj h, this, hw]
    exact hy
  · cases h

/-! ### Examples -/

example : docSays sampleWords sampleEnv (textOf (seqPre ++ [seqBad])) = some c!"error decoding Calendar->Event: error decoding Event->Sequence: …" :=
  C89_component_words sampleWords sampleEnv (T := (c!"VEVENT", tabEvent)) (l := seqBad) (f := ⟨c!"SEQUENCE", propSequence, .opt⟩) (e := .ext) (t := c!"Event") (n := c!"Sequence") (r := [])
    (by decide +kernel) seqPre_reading (List.mem_of_getElem? (i := 0) rfl) rfl (by simp [tabEvent]) (by decide) (Or.inr (by simp [HasLine, linesNamed]; decide)) (by decide +kernel) (by decide) (by decide +kernel)

example : valSaysInvalid (.text c!"\u0001") = some c!"invalid encoded text" := by decide +kernel

end Ics.Props
