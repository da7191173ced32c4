import Verif.GoTypesLemmas
import Verif.Props.Refused
import Verif.Props.Cases
import Verif.Props.Pointers
/-!
# C59, C86: the calendars spoken of are those that a Go program can make
-/

namespace Ics.Props

open Ics Spec

/-- C59.  The calendars of which the theorems about `Encode` speak are exactly those of the Go type. -/
theorem C59_go_type (c : Cal) : c.typed = true ↔ CalOfType c := cal_of_type c

/-- C59.  The same for properties. -/
theorem C59_go_type_property (sp : PSpec) (p : PropVal) : sp.typed p = true ↔ PropOfType sp p := prop_of_type sp p

/-- C87.  With nil pointers, too: those that a Go program can put in, and no others. -/
theorem C87_go_type (c : CalP) : c.typed = true ↔ PointersOfType c := by
  refine sect_of_type tabCalendar (fun _ _ _ x => sect_of_type _ (fun _ k _ y => ?_) x) c
  unfold partTyped PartOfType
  cases y with
  | part s => simp [sub_of_type]
  | nil a => cases k <;> simp

/-- C87.  A nil pointer to an alarm type can be put in any list of alarms, and the calendar is still one of the Go type. -/
theorem C87_nil_anywhere (c : CalP) (hc : PointersOfType c) (n m : Nat) (name aname : Str) (T : Tab SubKind) (hT : tabCalendar.subs[n]? = some (name, T)) (hm : T.subs[m]? = some (aname, .alarm))
    (before after : List CompP) (s : CompP) (hs : c.subs[n]? = some (before ++ s :: after)) (l1 l2 : List PartP) (ha : s.subs[m]? = some (l1 ++ l2)) (a : AKind) :
    PointersOfType { c with subs := c.subs.set n (before ++ { s with subs := s.subs.set m (l1 ++ .nil a :: l2) } :: after) } := by
  have h := hc.part name T _ ⟨n, hT, hs⟩ s (by simp)
  have hs' : SectOfType PartOfType T { s with subs := s.subs.set m (l1 ++ .nil a :: l2) } := by
    refine ⟨h.fields, h.field, by simp [h.parts], fun k1 k2 ss hb x hx => ?_⟩
    obtain ⟨i, h1, h2⟩ := hb
    simp only [List.getElem?_set] at h2
    split at h2
    · rename_i hi
      subst hi
      rw [hm] at h1
      cases h1
      split at h2
      · cases h2
        simp only [List.mem_append, List.mem_cons] at hx
        rcases hx with hx | rfl | hx
        · exact h.part _ _ _ ⟨m, hm, ha⟩ x (by simp [hx])
        · exact .inr ⟨rfl, a, rfl⟩
        · exact h.part _ _ _ ⟨m, hm, ha⟩ x (by simp [hx])
      · cases h2
    · exact h.part _ _ _ ⟨i, h1, h2⟩ x hx
  refine ⟨hc.fields, hc.field, by simp [hc.parts], fun k1 k2 ss hb x hx => ?_⟩
  obtain ⟨i, h1, h2⟩ := hb
  simp only [List.getElem?_set] at h2
  split at h2
  · rename_i hi
    subst hi
    rw [hT] at h1
    cases h1
    split at h2
    · cases h2
      simp only [List.mem_append, List.mem_cons] at hx
      rcases hx with hx | rfl | hx
      · exact hc.part _ _ _ ⟨n, hT, hs⟩ x (by simp [hx])
      · exact hs'
      · exact hc.part _ _ _ ⟨n, hT, hs⟩ x (by simp [hx])
    · cases h2
  · exact hc.part _ _ _ ⟨i, h1, h2⟩ x hx

example : PointersOfType (pointerCal ⟨1, 0, .utc⟩ (.nil .audio)) := (C87_go_type _).1 (by decide +kernel)

/-- C86.  An alarm without type can be put in any list of alarms; `Encode` then returns an error and writes nothing. -/
theorem C86_alarm_without_type (E : Env) (W : Sink) (cut : Str → List Str) (c : Cal) (hc : CalOfType c) (n m : Nat) (name aname : Str) (T : Tab SubKind) (hT : tabCalendar.subs[n]? = some (name, T))
    (hm : T.subs[m]? = some (aname, .alarm)) (before after : List Comp) (s : Comp) (hs : c.subs[n]? = some (before ++ s :: after)) (as : List Sub) (ha : s.subs[m]? = some as)
    (l1 l2 : List Sub) (hl : as = l1 ++ l2) :
    let s' : Comp := { s with subs := s.subs.set m (l1 ++ .alarm none :: l2) }
    let c' : Cal := { c with subs := c.subs.set n (before ++ s' :: after) }
    CalOfType c' ∧ ∃ e o, encode E W cut c' = .done o ∧ o.err = some (.validation e) ∧ o.f.out = [] ∧ o.f.calls = 0 := by
  intro s' c'
  have hs' : SectOfType SubOfType T s' := by
    have h := hc.part name T _ ⟨n, hT, hs⟩ s (by simp)
    refine ⟨h.fields, h.field, by simp [s', h.parts], fun k1 k2 ss hb x hx => ?_⟩
    obtain ⟨i, h1, h2⟩ := hb
    simp only [s', List.getElem?_set] at h2
    split at h2
    · rename_i hi
      subst hi
      rw [hm] at h1
      cases h1
      split at h2
      · cases h2
        simp only [List.mem_append, List.mem_cons] at hx
        rcases hx with hx | rfl | hx
        · exact h.part _ _ _ ⟨m, hm, ha⟩ x (by simp [hl, hx])
        · exact .inl rfl
        · exact h.part _ _ _ ⟨m, hm, ha⟩ x (by simp [hl, hx])
      · cases h2
    · exact h.part _ _ _ ⟨i, h1, h2⟩ x hx
  have hc' : CalOfType c' := by
    refine ⟨hc.fields, hc.field, by simp [c', hc.parts], fun k1 k2 ss hb x hx => ?_⟩
    obtain ⟨i, h1, h2⟩ := hb
    simp only [c', List.getElem?_set] at h2
    split at h2
    · rename_i hi
      subst hi
      rw [hT] at h1
      cases h1
      split at h2
      · cases h2
        simp only [List.mem_append, List.mem_cons] at hx
        rcases hx with hx | rfl | hx
        · exact hc.part _ _ _ ⟨n, hT, hs⟩ x (by simp [hx])
        · exact hs'
        · exact hc.part _ _ _ ⟨n, hT, hs⟩ x (by simp [hx])
      · cases h2
    · exact hc.part _ _ _ ⟨i, h1, h2⟩ x hx
  refine ⟨hc', ?_⟩
  have hn : Entry.noAlarm ∈ calEntries c' := by
    have hn' : n < c.subs.length := (List.getElem?_eq_some_iff.1 hs).1
    have hm' : m < s.subs.length := (List.getElem?_eq_some_iff.1 ha).1
    have below_mem : ∀ {κ σ : Type} (f : κ → σ → List Entry) (T : Tab κ) (s : Sect σ) (i : Nat) (nm : Str) (k : κ) (l : List σ) (x : σ) (y : Entry),
        T.subs[i]? = some (nm, k) → s.subs[i]? = some l → x ∈ l → y ∈ f k x → y ∈ below f T s := by
      intro κ σ f T s i nm k l x y h1 h2 h3 h4
      unfold below
      refine List.mem_flatMap.2 ⟨((nm, k), l), ?_, List.mem_flatMap.2 ⟨x, h3, h4⟩⟩
      exact List.mem_of_getElem? (i := i) (by rw [List.getElem?_zip_eq_some]; exact ⟨h1, h2⟩)
    refine List.mem_append_right _ (below_mem Spec.compEntries tabCalendar c' n name T (before ++ s' :: after) s' _ hT (by simp [c', hn']) (by simp) ?_)
    exact List.mem_append_right _ (below_mem Spec.subEntries T s' m aname .alarm (l1 ++ .alarm none :: l2) (.alarm none) _ hm (by simp [s', hm']) (by simp) (show Entry.noAlarm ∈ [Entry.noAlarm] from List.mem_singleton_self _))
  cases hv : c'.valid with
  | ok u =>
    have all : ∀ l : List (Res Unit), inTurn l = .ok () → ∀ x ∈ l, x = .ok () := by
      intro l
      induction l with
      | nil => simp
      | cons x l ih =>
        intro h
        cases x with
        | ok u =>
          intro y hy
          rcases List.mem_cons.1 hy with rfl | hy
          · rfl
          · exact ih h y hy
        | err e => cases h
        | panic => cases h
    rw [Cal.valid_inTurn] at hv
    have := all _ hv _ (List.mem_map_of_mem hn)
    cases this
  | panic => exact absurd hv (Cal.valid_ne_panic c')
  | err e =>
    obtain ⟨o, h1, h2⟩ := (C06_nothing_written E W cut c').2 e hv
    exact ⟨e, o, h1, h2, ((C06_nothing_written E W cut c').1 o e h1 h2).1, ((C06_nothing_written E W cut c').1 o e h1 h2).2.1⟩

/-! ## Concrete cases -/

example : CalOfType sampleCal := (C59_go_type _).1 sampleCal_typed

/-- The event of the sample calendar gets an alarm without type, in front of the one it has. -/
example (E : Env) (W : Sink) (cut : Str → List Str) :=
  C86_alarm_without_type E W cut sampleCal ((C59_go_type _).1 sampleCal_typed) 0 0 _ _ _ rfl rfl [] [] _ rfl _ rfl [] _ rfl

end Ics.Props
