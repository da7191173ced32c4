import Verif.RefusalLemmas
import Verif.Props.Refused
/-!
# Theorems about what the errors of Encode say: C90
-/

namespace Ics.Props

open Spec

/-! ## C90 The text of the error of Encode names the block and the property -/

/-- C90.  There is a text exactly if `Encode` returns a validation error. -/
theorem C90_text_iff_error (V : SField → PropVal → Str) (E : Env) (W : Sink) (cut : Str → List Str) (c : Cal) :
    (∃ m, calSaysInvalid V c = some m) ↔ ∃ o e, encode E W cut c = .done o ∧ o.err = some (.validation e) := by
  have h1 : (∃ o e, encode E W cut c = .done o ∧ o.err = some (.validation e)) ↔ ∃ e, c.valid = .err e := by
    constructor
    · rintro ⟨o, e, h1, h2⟩
      exact ⟨e, ((C06_nothing_written E W cut c).1 o e h1 h2).2.2⟩
    · rintro ⟨e, h⟩
      obtain ⟨o, h⟩ := (C06_nothing_written E W cut c).2 e h
      exact ⟨o, e, h⟩
  rw [h1, calInvalid_eq, Cal.valid_inTurn, ← calPlaces_entries]
  generalize calPlaces c = l
  induction l with
  | nil => simp [inTurn]
  | cons x l ih =>
    rw [List.findSome?_cons, List.map_cons, List.map_cons, inTurn, Place.said]
    cases hv : x.entry.valid with
    | ok u => exact ih
    | err e => exact ⟨fun _ => ⟨e, rfl⟩, fun _ => ⟨_, rfl⟩⟩
    | panic =>
      exfalso
      cases hx : x.entry with
      | prop f p => rw [hx] at hv; exact PSpec.valid_ne_panic f.spec p hv
      | noAlarm => rw [hx] at hv; cases hv

/-- C90.  Exactly the text: that of the first place that is refused, the way to it from the calendar and then what is wrong there. -/
theorem C90_text_iff (V : SField → PropVal → Str) (c : Cal) (ht : c.typed = true) (m : Str) :
    calSaysInvalid V c = some m ↔ ∃ pre x post, calPlaces c = pre ++ x :: post ∧ (∀ y ∈ pre, EntryFine y.entry) ∧ ¬ EntryFine x.entry ∧ m = x.text V := by
  have hfine : ∀ x ∈ calPlaces c, (x.entry.valid = .ok () ↔ EntryFine x.entry) ∧ x.entry.valid ≠ .panic := by
    intro x hx
    have hm : x.entry ∈ calEntries c := by rw [← calPlaces_entries]; exact List.mem_map.2 ⟨x, hx, rfl⟩
    cases he : x.entry with
    | prop f p =>
      rw [he] at hm
      exact ⟨prop_fine_iff (Cal.typed_props ht _ (calEntries_prop hm)), PSpec.valid_ne_panic f.spec p⟩
    | noAlarm => exact ⟨by simp [Entry.valid, EntryFine], by simp [Entry.valid]⟩
  rw [calInvalid_eq]
  generalize calPlaces c = l at hfine
  induction l with
  | nil => simp
  | cons x l ih =>
    have ih := ih fun y hy => hfine y (List.mem_cons_of_mem _ hy)
    obtain ⟨h1, h2⟩ := hfine x (List.mem_cons_self ..)
    rw [List.findSome?_cons, Place.said]
    cases hv : x.entry.valid with
    | ok u =>
      have hf := h1.1 (by rw [hv])
      simp only [Res.said]
      refine Iff.trans ih ?_
      constructor
      · rintro ⟨pre, y, post, rfl, h3, h4, h5⟩
        refine ⟨x :: pre, y, post, rfl, fun z hz => ?_, h4, h5⟩
        rcases List.mem_cons.1 hz with rfl | hz
        · exact hf
        · exact h3 z hz
      · rintro ⟨pre, y, post, he, h3, h4, h5⟩
        cases pre with
        | nil =>
          simp only [List.nil_append, List.cons.injEq] at he
          exact absurd (he.1 ▸ hf) h4
        | cons z pre =>
          simp only [List.cons_append, List.cons.injEq] at he
          exact ⟨pre, y, post, he.2, fun w hw => h3 w (List.mem_cons_of_mem _ hw), h4, h5⟩
    | err e =>
      have hf : ¬ EntryFine x.entry := fun h => by have := h1.2 h; rw [hv] at this; cases this
      simp only [Res.said, Option.some.injEq]
      constructor
      · rintro rfl
        exact ⟨[], x, l, rfl, by simp, hf, rfl⟩
      · rintro ⟨pre, y, post, he, h3, h4, h5⟩
        cases pre with
        | nil =>
          simp only [List.nil_append, List.cons.injEq] at he
          rw [h5, he.1]
        | cons z pre =>
          simp only [List.cons_append, List.cons.injEq] at he
          exact absurd (he.1 ▸ h3 z (List.mem_cons_self ..)) hf
    | panic => exact absurd hv h2

/-- C90.  The places are what is looked at (C86), in the same order. -/
theorem C90_places (c : Cal) : (calPlaces c).map (·.entry) = calEntries c := calPlaces_entries c

/-! ### Instances -/

/-- Three things that are refused, one after the other put right: first a property of the calendar, then one of the event in it, then the alarm without type in that. -/
example : (∃ e, (refusedCal c!"\u0001" ⟨0, 0, .utc⟩).valid = .err e) ∧
    calSaysInvalid (fun _ _ => c!"…") (refusedCal c!"\u0001" ⟨0, 0, .utc⟩) = some c!"error validating Calendar->ProductID: …" ∧
    calSaysInvalid (fun _ _ => c!"…") (refusedCal c!"x" ⟨0, 0, .utc⟩) = some c!"error validating Calendar->Event: error validating Event->DateTimeStamp: …" ∧
    calSaysInvalid (fun _ _ => c!"…") (refusedCal c!"x" ⟨1, 0, .utc⟩) = some c!"error validating Calendar->Event: error validating Event->Alarm: invalid alarm type" := by
  refine ⟨⟨.invalidText, ?_⟩, ?_, ?_, ?_⟩ <;> decide +kernel

/-- The same from the specification. -/
example : ∃ pre x post, calPlaces (refusedCal c!"x" ⟨1, 0, .utc⟩) = pre ++ x :: post ∧ (∀ y ∈ pre, EntryFine y.entry) ∧ ¬ EntryFine x.entry ∧
    x.text (fun _ _ => []) = c!"error validating Calendar->Event: error validating Event->Alarm: invalid alarm type" := by
  obtain ⟨pre, x, post, h1, h2, h3, h4⟩ := (C90_text_iff (fun _ _ => []) (refusedCal c!"x" ⟨1, 0, .utc⟩) (by decide +kernel)
    c!"error validating Calendar->Event: error validating Event->Alarm: invalid alarm type").1 (by decide +kernel)
  exact ⟨pre, x, post, h1, h2, h3, h4.symm⟩

end Ics.Props
