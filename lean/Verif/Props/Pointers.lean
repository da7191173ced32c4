import Verif.PointersLemmas
import Verif.Props.Refused
import Verif.Props.Meaning
/-!
# C87: nil pointers given to Encode
-/

namespace Ics.Props

open Spec

/-- C87.  `Encode` panics with a nil calendar, -/
theorem C87_nil_calendar (E : Env) (W : Sink) (cut : Str → List Str) : encodePtr E W cut none = .panic := rfl

/-- C87.  and with a calendar exactly if a nil pointer in an alarm, other than one to `AlarmNone`, comes before everything that is refused. -/
theorem C87_panics (E : Env) (W : Sink) (cut : Str → List Str) (c : CalP) (ht : c.typed = true) :
    encodePtr E W cut (some c) = .panic ↔ ∃ a b, c.entries = a ++ .nil :: b ∧ ∀ x ∈ a, x.Fine := by
  rw [← CalP.valid_panic ht]
  unfold encodePtr
  dsimp only
  split
  · next h => simp [h]
  · next h => simp [h]
  · next h =>
    rw [h]
    split <;> simp

/-- C87.  The error is that of the first part that is refused, if no nil pointer comes before it. -/
theorem C87_error (E : Env) (W : Sink) (cut : Str → List Str) (c : CalP) (ht : c.typed = true) (e : Err) :
    (∃ o, encodePtr E W cut (some c) = .done o ∧ o.err = some (.validation e)) ↔ First EntryP.Fine EntryP.Refused c.entries e := by
  rw [← CalP.valid_err ht]
  unfold encodePtr
  dsimp only
  split
  · next e' h =>
    rw [h]
    constructor
    · rintro ⟨o, h1, h2⟩
      injection h1 with h1
      subst h1
      injection h2 with h2
      injection h2 with h2
      rw [h2]
    · intro h1
      injection h1 with h1
      exact ⟨_, rfl, by rw [h1]⟩
  · next h => rw [h]; exact ⟨fun ⟨_, h1, _⟩ => (nomatch h1), fun h1 => (nomatch h1)⟩
  · next h =>
    rw [h]
    refine ⟨?_, fun h1 => (nomatch h1)⟩
    rintro ⟨o, h1, h2⟩
    split at h1
    · cases h1
    · injection h1 with h1
      subst h1
      dsimp only at h2
      cases h3 : Folder.err _ with
      | none => rw [h3] at h2; cases h2
      | some n => rw [h3] at h2; cases h2

/-- C87.  Without nil pointers, other than to `AlarmNone`, `Encode` does what the model without pointers does: a nil `*AlarmNone` is an alarm with nothing set. -/
theorem C87_no_nil (E : Env) (W : Sink) (cut : Str → List Str) (c : CalP) (h : ∀ x ∈ c.parts, ¬ x.Crashes) :
    encodePtr E W cut (some c) = encode E W cut c.filled := by
  unfold encodePtr encode
  dsimp only
  rw [validP_filled h, encodeDocP_filled]
  rfl

/-- C87.  So it does not panic then. -/
theorem C87_no_panic (E : Env) (W : Sink) (cut : Str → List Str) (c : CalP) (h : ∀ x ∈ c.parts, ¬ x.Crashes) : encodePtr E W cut (some c) ≠ .panic := by
  rw [C87_no_nil E W cut c h]
  exact C59_encode_never_panics E W cut c.filled

/-- C87.  `Encode` returns an error and writes nothing, or panics, whenever there is such a pointer. -/
theorem C87_nil (E : Env) (W : Sink) (cut : Str → List Str) (c : CalP) (h : EntryP.nil ∈ c.entries) :
    encodePtr E W cut (some c) = .panic ∨ ∃ e, encodePtr E W cut (some c) = .done ⟨some (.validation e), {}⟩ := by
  unfold encodePtr
  dsimp only
  split
  · next e h1 => exact .inr ⟨e, rfl⟩
  · exact .inl rfl
  · next h1 =>
    exfalso
    have : ∀ l : List (Res Unit), inTurn l = .ok () → ∀ x ∈ l, x = .ok () := by
      intro l
      induction l with
      | nil => simp
      | cons x l ih =>
        intro h y hy
        cases x with
        | ok u =>
          rcases List.mem_cons.1 hy with rfl | hy
          · rfl
          · exact ih h y hy
        | err e => cases h
        | panic => cases h
    rw [CalP.valid_entries] at h1
    have := this _ h1 _ (List.mem_map_of_mem h)
    cases this

/-- C87.  All calendars of the other model are calendars of this one, with the same outcome. -/
theorem C87_same (E : Env) (W : Sink) (cut : Str → List Str) (c : Cal) :
    ∃ d : CalP, d.filled = c ∧ d.typed = c.typed ∧ encodePtr E W cut (some d) = encode E W cut c := by
  let d : CalP := ⟨c.fields, c.subs.map fun l => l.map fun s => ⟨s.fields, s.subs.map fun l => l.map PartP.part⟩⟩
  have hd : d.filled = c := by
    have h0 : ∀ m : List Sub, (m.map PartP.part).map PartP.filled = m := fun m => by rw [List.map_map]; exact List.map_id m
    have h1 : ∀ s : Comp, (⟨s.fields, (s.subs.map fun l => l.map PartP.part).map fun l => l.map PartP.filled⟩ : Comp) = s := by
      intro s
      rw [List.map_map]
      have : ((fun l => l.map PartP.filled) ∘ fun l : List Sub => l.map PartP.part) = id := funext h0
      rw [this, List.map_id]
    unfold CalP.filled
    simp only [d, List.map_map]
    have h2 : ((fun l : List CompP => l.map fun s => (⟨s.fields, s.subs.map fun l => l.map PartP.filled⟩ : Comp)) ∘
        fun l : List Comp => l.map fun s => (⟨s.fields, s.subs.map fun l => l.map PartP.part⟩ : CompP)) = id := by
      funext l
      show (l.map _).map _ = l
      rw [List.map_map]
      have : ((fun s : CompP => (⟨s.fields, s.subs.map fun l => l.map PartP.filled⟩ : Comp)) ∘
        fun s : Comp => (⟨s.fields, s.subs.map fun l => l.map PartP.part⟩ : CompP)) = id := funext h1
      rw [this, List.map_id]
    rw [h2, List.map_id]
  have hp : ∀ x ∈ d.parts, ∃ y, x = .part y := by
    intro x hx
    simp only [CalP.parts, d, List.mem_flatMap, List.mem_map] at hx
    obtain ⟨_, ⟨l, _, rfl⟩, _, hs, _, hm, hx⟩ := hx
    obtain ⟨s, _, rfl⟩ := List.mem_map.1 hs
    obtain ⟨m, _, rfl⟩ := List.mem_map.1 hm
    obtain ⟨y, _, rfl⟩ := List.mem_map.1 hx
    exact ⟨y, rfl⟩
  refine ⟨d, hd, ?_, ?_⟩
  · rw [← hd]
    exact typedP_filled fun x hx k => by
      obtain ⟨y, rfl⟩ := hp x hx
      cases k <;> rfl
  · rw [C87_no_nil E W cut d, hd]
    intro x hx
    obtain ⟨y, rfl⟩ := hp x hx
    exact id

/-! ### Instances -/

/-- A calendar with an event that has this alarm. -/
def pointerCal (t : GoTime) (p : PartP) : CalP := ⟨(sect tabCalendar (σ := Comp) [(c!"VERSION", val1 0 (.text c!"2.0")), (c!"PRODID", val1 0 (.text c!"x"))] []).fields,
  [[⟨(sect tabEvent (σ := Sub) [(c!"DTSTAMP", val1 0 (.dateTime t)), (c!"UID", val1 0 (.text c!"1"))] []).fields, [[p]]⟩], [], [], [], []]⟩

/-- A nil `*AlarmAudio` panics; if the event has a property that is refused its error is returned. -/
example : (pointerCal ⟨1, 0, .utc⟩ (.nil .audio)).typed = true ∧ (pointerCal ⟨1, 0, .utc⟩ (.nil .audio)).valid = .panic ∧
    (pointerCal ⟨0, 0, .utc⟩ (.nil .audio)).typed = true ∧ (pointerCal ⟨0, 0, .utc⟩ (.nil .audio)).valid = .err .invalidTime := by decide +kernel

/-- A nil `*AlarmNone` does not. -/
example : (pointerCal ⟨1, 0, .utc⟩ (.nil .none)).typed = true ∧ (pointerCal ⟨1, 0, .utc⟩ (.nil .none)).valid = .ok () ∧
    ∀ x ∈ (pointerCal ⟨1, 0, .utc⟩ (.nil .none)).parts, ¬ x.Crashes :=
  ⟨by decide +kernel, by decide +kernel, by
    intro x hx
    rcases List.mem_singleton.1 (show x ∈ [PartP.nil .none] from hx) with rfl
    exact fun h => h rfl⟩

end Ics.Props
