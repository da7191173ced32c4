import Verif.LookedValueLemmas
import Verif.Props.Machines
/-!
# Theorems about the same document on different machines: C76, exactly
-/

namespace Ics.Props

open Spec

/-- C76.  A document that one machine accepts is accepted by another exactly if the lines that are read for their values are readable there.  Which lines these are, and as which
properties, follows from the text alone. -/
theorem C76_accepted_exactly_partial (E E' : Env) (s : Str) (c : Cal) (h : decodeDoc E s = .ok c) :
    (∃ c', decodeDoc E' s = .ok c') ↔ ∀ y ∈ lookedAt (tokenise s).lines, LineReads E' y := by
  refine (accepted_too (t := (tokenise s).term) h).trans ?_
  exact ⟨fun h y hy => (lineDecodes_iff hy).1 (h y hy), fun h y hy => (lineDecodes_iff hy).2 (h y hy)⟩

theorem all_read {E : Env} {s : Str} {c : Cal} (h : decodeDoc E s = .ok c) : ∀ y ∈ lookedAt (tokenise s).lines, LineReads E y :=
  (C76_accepted_exactly_partial E E s c h).1 ⟨c, h⟩

/-- C76.  It is the same calendar exactly if these lines are read as on the first machine. -/
theorem C76_same_exactly_partial (E E' : Env) (s : Str) (c : Cal) (h : decodeDoc E s = .ok c) :
    decodeDoc E' s = .ok c ↔ ∀ y ∈ lookedAt (tokenise s).lines, LineSame E E' y := by
  refine (same_exactly (t := (tokenise s).term) h).trans ?_
  exact ⟨fun g y hy => (sameRead_iff hy (all_read h y hy)).1 (g y hy), fun g y hy => (sameRead_iff hy (all_read h y hy)).2 (g y hy)⟩

/-- C76.  On a machine with the same Go library the document is accepted exactly if the machine knows the time zones of the times and periods in it, and its rules are rules
there. -/
theorem C76_zones_exactly_partial (E E' : Env) (hL : SameLibrary E E') (s : Str) (c : Cal) (h : decodeDoc E s = .ok c) :
    (∃ c', decodeDoc E' s = .ok c') ↔ ∀ y ∈ lookedAt (tokenise s).lines, ∀ k, HasKind y k → ValKnown E' (otherParam y.2.params) k y.2.value := by
  rw [C76_accepted_exactly_partial E E' s c h]
  exact ⟨fun g y hy => (line_known hL (lookedAt_known y hy) (all_read h y hy)).1 (g y hy), fun g y hy => (line_known hL (lookedAt_known y hy) (all_read h y hy)).2 (g y hy)⟩

/-- C76.  It is the same calendar exactly if the times and the ends of the periods in it are the same instants in the same locations there, and the rules are the same.

Missing: that they are; they are not in general. -/
theorem C76_instants_exactly_partial (E E' : Env) (hL : SameLibrary E E') (s : Str) (c : Cal) (h : decodeDoc E s = .ok c) :
    decodeDoc E' s = .ok c ↔ ∀ y ∈ lookedAt (tokenise s).lines, ∀ k, HasKind y k → ValSame E E' (otherParam y.2.params) k y.2.value := by
  rw [C76_same_exactly_partial E E' s c h]
  exact ⟨fun g y hy => (line_same hL (lookedAt_known y hy) (all_read h y hy)).1 (g y hy), fun g y hy => (line_same hL (lookedAt_known y hy) (all_read h y hy)).2 (g y hy)⟩

/-- C76.  In particular it does not matter what machines make of lines that are not read: if two documents begin with the same blocks and their lines that are read are the same, what
one machine makes of them says what another does. -/
theorem C76_only_what_is_read (E E' : Env) (s s' : Str) (c c' : Cal) (hl : ∀ y, y ∈ lookedAt (tokenise s).lines ↔ y ∈ lookedAt (tokenise s').lines)
    (h : decodeDoc E s = .ok c) (h' : decodeDoc E s' = .ok c') : (decodeDoc E' s = .ok c ↔ decodeDoc E' s' = .ok c') ∧ ((∃ d, decodeDoc E' s = .ok d) ↔ ∃ d, decodeDoc E' s' = .ok d) := by
  rw [C76_same_exactly_partial E E' s c h, C76_same_exactly_partial E E' s' c' h', C76_accepted_exactly_partial E E' s c h, C76_accepted_exactly_partial E E' s' c' h']
  simp only [hl, and_self]

/-! ## Samples -/

/-- An event with an alarm, and a block and a property that are not known; the block and the property have times in a zone. -/
def lookedDoc : List Line := [plainLine kBEGIN c!"VCALENDAR", plainLine c!"VERSION" c!"2.0", plainLine c!"PRODID" c!"x", plainLine kBEGIN c!"X-BLOCK",
  ⟨c!"DTSTART", [(c!"TZID", [⟨false, c!"Europe/Paris"⟩])], c!"20210729T014000"⟩, plainLine kEND c!"X-BLOCK", plainLine kBEGIN c!"VEVENT", plainLine c!"UID" c!"1",
  plainLine c!"DTSTAMP" c!"20210729T014000Z", ⟨c!"X-TIME", [(c!"TZID", [⟨false, c!"Europe/Paris"⟩])], c!"20210729T014000"⟩, plainLine c!"DTSTART" c!"20210729T014000",
  plainLine kBEGIN c!"VALARM", plainLine kACTION c!"AUDIO", plainLine c!"TRIGGER" c!"-PT5M", plainLine kEND c!"VALARM", plainLine kEND c!"VEVENT", plainLine kEND c!"VCALENDAR"]

/-- What is read of it: not what is in the block, and of the alarm its trigger. -/
theorem lookedDoc_read : (tokenise (lookedDoc.flatMap printLine)).lines = lookedDoc ∧ (lookedAt lookedDoc).map (fun y => (y.1.key, y.2.value)) =
    [(c!"VERSION", c!"2.0"), (c!"PRODID", c!"x"), (c!"UID", c!"1"), (c!"DTSTAMP", c!"20210729T014000Z"), (c!"DTSTART", c!"20210729T014000"), (c!"TRIGGER", c!"-PT5M")] := by
  decide +kernel

/-- A machine that does not know Paris accepts it; the calendar is another one, since the local time is. -/
theorem lookedDoc_east : (decodeDoc sampleEnv (lookedDoc.flatMap printLine)).isOk = true ∧ (decodeDoc eastEnv (lookedDoc.flatMap printLine)).isOk = true ∧
    decodeDoc eastEnv (lookedDoc.flatMap printLine) ≠ decodeDoc sampleEnv (lookedDoc.flatMap printLine) := by decide +kernel

/-- The line that is at fault for this. -/
example : ¬ SameTime sampleEnv eastEnv 0 none c!"20210729T014000" := by
  rw [← time_same]
  intro h
  have h1 : DateTime.decode sampleEnv 0 none c!"20210729T014000" = .ok ⟨63763119600, 0, .local⟩ := by decide +kernel
  have h2 := (DateTime.decode_iff ..).2 (h _ ((DateTime.decode_iff ..).1 h1))
  revert h2
  decide +kernel

/-- A time with a `Z` is the same everywhere. -/
theorem C76_z_same (E E' : Env) (p : Nat) (s : Str) : SameTime E E' p none (s ++ ['Z']) := by
  rw [← time_same]
  intro t ht
  obtain ⟨a, c, f, y, m, d, h, mi, sec, ns, k, l, h1, h2, h3, h4, rfl, h6⟩ := ht
  rcases h6 with ⟨rfl, e⟩ | ⟨rfl, e⟩
  · exact ⟨a, c, f, y, m, d, h, mi, sec, ns, k, .utc, h1, h2, h3, h4, rfl, .inl ⟨rfl, e⟩⟩
  · have hl : (DateTime.decode E p none (s ++ ['Z'])) = .ok _ := (DateTime.decode_iff ..).2 ⟨a, c, f, y, m, d, h, mi, sec, ns, k, .local, h1, h2, h3, h4, rfl, .inr ⟨rfl, e⟩⟩
    unfold DateTime.decode at hl
    dsimp only at hl
    rw [if_pos (by simp)] at hl
    cases parsed_loc (Res.ofOption_eq_ok.1 hl)

end Ics.Props
