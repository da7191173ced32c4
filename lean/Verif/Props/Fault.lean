import Verif.VerdictLemmas
import Verif.Props.Cut
/-!
# Theorems about the outcome of Decode for every document: C72; and C12, C70, C71 without conditions
-/

namespace Ics.Props

open Spec

/-! ## C72 Exactly when Decode returns which error -/

/-- C72.  Exactly the documents for which `Decode` returns an error, and which: there is no line, or the first one does not begin a calendar; or no line is at fault but
the document ends before the calendar does, or a text follows that is not a content line (the error says so); or a line is at fault, and no line before it. -/
theorem C72_error_iff (E : Env) (s : Str) (e : Err) : decodeDoc E s = .err e ↔
    ((tokenise s).lines = [] ∧ (tokenise s).term.err = e) ∨
    (∃ l r, (tokenise s).lines = l :: r ∧ ¬ Opening l ∧ e = .invalidCalendar) ∨
    (∃ p st, Midway E (tokenise s).lines (p :: st) ∧ (tokenise s).term.err = e ∧ (p.frame = .alarm → (tokenise s).term ≠ .done)) ∨
    (∃ pre l r p st, (tokenise s).lines = pre ++ l :: r ∧ Midway E pre (p :: st) ∧ Fault E p l (some e)) := decodeStream_err_iff

/-- C72.  Exactly the documents that are accepted: no line is at fault up to one that ends the calendar. -/
theorem C72_accepted_iff (E : Env) (s : Str) : (∃ c, decodeDoc E s = .ok c) ↔ ∃ pre l r, (tokenise s).lines = pre ++ l :: r ∧ Completes E pre l := decodeStream_ok_iff

/-- C72.  Exactly the documents on which `Decode` panics. -/
theorem C72_panic_iff (E : Env) (s : Str) : decodeDoc E s = .panic ↔
    ((tokenise s).term = .done ∧ ∃ p st, Midway E (tokenise s).lines (p :: st) ∧ p.frame = .alarm) ∨
    (∃ pre l r p st, (tokenise s).lines = pre ++ l :: r ∧ Midway E pre (p :: st) ∧ Fault E p l none) := decodeStream_panics_iff

/-- C72.  There is one line at fault only, and for one reason. -/
theorem C72_one_fault (E : Env) (s : Str) {pre l r p st x pre' l' r' p' st' x'} (h1 : (tokenise s).lines = pre ++ l :: r) (h2 : Midway E pre (p :: st)) (h3 : Fault E p l x)
    (h1' : (tokenise s).lines = pre' ++ l' :: r') (h2' : Midway E pre' (p' :: st')) (h3' : Fault E p' l' x') : pre = pre' ∧ l = l' ∧ x = x' := by
  obtain ⟨rfl, rfl, _, rfl, rfl⟩ := midway_halts_unique h1 h2 (Or.inl ⟨x, h3⟩) h1' h2' (Or.inl ⟨x', h3'⟩)
  refine ⟨rfl, rfl, ?_⟩
  have a := decodeStream_fault (r := r) h2 h3 .done
  have b := decodeStream_fault (r := r) h2 h3' .done
  rw [a] at b
  cases x <;> cases x' <;> simp_all [blame]

/-- C72.  A text makes `Decode` read on exactly if no line is at fault and the calendar has not ended. -/
theorem C72_undecided_iff (E : Env) (ls : List Line) (hl : ∀ l ∈ ls, LineOk l) : Undecided E (textOf ls) ↔ ls = [] ∨ ∃ st, Midway E ls st := by
  rw [undecided_iff E hl, wants_iff_reading]

/-- C72.  The effect of the next line, behind lines without fault: if it is not at fault `Decode` reads on, or is done; otherwise the result is settled. -/
theorem C72_next_line (E : Env) (pre : List Line) (l : Line) (hl : ∀ x ∈ pre ++ [l], LineOk x) (p : Level) (st : List Level) (h : Midway E pre (p :: st)) :
    ((∀ x, ¬ Fault E p l x) → advance p st l ≠ [] → Undecided E (textOf (pre ++ [l]))) ∧
    ((∀ x, ¬ Fault E p l x) → advance p st l = [] → ∃ c, Settles E (textOf (pre ++ [l])) (.ok c)) ∧
    (∀ e, Fault E p l (some e) → Settles E (textOf (pre ++ [l])) (.err e)) ∧
    (Fault E p l none → Settles E (textOf (pre ++ [l])) .panic) := by
  have hset : ∀ {x : Res Cal}, (∀ t q, decodeStream E ⟨pre ++ l :: q, t⟩ = x) → Settles E (textOf (pre ++ [l])) x := by
    intro x hx
    exact settles_of hl fun t q => by rw [List.append_assoc]; exact hx t q
  refine ⟨fun hf ha => ?_, fun hf ha => ?_, fun e he => hset fun t q => decodeStream_fault h he t, fun he => hset fun t q => decodeStream_fault h he t⟩
  · rw [C72_undecided_iff E _ hl]
    exact Or.inr ⟨_, (midway_snoc (midway_ne h).1).2 ⟨p, st, h, hf, rfl, ha⟩⟩
  · obtain ⟨c, hc⟩ := decodeStream_completes (r := []) h hf ha
    refine ⟨c, hset fun t q => ?_⟩
    obtain ⟨c', hc'⟩ := decodeStream_completes (r := q) h hf ha
    rw [hc']
    have h1 := hc .done
    have h2 := hc' .done
    rcases wants_or_settled E (pre ++ [l]) with h3 | h3
    · have := h3 .done q
      rw [List.append_assoc, List.singleton_append, h1, h2] at this
      exact this
    · rcases wants_iff_reading.1 h3 with h4 | ⟨st', h4⟩
      · simp at h4
      · obtain ⟨p', q', h5, h6, h7, h8⟩ := (midway_snoc (midway_ne h).1).1 h4
        have := midway_unique h h5
        simp only [List.cons.injEq] at this
        obtain ⟨rfl, rfl⟩ := this
        exact absurd (h7.symm.trans ha) h8

/-! ### Examples -/

/-- A document with two UIDs in an event: the second is at fault, in the event, in the calendar. -/
theorem two_uids : let s := c!"BEGIN:VCALENDAR\r\nBEGIN:VEVENT\r\nUID:1\r\nuid:2\r\n?"
    decodeDoc sampleEnv s = .err .multiple ∧ ∃ pre l r p st, (tokenise s).lines = pre ++ l :: r ∧ Midway sampleEnv pre (p :: st) ∧ Fault sampleEnv p l (some .multiple) := by
  intro s
  have h : decodeDoc sampleEnv s = .err .multiple := by decide +kernel
  refine ⟨h, ?_⟩
  rcases (C72_error_iff sampleEnv s _).1 h with ⟨h1, _⟩ | ⟨l, r, h1, _, h2⟩ | ⟨p, st, _, h1, _⟩ | h1
  · exact absurd h1 (by decide +kernel)
  · cases h2
  · exact absurd h1 (by decide +kernel)
  · exact h1

/-- The same, from the specification: the UID is at fault in a VEVENT in which there is one. -/
example : Fault sampleEnv ⟨.comp tabEvent, c!"VEVENT", [.line ⟨c!"UID", [], c!"1"⟩]⟩ ⟨c!"uid", [], c!"2"⟩ (some .multiple) :=
  .sect (by simp) (.again (f := ⟨c!"UID", propUID, .req⟩) (by simp [Frame.fields, tabEvent]) (by decide) (by decide) (by simp [HasLine, linesNamed]; decide))

/-- An END line for an event without UID and DTSTAMP. -/
example : SectFault sampleEnv ⟨.comp tabEvent, c!"VEVENT", []⟩ ⟨c!"End", [], c!"VEVENT"⟩ (some .missingRequired) :=
  .missing (f := ⟨c!"UID", propUID, .req⟩) (by decide) rfl (by simp [Frame.fields, tabEvent]) (by decide) (by simp [HasLine, linesNamed])

theorem wants_text {E : Env} {ls : List Line} (h1 : (tokenise (textOf ls)).lines = ls ++ []) (h2 : decodeDoc E (textOf ls ++ c!"?") ≠ decodeDoc E (textOf ls)) : Wants E ls :=
  (undecided_iff _ (lines_ok h1)).1 (undecided_of (lines_ok h1) h2)

/-- Alarms go on to a line that is called END in upper case, whatever it ends: behind these lines, the last of which is END:VEVENT, the event is still open. -/
example : Midway sampleEnv [⟨c!"BEGIN", [], c!"VCALENDAR"⟩, ⟨c!"BEGIN", [], c!"VEVENT"⟩, ⟨c!"BEGIN", [], c!"VALARM"⟩, ⟨c!"ACTION", [], c!"NONE"⟩, ⟨c!"end", [], c!"VALARM"⟩,
    ⟨c!"END", [], c!"VEVENT"⟩] [⟨.comp tabEvent, c!"VEVENT", [.block c!"VALARM" []]⟩, ⟨.cal, c!"VCALENDAR", []⟩] := by
  have h1 : Midway sampleEnv [⟨c!"BEGIN", [], c!"VCALENDAR"⟩] [⟨.cal, c!"VCALENDAR", []⟩] := midway_one ⟨by decide, by decide⟩
  have h2 := midway_next (l := ⟨c!"BEGIN", [], c!"VEVENT"⟩) h1 (wants_text (by decide +kernel) (by decide +kernel))
  have h3 := midway_next (l := ⟨c!"BEGIN", [], c!"VALARM"⟩) h2 (wants_text (by decide +kernel) (by decide +kernel))
  have h4 := midway_next (l := ⟨c!"ACTION", [], c!"NONE"⟩) h3 (wants_text (by decide +kernel) (by decide +kernel))
  have h5 := midway_next (l := ⟨c!"end", [], c!"VALARM"⟩) h4 (wants_text (by decide +kernel) (by decide +kernel))
  have h6 := midway_next (l := ⟨c!"END", [], c!"VEVENT"⟩) h5 (wants_text (by decide +kernel) (by decide +kernel))
  exact h6

/-- The sample document is accepted: it is completed by one of its lines. -/
example : ∃ pre l r, (tokenise sampleDoc).lines = pre ++ l :: r ∧ Completes sampleEnv pre l := by
  rw [← C72_accepted_iff]
  have : (match decodeDoc sampleEnv sampleDoc with | .ok _ => true | _ => false) = true := by decide +kernel
  cases h : decodeDoc sampleEnv sampleDoc with
  | ok c => exact ⟨c, rfl⟩
  | err e => rw [h] at this; cases this
  | panic => rw [h] at this; cases this

/-! ## C12 Exactly when Decode panics, for all documents -/

/-- C12.  `Decode` panics exactly if no line is at fault and the document ends in an alarm; or if a line is a recurrence rule with a day that is a plus sign and a digit,
where what is before the day is right, in a block that can have a rule and has none so far, and no line before is at fault. -/
theorem C12_panics_iff (E : Env) (s : Str) : decodeDoc E s = .panic ↔
    ((tokenise s).term = .done ∧ ∃ p st, Midway E (tokenise s).lines (p :: st) ∧ p.frame = .alarm) ∨
    (∃ pre l r p st, (tokenise s).lines = pre ++ l :: r ∧ Midway E pre (p :: st) ∧ CrashLine E l ∧ ∃ f ∈ p.frame.fields, f.key = c!"RRULE" ∧ ¬ HasLine p.own f.key) := by
  rw [C72_panic_iff]
  constructor
  · rintro (h | ⟨pre, l, r, p, st, h1, h2, h3⟩)
    · exact Or.inl h
    · exact Or.inr ⟨pre, l, r, p, st, h1, h2, (fault_none_iff h2).1 h3⟩
  · rintro (h | ⟨pre, l, r, p, st, h1, h2, h3⟩)
    · exact Or.inl h
    · exact Or.inr ⟨pre, l, r, p, st, h1, h2, (fault_none_iff h2).2 h3⟩

example : let s := c!"begin:vcalendar\r\nbegin:vevent\r\nrrule:FREQ=DAILY;BYDAY=+5\r\nEND:VEVENT\r\nnonsense"
    ∃ pre l r p st, (tokenise s).lines = pre ++ l :: r ∧ Midway sampleEnv pre (p :: st) ∧ CrashLine sampleEnv l ∧ ∃ f ∈ p.frame.fields, f.key = c!"RRULE" ∧ ¬ HasLine p.own f.key := by
  intro s
  rcases (C12_panics_iff sampleEnv s).1 (by decide +kernel) with ⟨h, _⟩ | h
  · exact absurd h (by decide +kernel)
  · exact h

/-! ## C70 Documents cut off between lines, without conditions -/

/-- C70.  What is left of an accepted document that is cut off between two lines is reported as ending too early, unless it is complete; or `Decode` panics, exactly if the
innermost block that is open at the cut is an alarm. -/
theorem C70_cut (E : Env) (p r : List Line) (c : Cal) (hl : ∀ l ∈ p ++ r, LineOk l) (h : decodeDoc E (textOf (p ++ r)) = .ok c) (hp : ∀ c', decodeDoc E (textOf p) ≠ .ok c') :
    (decodeDoc E (textOf p) = .panic ∧ ∃ q st, Midway E p (q :: st) ∧ q.frame = .alarm) ∨
    (decodeDoc E (textOf p) = .err .unexpectedEOF ∧ ¬ ∃ q st, Midway E p (q :: st) ∧ q.frame = .alarm) := by
  have hlp : ∀ l ∈ p, LineOk l := fun l h => hl l (List.mem_append_left _ h)
  rw [decodeDoc_text E hl] at h
  rw [decodeDoc_text E hlp]
  simp only [decodeDoc_text E hlp] at hp
  rcases wants_or_settled E p with h1 | h1
  · rw [h1] at h
    exact absurd h (hp c)
  · rcases wants_iff_reading.1 h1 with rfl | ⟨st, hr⟩
    · refine Or.inr ⟨rfl, ?_⟩
      rintro ⟨q, st, hr, _⟩
      exact absurd rfl (midway_ne hr).1
    · cases st with
      | nil => exact absurd rfl (midway_ne hr).2
      | cons q st =>
        obtain ⟨h2, h3⟩ := decodeStream_reading hr .done
        by_cases hq : q.frame = .alarm
        · exact Or.inl ⟨h2 ⟨hq, rfl⟩, q, st, hr, hq⟩
        · refine Or.inr ⟨h3 fun h => hq h.1, ?_⟩
          rintro ⟨q', st', hr', hq'⟩
          have := midway_unique hr hr'
          simp only [List.cons.injEq] at this
          obtain ⟨rfl, rfl⟩ := this
          exact hq hq'

/-- Keywords in lower case: the document is accepted, and its first three lines are not. -/
def lowerDoc : List Line := [⟨c!"begin", [], c!"vcalendar"⟩, ⟨c!"version", [], c!"2.0"⟩, ⟨c!"prodid", [], c!"x"⟩, ⟨c!"begin", [], c!"vevent"⟩, ⟨c!"uid", [], c!"1"⟩,
  ⟨c!"dtstamp", [], c!"20200101T000000Z"⟩, ⟨c!"dtstart", [], c!"20200101T000000Z"⟩, ⟨c!"end", [], c!"VEVENT"⟩, ⟨c!"end", [], c!"VCALENDAR"⟩]

theorem lowerDoc_ok : ∃ c, decodeDoc sampleEnv (textOf lowerDoc) = .ok c := by
  have : (match decodeDoc sampleEnv (textOf lowerDoc) with | .ok _ => true | _ => false) = true := by decide +kernel
  cases h : decodeDoc sampleEnv (textOf lowerDoc) with
  | ok c => exact ⟨c, rfl⟩
  | err e => rw [h] at this; cases this
  | panic => rw [h] at this; cases this

example : decodeDoc sampleEnv (textOf (lowerDoc.take 3)) = .err .unexpectedEOF := by
  obtain ⟨c, hc⟩ := lowerDoc_ok
  have h0 : lowerDoc.take 3 ++ lowerDoc.drop 3 = lowerDoc := List.take_append_drop _ _
  have hno : (match decodeDoc sampleEnv (textOf (lowerDoc.take 3)) with | .err _ => true | _ => false) = true := by decide +kernel
  rcases C70_cut sampleEnv (lowerDoc.take 3) (lowerDoc.drop 3) c (by rw [h0]; exact lines_ok (by decide +kernel)) (by rw [h0]; exact hc)
    (by intro c' h; rw [h] at hno; cases hno) with ⟨h, _⟩ | ⟨h, _⟩
  · rw [h] at hno; cases hno
  · exact h

/-! ## C71 The line at fault, in alarms as well -/

/-- C71.  At every place where lines for properties are looked at, a line for a property that may be here is reported at once if its parameters or value are wrong, with their
error; and `Decode` reads on if they are right. -/
theorem C71_next_property (E : Env) (pre : List Line) (l : Line) (hl : ∀ x ∈ pre ++ [l], LineOk x) (p : Level) (st : List Level) (h : Midway E pre (p :: st)) (f : SField)
    (hf : f ∈ p.frame.fields) (hk : f.key = upper l.name) (hm : f.mult = .many ∨ ¬ HasLine p.own f.key) :
    (∀ v, f.spec.decode E l.params l.value = .ok v → Undecided E (textOf (pre ++ [l]))) ∧
    (∀ e, f.spec.decode E l.params l.value = .err e → Settles E (textOf (pre ++ [l])) (.err e)) ∧
    (f.spec.decode E l.params l.value = .panic → Settles E (textOf (pre ++ [l])) .panic) := by
  obtain ⟨h1, _, h3, h4⟩ := C72_next_line E pre l hl p st h
  have hna : p.frame ≠ .alarm := by
    intro e
    rw [e] at hf
    cases hf
  obtain ⟨B, hB, hp⟩ := chain_known (chain_reading h)
  have hwf : (∀ g ∈ p.frame.fields, FieldWf g) ∧ (p.frame.fields.map (·.key)).Nodup := by
    rw [hp]
    cases B with
    | cal => exact ⟨calTab_wf.field, calTab_wf.keys⟩
    | comp T => obtain ⟨n, hn⟩ := hB; exact ⟨(compTab_good _ hn).1.field, (compTab_good _ hn).1.keys⟩
    | leaf T =>
      obtain ⟨x, hx, n, hn⟩ := hB
      obtain ⟨hw, _⟩ := (compTab_good _ hx).2.2 _ hn
      exact ⟨hw.field, hw.keys⟩
    | alarm k => exact ⟨fun g hg => (by cases hg), List.nodup_nil⟩
    | unknown => exact ⟨fun g hg => (by cases hg), List.nodup_nil⟩
  have huniq : ∀ {g : SField}, g ∈ p.frame.fields → g.key = upper l.name → g = f := by
    intro g hg hgk
    obtain ⟨i, hi⟩ := List.getElem?_of_mem hf
    obtain ⟨j, hj⟩ := List.getElem?_of_mem hg
    have : i = j := by
      refine nodup_inj hwf.2 (a := f.key) ?_ ?_
      · rw [List.getElem?_map, hi]; rfl
      · rw [List.getElem?_map, hj, hk, ← hgk]; rfl
    subst this
    rw [hi] at hj
    cases hj
    rfl
  have hctl := (hwf.1 f hf).notCtl
  have hb : ¬ Begins l := fun e => hctl.1 (hk.trans e)
  have he : ¬ Ends l := fun e => hctl.2.1 (hk.trans e)
  refine ⟨fun v hv => h1 ?_ ?_, fun e hv => h3 e (.sect hna (.value hf hk hm hv)), fun hv => h4 (.sect hna (.crash hf hk hm hv))⟩
  · intro x hx
    rw [fault_section _ _ _ hna] at hx
    cases hx with
    | again hg hgk h1 h2 =>
      obtain rfl := huniq hg hgk
      exact hm.elim h1 (fun h => h h2)
    | value hg hgk _ hd =>
      obtain rfl := huniq hg hgk
      rw [hv] at hd
      cases hd
    | crash hg hgk _ hd =>
      obtain rfl := huniq hg hgk
      rw [hv] at hd
      cases hd
    | wrongEnd _ h => exact he h
    | wrongEndUnknown _ h => exact he h
    | missing h => exact he h
    | rule h => exact he h
  · rw [advance_section hna, if_neg hb, if_neg he]
    simp

/-- Behind the lines of `seqPre` an event is open, in the calendar, with one line in it. -/
theorem seqPre_reading : Midway sampleEnv seqPre [⟨.comp tabEvent, c!"VEVENT", [.line ⟨c!"SUMMARY", [], c!"x"⟩]⟩, ⟨.cal, c!"VCALENDAR", []⟩] := by
  have h1 : Midway sampleEnv [⟨c!"BEGIN", [], c!"VCALENDAR"⟩] [⟨.cal, c!"VCALENDAR", []⟩] := midway_one ⟨by decide, by decide⟩
  have h2 := midway_next (l := ⟨c!"BEGIN", [], c!"VEVENT"⟩) h1 (wants_text (by decide +kernel) (by decide +kernel))
  have h3 := midway_next (l := ⟨c!"SUMMARY", [], c!"x"⟩) h2 (wants_text (by decide +kernel) (by decide +kernel))
  exact h3

example : ∃ e, Settles sampleEnv (textOf (seqPre ++ [seqBad])) (.err e) := by
  obtain ⟨_, h, _⟩ := C71_next_property sampleEnv seqPre seqBad (lines_ok (by decide +kernel)) _ _ seqPre_reading ⟨c!"SEQUENCE", propSequence, .opt⟩
    (by simp [Frame.fields, tabEvent]) (by decide) (Or.inr (by simp [HasLine, linesNamed]; decide))
  exact ⟨_, h _ rfl⟩

end Ics.Props
