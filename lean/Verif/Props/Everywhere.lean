import Verif.NestLemmas
import Verif.Props.Fault
import Verif.Props.Edits
/-!
# Theorems about edits that make no difference, at any place of any document: C40, C41, C43; and nesting, C13
-/

namespace Ics.Props

open Spec

/-! ## C40 Unknown lines -/

/-- C40, for all documents and every result, whatever the case of the names.  Wherever the innermost open block (`Midway`) is not an alarm, a line that is not one of its
properties, nor BEGIN or END, makes no difference. -/
theorem C40_everywhere (E : Env) (s s' : Str) (pre r : List Line) (p : Level) (st : List Level) (l : Line) (t : Term) (hi : Midway E pre (p :: st)) (hp : p.frame ≠ .alarm)
    (hb : ¬ Begins l) (he : ¬ Ends l) (hl : ∀ f ∈ p.frame.fields, f.key ≠ upper l.name)
    (h : tokenise s = ⟨pre ++ r, t⟩) (h' : tokenise s' = ⟨pre ++ l :: r, t⟩) : decodeDoc E s' = decodeDoc E s := by
  unfold decodeDoc
  rw [h, h']
  exact midway_alike hi (alike_unknown hp hb he hl r)

/-- C40, for all documents and every result: in an alarm in which there was no line BEGIN or END so far, in any case, a line that is no property of the alarms that the ACTION
lines up to the next END line ask for, nor BEGIN, END or ACTION, makes no difference. -/
theorem C40_everywhere_alarm (E : Env) (s s' : Str) (pre r : List Line) (p : Level) (st : List Level) (l : Line) (t : Term) (hi : Midway E pre (p :: st)) (hp : p.frame = .alarm)
    (hk : ∀ l ∈ ownLines p.own, ¬ Begins l ∧ ¬ Ends l) (hc : upper l.name ∉ Spec.control)
    (hu : ∀ a : AKind, a.action ∈ actions (ownLines p.own ++ r.takeWhile fun l => l.name ≠ c!"END") → ∀ f ∈ a.tab.fields, f.key ≠ upper l.name)
    (h : tokenise s = ⟨pre ++ r, t⟩) (h' : tokenise s' = ⟨pre ++ l :: r, t⟩) : decodeDoc E s' = decodeDoc E s := by
  unfold decodeDoc
  rw [h, h']
  exact midway_alike hi (alike_alarm hp hk hc hu)

/-! Lines up to an event in lower case, with an alarm that goes on to a second END line, so that `Inside` does not hold for them; and its next alarm. -/

def lowerPre : List Line := [⟨c!"begin", [], c!"vcalendar"⟩, ⟨c!"begin", [], c!"vevent"⟩, ⟨c!"begin", [], c!"valarm"⟩, ⟨c!"ACTION", [], c!"NONE"⟩, ⟨c!"end", [], c!"VALARM"⟩,
  ⟨c!"END", [], c!"VALARM"⟩]

theorem lowerPre_midway : Midway sampleEnv lowerPre [⟨.comp tabEvent, c!"VEVENT", [.block c!"VALARM" []]⟩, ⟨.cal, c!"VCALENDAR", []⟩] := by
  have h1 : Midway sampleEnv [⟨c!"begin", [], c!"vcalendar"⟩] [⟨.cal, c!"VCALENDAR", []⟩] := midway_one ⟨by decide, by decide⟩
  have h2 := midway_next (l := ⟨c!"begin", [], c!"vevent"⟩) h1 (wants_text (by decide +kernel) (by decide +kernel))
  have h3 := midway_next (l := ⟨c!"begin", [], c!"valarm"⟩) h2 (wants_text (by decide +kernel) (by decide +kernel))
  have h4 := midway_next (l := ⟨c!"ACTION", [], c!"NONE"⟩) h3 (wants_text (by decide +kernel) (by decide +kernel))
  have h5 := midway_next (l := ⟨c!"end", [], c!"VALARM"⟩) h4 (wants_text (by decide +kernel) (by decide +kernel))
  have h6 := midway_next (l := ⟨c!"END", [], c!"VALARM"⟩) h5 (wants_text (by decide +kernel) (by decide +kernel))
  exact h6

theorem lowerPre_alarm : Midway sampleEnv (lowerPre ++ [⟨c!"Begin", [], c!"VAlarm"⟩]) [⟨.alarm, c!"VALARM", []⟩, ⟨.comp tabEvent, c!"VEVENT", [.block c!"VALARM" []]⟩,
    ⟨.cal, c!"VCALENDAR", []⟩] :=
  midway_next (l := ⟨c!"Begin", [], c!"VAlarm"⟩) lowerPre_midway (wants_text (by decide +kernel) (by decide +kernel))

def lowerPost : List Line := [⟨c!"uid", [], c!"1"⟩, ⟨c!"dtstamp", [], c!"20200101T000000Z"⟩, ⟨c!"end", [], c!"VEVENT"⟩, ⟨c!"version", [], c!"2.0"⟩, ⟨c!"prodid", [], c!"x"⟩,
  ⟨c!"End", [], c!"VCALENDAR"⟩]

/-- An ACTION line in the event is not known there. -/
example : decodeDoc sampleEnv (textOf (lowerPre ++ ⟨c!"ACTION", [], c!"AUDIO"⟩ :: lowerPost)) = decodeDoc sampleEnv (textOf (lowerPre ++ lowerPost)) ∧
    (decodeDoc sampleEnv (textOf (lowerPre ++ lowerPost))).isOk = true :=
  ⟨C40_everywhere sampleEnv _ _ lowerPre lowerPost _ _ ⟨c!"ACTION", [], c!"AUDIO"⟩ .done lowerPre_midway (by simp) (by decide) (by decide) (by decide +kernel) (by decide +kernel)
    (by decide +kernel), by decide +kernel⟩

/-- A UID in an alarm without effect. -/
example : decodeDoc sampleEnv (textOf (lowerPre ++ [⟨c!"Begin", [], c!"VAlarm"⟩] ++ ⟨c!"UID", [], c!"3"⟩ :: ⟨c!"ACTION", [], c!"NONE"⟩ :: ⟨c!"END", [], c!"VALARM"⟩ :: lowerPost)) =
    decodeDoc sampleEnv (textOf (lowerPre ++ [⟨c!"Begin", [], c!"VAlarm"⟩] ++ ⟨c!"ACTION", [], c!"NONE"⟩ :: ⟨c!"END", [], c!"VALARM"⟩ :: lowerPost)) := by
  refine C40_everywhere_alarm sampleEnv _ _ (lowerPre ++ [⟨c!"Begin", [], c!"VAlarm"⟩]) (⟨c!"ACTION", [], c!"NONE"⟩ :: ⟨c!"END", [], c!"VALARM"⟩ :: lowerPost) _ _ ⟨c!"UID", [], c!"3"⟩ .done
    lowerPre_alarm rfl (by simp [ownLines]) (by decide) (fun a ha => ?_) (by decide +kernel) (by decide +kernel)
  have : a.action = c!"NONE" := by simpa [actions, ownLines, upper, upperC] using ha
  cases a <;> revert this <;> decide +kernel

/-! ## C41 Unknown blocks -/

/-- C41, for all documents and every result, whatever the case of the names.  Wherever the innermost open block (`Midway`) is not an alarm, a block that is not known in it makes
no difference, if it is closed (`Skipped`: in unknown blocks the name behind END, in upper case, is the name behind BEGIN). -/
theorem C41_everywhere (E : Env) (s s' : Str) (pre k r : List Line) (p : Level) (st : List Level) (b : Line) (t : Term) (hi : Midway E pre (p :: st)) (hp : p.frame ≠ .alarm)
    (hb : Begins b) (hn : upper b.value ∉ p.frame.parts.map (·.1)) (hk : Skipped (p.frame.ending b.value) k)
    (h : tokenise s = ⟨pre ++ r, t⟩) (h' : tokenise s' = ⟨pre ++ (b :: (k ++ r)), t⟩) : decodeDoc E s' = decodeDoc E s := by
  unfold decodeDoc
  rw [h, h']
  exact midway_alike hi (alike_block hp hb hn hk r)

/-- C41.  And only then: behind such a BEGIN line, the document is refused unless the lines go on with a closed block (in this sense). -/
theorem C41_only_closed (E : Env) (s : Str) (pre r : List Line) (p : Level) (st : List Level) (b : Line) (t : Term) (hi : Midway E pre (p :: st)) (hp : p.frame ≠ .alarm)
    (hb : Begins b) (hn : upper b.value ∉ p.frame.parts.map (·.1)) (h : tokenise s = ⟨pre ++ b :: r, t⟩) (c : Cal) (hc : decodeDoc E s = .ok c) :
    ∃ k r', r = k ++ r' ∧ Skipped (p.frame.ending b.value) k := by
  unfold decodeDoc at hc
  rw [h] at hc
  exact midway_skipped hi hp hb hn hc

/-- A block in any case, with a block in it, in the event. -/
example : decodeDoc sampleEnv (textOf (lowerPre ++ ⟨c!"Begin", [], c!"vcalendar"⟩ :: ([⟨c!"uid", [], c!"2"⟩, ⟨c!"begin", [], c!"Y"⟩, ⟨c!"end", [], c!"y"⟩,
      ⟨c!"eND", [], c!"vCalendar"⟩] ++ lowerPost))) = decodeDoc sampleEnv (textOf (lowerPre ++ lowerPost)) :=
  C41_everywhere sampleEnv _ _ lowerPre [⟨c!"uid", [], c!"2"⟩, ⟨c!"begin", [], c!"Y"⟩, ⟨c!"end", [], c!"y"⟩, ⟨c!"eND", [], c!"vCalendar"⟩] lowerPost _ _ ⟨c!"Begin", [], c!"vcalendar"⟩ .done
    lowerPre_midway (by simp) (by decide) (by decide +kernel) (.line (by decide) (by decide) (.block (k := [_]) (by decide) (.fin (by decide) (by decide)) (.fin (by decide) (by decide))))
    (by decide +kernel) (by decide +kernel)

/-! ## C43 Case -/

/-- C43, for all documents and every result: wherever the innermost open block (`Midway`) is not an alarm, the case of BEGIN makes no difference; nor does, if that block is known,
the case of the name behind it. -/
theorem C43_begin_everywhere (E : Env) (s s' : Str) (pre r : List Line) (p : Level) (st : List Level) (b b' : Line) (t : Term) (hi : Midway E pre (p :: st)) (hp : p.frame ≠ .alarm)
    (hb : Begins b) (hb' : Begins b') (hv : b'.value = b.value ∨ p.frame ≠ .unknown ∧ upper b'.value = upper b.value)
    (h : tokenise s = ⟨pre ++ b :: r, t⟩) (h' : tokenise s' = ⟨pre ++ b' :: r, t⟩) : decodeDoc E s' = decodeDoc E s := by
  unfold decodeDoc
  rw [h, h']
  refine midway_alike hi (alike_begin hp hb hb' ?_ r)
  rcases hv with hv | ⟨hu, hv⟩
  · rw [hv]
  · unfold Frame.ending
    split
    · next h => exact absurd h hu
    · exact hv

/-- C43, for all documents and every result: wherever the innermost open block (`Midway`) is not an alarm, the case of END makes no difference; nor does, if that block is not
known, the case of the name behind it. -/
theorem C43_end_everywhere (E : Env) (s s' : Str) (pre r : List Line) (p : Level) (st : List Level) (e e' : Line) (t : Term) (hi : Midway E pre (p :: st)) (hp : p.frame ≠ .alarm)
    (he : Ends e) (he' : Ends e') (hv : e'.value = e.value ∨ p.frame = .unknown ∧ upper e'.value = upper e.value)
    (h : tokenise s = ⟨pre ++ e :: r, t⟩) (h' : tokenise s' = ⟨pre ++ e' :: r, t⟩) : decodeDoc E s' = decodeDoc E s := by
  unfold decodeDoc
  rw [h, h']
  exact midway_alike hi (alike_end hp he he' hv (fun _ => hi.noEnd.1) r)

/-- C43: where a known block other than an alarm is open, the case of the name behind END does make a difference: no other spelling of it than upper case is accepted. -/
theorem C43_end_name_everywhere (E : Env) (s : Str) (pre r : List Line) (p : Level) (st : List Level) (e : Line) (t : Term) (hi : Midway E pre (p :: st)) (hp : p.frame.IsSection)
    (he : Ends e) (hv : e.value ≠ p.name) (h : tokenise s = ⟨pre ++ e :: r, t⟩) : decodeDoc E s = .err .invalidEnd := by
  unfold decodeDoc
  rw [h]
  refine decodeStream_fault (x := some .invalidEnd) hi (.sect ?_ (.wrongEnd hp he hv)) t
  intro h
  rw [h] at hp
  exact hp

example : decodeDoc sampleEnv (textOf (lowerPre ++ ⟨c!"BEGIN", [], c!"VALARM"⟩ :: ⟨c!"ACTION", [], c!"NONE"⟩ :: ⟨c!"END", [], c!"VALARM"⟩ :: lowerPost)) =
    decodeDoc sampleEnv (textOf (lowerPre ++ ⟨c!"begin", [], c!"valarm"⟩ :: ⟨c!"ACTION", [], c!"NONE"⟩ :: ⟨c!"END", [], c!"VALARM"⟩ :: lowerPost)) :=
  C43_begin_everywhere sampleEnv _ _ lowerPre (⟨c!"ACTION", [], c!"NONE"⟩ :: ⟨c!"END", [], c!"VALARM"⟩ :: lowerPost) _ _ ⟨c!"begin", [], c!"valarm"⟩ ⟨c!"BEGIN", [], c!"VALARM"⟩ .done lowerPre_midway (by simp) (by decide) (by decide)
    (Or.inr ⟨by simp, by decide⟩) (by decide +kernel) (by decide +kernel)

example : decodeDoc sampleEnv (textOf (lowerPre ++ [⟨c!"END", [], c!"VEVENT"⟩])) = decodeDoc sampleEnv (textOf (lowerPre ++ [⟨c!"end", [], c!"VEVENT"⟩])) ∧
    decodeDoc sampleEnv (textOf (lowerPre ++ [⟨c!"end", [], c!"vevent"⟩])) = .err .invalidEnd :=
  ⟨C43_end_everywhere sampleEnv _ _ lowerPre [] _ _ ⟨c!"end", [], c!"VEVENT"⟩ ⟨c!"END", [], c!"VEVENT"⟩ .done lowerPre_midway (by simp) (by decide) (by decide) (Or.inl rfl)
    (by decide +kernel) (by decide +kernel),
  C43_end_name_everywhere sampleEnv _ lowerPre [] _ _ ⟨c!"end", [], c!"vevent"⟩ .done lowerPre_midway trivial (by decide) (by decide) (by decide +kernel)⟩

/-! ## C13 Nesting -/

/-- C13, for all documents: an accepted document begins with a calendar object, if in its alarms BEGIN and END are in upper case.  (Elsewhere they may be in any case, and so may
ACTION and the names of components.) -/
theorem C13_every_document (E : Env) (s : Str) (c : Cal) (h : decodeDoc E s = .ok c)
    (hk : ∀ pre l post p st, (tokenise s).lines = pre ++ l :: post → Midway E pre (p :: st) → p.frame = .alarm → (Begins l → l.name = c!"BEGIN") ∧ (Ends l → l.name = c!"END")) :
    ∃ pre rest, (tokenise s).lines = pre ++ rest ∧ CalendarObject pre := by
  obtain ⟨b, k, e, r, h1, h2, h3, h4, h5⟩ := accepted_closed h hk
  exact ⟨b :: k ++ [e], r, by rw [h1]; simp, b, k, e, rfl, h2.1, h2.2, h3, h4, h5⟩

/-- A calendar in lower case, but for what is in its alarm. -/
def mostlyLower : List Line := [⟨c!"begin", [], c!"vcalendar"⟩, ⟨c!"version", [], c!"2.0"⟩, ⟨c!"prodid", [], c!"x"⟩, ⟨c!"begin", [], c!"vevent"⟩, ⟨c!"uid", [], c!"1"⟩,
  ⟨c!"dtstamp", [], c!"20200101T000000Z"⟩, ⟨c!"begin", [], c!"valarm"⟩, ⟨c!"ACTION", [], c!"NONE"⟩, ⟨c!"END", [], c!"VALARM"⟩, ⟨c!"end", [], c!"VEVENT"⟩, ⟨c!"end", [], c!"VCALENDAR"⟩]

example : ¬ Keywords mostlyLower ∧ ∃ pre rest, (tokenise (textOf mostlyLower)).lines = pre ++ rest ∧ CalendarObject pre := by
  refine ⟨by decide +kernel, ?_⟩
  have hok : (match decodeDoc sampleEnv (textOf mostlyLower) with | .ok _ => true | _ => false) = true := by decide +kernel
  obtain ⟨c, hc⟩ : ∃ c, decodeDoc sampleEnv (textOf mostlyLower) = .ok c := by
    cases h : decodeDoc sampleEnv (textOf mostlyLower) with
    | ok c => exact ⟨c, rfl⟩
    | err e => rw [h] at hok; cases hok
    | panic => rw [h] at hok; cases hok
  refine C13_every_document sampleEnv _ c hc ?_
  rw [show (tokenise (textOf mostlyLower)).lines = mostlyLower by decide +kernel]
  have h1 : Midway sampleEnv (mostlyLower.take 1) [⟨.cal, c!"VCALENDAR", []⟩] := midway_one ⟨by decide, by decide⟩
  have h2 := midway_next (l := ⟨c!"version", [], c!"2.0"⟩) h1 (wants_text (by decide +kernel) (by decide +kernel))
  have h3 := midway_next (l := ⟨c!"prodid", [], c!"x"⟩) h2 (wants_text (by decide +kernel) (by decide +kernel))
  have h4 := midway_next (l := ⟨c!"begin", [], c!"vevent"⟩) h3 (wants_text (by decide +kernel) (by decide +kernel))
  have h5 := midway_next (l := ⟨c!"uid", [], c!"1"⟩) h4 (wants_text (by decide +kernel) (by decide +kernel))
  have h6 := midway_next (l := ⟨c!"dtstamp", [], c!"20200101T000000Z"⟩) h5 (wants_text (by decide +kernel) (by decide +kernel))
  have h7 := midway_next (l := ⟨c!"begin", [], c!"valarm"⟩) h6 (wants_text (by decide +kernel) (by decide +kernel))
  have h8 := midway_next (l := ⟨c!"ACTION", [], c!"NONE"⟩) h7 (wants_text (by decide +kernel) (by decide +kernel))
  have h9 := midway_next (l := ⟨c!"END", [], c!"VALARM"⟩) h8 (wants_text (by decide +kernel) (by decide +kernel))
  have h10 := midway_next (l := ⟨c!"end", [], c!"VEVENT"⟩) h9 (wants_text (by decide +kernel) (by decide +kernel))
  have no : ∀ {pre : List Line} {p q : Level} {st st' : List Level}, Midway sampleEnv pre (p :: st) → Midway sampleEnv pre (q :: st') → p.frame ≠ .alarm → q.frame ≠ .alarm := by
    intro pre p q st st' h h' hp
    have := midway_unique h h'
    simp only [List.cons.injEq] at this
    rw [← this.1]
    exact hp
  intro pre l post p st he hm ha
  have hpre : pre = mostlyLower.take pre.length := by rw [he, List.take_left]
  have hl : mostlyLower[pre.length]? = some l := by rw [he]; simp
  have hlen : pre.length < 11 := (List.getElem?_eq_some_iff.1 hl).1
  rw [hpre] at hm
  generalize pre.length = n at hm hl hlen
  match n, hlen with
  | 0, _ => exact absurd rfl (midway_ne hm).1
  | 1, _ => exact absurd ha (no h1 hm nofun)
  | 2, _ => exact absurd ha (no h2 hm nofun)
  | 3, _ => exact absurd ha (no h3 hm nofun)
  | 4, _ => exact absurd ha (no h4 hm nofun)
  | 5, _ => exact absurd ha (no h5 hm nofun)
  | 6, _ => exact absurd ha (no h6 hm nofun)
  | 7, _ => cases hl; exact ⟨by decide, by decide⟩
  | 8, _ => cases hl; exact ⟨by decide, by decide⟩
  | 9, _ => exact absurd ha (no h9 hm nofun)
  | 10, _ => exact absurd ha (no h10 hm nofun)

end Ics.Props
