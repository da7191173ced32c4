import Verif.ComposeExactLemmas
import Verif.Props.Edits
/-!
# Theorems about calendars put together from components: C66
-/

namespace Ics.Props

open Spec

/-- The full claim: a calendar object with component blocks `k` in it, at any place between its own lines and blocks, is accepted if and only if it is
accepted without them, and a calendar with nothing but these components is; and then it has the components of both, and nothing else changes. -/
def C66_claim : Prop := ∀ (E : Env) (a k b : List Line) (i1 ik i2 : List Item) (c' : Cal), Items a i1 → Items k ik → Items b i2 → OnlyBlocks ik →
  (∀ l ∈ a ++ k ++ b, LineOk l) →
  (decodeDoc E (calText (a ++ k ++ b)) = .ok c' ↔ ∃ c d, decodeDoc E (calText (a ++ b)) = .ok c ∧ decodeDoc E (calText (headLines ++ k)) = .ok d ∧
    c' = addComponents c d fun n => (blocksNamed i1 n).length)

theorem headLines_ok : ∀ l ∈ headLines, LineOk l := headLines_lines

/-- C66.  The claim for documents with BEGIN, END and ACTION and the names of components in upper case. -/
theorem C66_components_partial (E : Env) (a k b : List Line) (i1 ik i2 : List Item) (c' : Cal) (ha : Items a i1) (hk : Items k ik) (hb : Items b i2)
    (hik : OnlyBlocks ik) (ho : ∀ l ∈ a ++ k ++ b, LineOk l) (hl : Loud (a ++ k ++ b)) :
    decodeDoc E (calText (a ++ k ++ b)) = .ok c' ↔ ∃ c d, decodeDoc E (calText (a ++ b)) = .ok c ∧ decodeDoc E (calText (headLines ++ k)) = .ok d ∧
      c' = addComponents c d fun n => (blocksNamed i1 n).length := by
  have hab : Loud (a ++ b) := by
    refine ⟨fun l h => hl.1 l ?_, fun l h => hl.2 l ?_⟩ <;>
    · simp only [List.mem_append] at h ⊢
      rcases h with h | h <;> simp [h]
  have hhead : Loud headLines := by decide
  have hhk : Loud (headLines ++ k) := by
    refine ⟨fun l h => ?_, fun l h => ?_⟩ <;>
    · simp only [List.mem_append] at h
      rcases h with h | h
      · first | exact hhead.1 l h | exact hhead.2 l h
      · first | exact hl.1 l (by simp [h]) | exact hl.2 l (by simp [h])
  rw [calText_reads ((ha.append hk).append hb) hl ho, insert_reads ha hk hb hik]
  have h1 := fun c => calText_reads (E := E) (ha.append hb) hab (fun l h => ho l (by simp only [List.mem_append] at h ⊢; rcases h with h | h <;> simp [h])) c
  have h2 := fun c => calText_reads (E := E) (headLines_items.append hk) hhk (fun l h => by
    simp only [List.mem_append] at h
    rcases h with h | h
    · exact headLines_ok l h
    · exact ho l (by simp [h])) c
  simp only [h1, h2]

/-- C66, two calendars: the components of one added behind those of the other. -/
theorem C66_merge_partial (E : Env) (a k : List Line) (i1 ik : List Item) (c d : Cal) (ha : Items a i1) (hk : Items k ik) (hik : OnlyBlocks ik)
    (ho : ∀ l ∈ a ++ k, LineOk l) (hl : Loud (a ++ k)) (h1 : decodeDoc E (calText a) = .ok c) (h2 : decodeDoc E (calText (headLines ++ k)) = .ok d) :
    ∃ c', decodeDoc E (calText (a ++ k)) = .ok c' ∧ c'.fields = c.fields ∧
      ∀ i, i < tabCalendar.subs.length → c'.subs.getD i [] = c.subs.getD i [] ++ d.subs.getD i [] := by
  have h0 := (C66_components_partial E a k [] i1 ik [] (addComponents c d fun n => (blocksNamed i1 n).length) ha hk .nil hik (by simpa using ho)
    (by simpa using hl)).2 ⟨c, d, by simpa using h1, h2, rfl⟩
  rw [List.append_nil] at h0
  refine ⟨_, h0, rfl, fun i hi => ?_⟩
  obtain ⟨x, hx⟩ : ∃ x, tabCalendar.subs[i]? = some x := ⟨_, List.getElem?_eq_getElem hi⟩
  obtain ⟨is, g0, _, _, _, g4, _⟩ := (calText_reads ha (Loud.append hl).1 (fun l h => ho l (by simp [h])) c).1 h1
  obtain rfl := Items.unique ha g0
  have hlen := Pairwise2.length (g4 i x hx)
  rw [addComponents_subs _ _ _ hx, hlen, List.take_length, List.drop_length, List.append_nil]

/-! Two calendars, and a component put between the blocks of a calendar. -/

def oneEvent : List Line := [plainLine kBEGIN c!"VEVENT", plainLine c!"UID" c!"1", plainLine c!"DTSTAMP" c!"20210729T014000Z", plainLine kEND c!"VEVENT"]
def twoEvents : List Line := [plainLine kBEGIN c!"VEVENT", plainLine c!"UID" c!"2", plainLine c!"DTSTAMP" c!"20210729T014000Z", plainLine kBEGIN kVALARM,
  plainLine kACTION c!"NONE", plainLine kEND kVALARM, plainLine kEND c!"VEVENT"] ++ oneEvent

theorem oneEvent_items : Items oneEvent [.block c!"VEVENT" [plainLine c!"UID" c!"1", plainLine c!"DTSTAMP" c!"20210729T014000Z"]] :=
  Items.block (b := plainLine kBEGIN c!"VEVENT") (e := plainLine kEND c!"VEVENT") (k := [plainLine c!"UID" c!"1", plainLine c!"DTSTAMP" c!"20210729T014000Z"])
    (by decide) (by decide) (by decide) (.line (by decide) (by decide) (.line (by decide) (by decide) .nil)) .nil

example : (decodeDoc sampleEnv (calText (headLines ++ twoEvents))).isOk = true ∧ (decodeDoc sampleEnv (calText (headLines ++ oneEvent))).isOk = true ∧
    Loud (headLines ++ oneEvent ++ twoEvents) ∧ (decodeDoc sampleEnv (calText (headLines ++ oneEvent ++ twoEvents))).isOk = true := by
  decide +kernel

/-! ## Any document -/

/-- C66, for all documents and every result.  Let lines `k`, at some place in some document, add no property to the calendar: only the calendar is open before and behind them
(`Midway`), and it has no more lines of its own properties behind them.  Then they are accepted for themselves, with components `d`; and wherever only the calendar is open in
whatever document, these lines make no difference but for the components of `d`, behind those that stand before them: the document is accepted, refused with an error, or makes
Decode panic just as without them.  (Read from right to left: taking the lines out takes out nothing but their components.) -/
theorem C66_everywhere (E : Env) (pre' k : List Line) (p' q' : Level) (hp' : Midway E pre' [p']) (hq' : Midway E (pre' ++ k) [q'])
    (hl : ∀ f ∈ tabCalendar.fields, (linesNamed q'.own f.key).length = (linesNamed p'.own f.key).length) :
    ∃ d : Cal, ((∀ l ∈ k, LineOk l) → decodeDoc E (calText (headLines ++ k)) = .ok d) ∧
      ∀ (pre : List Line) (p : Level) (s s' : Str) (r : List Line) (t : Term), Midway E pre [p] → tokenise s = ⟨pre ++ r, t⟩ → tokenise s' = ⟨pre ++ (k ++ r), t⟩ →
        decodeDoc E s' = decodeDoc E s >>= fun c => .ok (addComponents c d fun n => (blocksNamed p.own n).length) := by
  obtain ⟨ds, hk⟩ := midway_added hp' hq' hl
  have hrun : ∀ (fs : List (List PropVal)) (pre : List Line) (p : Level) (s s' : Str) (r : List Line) (t : Term), Midway E pre [p] → tokenise s = ⟨pre ++ r, t⟩ →
      tokenise s' = ⟨pre ++ (k ++ r), t⟩ → decodeDoc E s' = decodeDoc E s >>= fun c => .ok (addComponents c ⟨fs, ds⟩ fun n => (blocksNamed p.own n).length) := by
    intro fs pre p s s' r t hp h h'
    unfold decodeDoc
    rw [h, h']
    exact added_run hp hk fs t r
  by_cases ho : ∀ l ∈ k, LineOk l
  · obtain ⟨fs, hfs⟩ := added_alone hk ho
    exact ⟨⟨fs, ds⟩, fun _ => hfs, hrun fs⟩
  · exact ⟨⟨[], ds⟩, fun h => absurd h ho, hrun []⟩

/-- C66: the lines of `C66_everywhere` are exactly those that `Added` describes by the grammar of accepted documents. -/
theorem C66_which_lines (E : Env) (pre k : List Line) (p : Level) (hp : Midway E pre [p]) :
    (∃ ds, Added E k ds) ↔ ∃ q, Midway E (pre ++ k) [q] ∧ ∀ f ∈ tabCalendar.fields, (linesNamed q.own f.key).length = (linesNamed p.own f.key).length := by
  constructor
  · rintro ⟨ds, hk⟩
    exact added_midway hp hk
  · rintro ⟨q, hq, hl⟩
    exact midway_added hp hq hl

/-! An event in lower case, with an alarm that ends with END:VALARM and then another END line: `Loud` does not hold. -/

def lowerEvent : List Line := [plainLine c!"begin" c!"vevent", plainLine c!"uid" c!"1", plainLine c!"dtstamp" c!"20210729T014000Z", plainLine c!"begin" c!"valarm",
  plainLine kACTION c!"NONE", plainLine c!"End" kVALARM, plainLine kEND kVALARM, plainLine c!"end" c!"VEVENT"]

/-- The lines are accepted for themselves. -/
theorem lowerEvent_added : ∃ ds, Added sampleEnv lowerEvent ds := by
  have hx : (match compDecode sampleEnv .done tabEvent lowerEvent.tail with | .ok (_, []) => true | _ => false) = true := by decide +kernel
  obtain ⟨v, hv⟩ : ∃ v, compDecode sampleEnv .done tabEvent lowerEvent.tail = .ok (v, []) := by
    cases h : compDecode sampleEnv .done tabEvent lowerEvent.tail with
    | ok x =>
      obtain ⟨v, r⟩ := x
      cases r with
      | nil => exact ⟨v, rfl⟩
      | cons => rw [h] at hx; cases hx
    | err e => rw [h] at hx; cases hx
    | panic => rw [h] at hx; cases hx
  obtain ⟨k, hk, hR⟩ := (compDecode_grammar (c!"VEVENT", tabEvent) (List.mem_cons_self ..) _ _ _).1 hv
  rw [List.append_nil] at hk
  subst hk
  refine ⟨[[v], [], [], [], []], _, Parts.known (b := plainLine c!"begin" c!"vevent") (k := lowerEvent.tail) (r := []) (by decide) (by decide) .nil, by decide, rfl, ?_⟩
  intro i x hx
  match i, hx with
  | 0, hx => cases hx; exact .cons hR .nil
  | 1, hx => cases hx; exact .nil
  | 2, hx => cases hx; exact .nil
  | 3, hx => cases hx; exact .nil
  | 4, hx => cases hx; exact .nil

/-- So they make no difference but for the event, wherever only the calendar is open: behind the lines that every calendar needs, for instance. -/
example : ¬ Loud lowerEvent ∧ ∃ p q, Midway sampleEnv (plainLine kBEGIN c!"VCALENDAR" :: headLines) [p] ∧
    Midway sampleEnv (plainLine kBEGIN c!"VCALENDAR" :: headLines ++ lowerEvent) [q] := by
  obtain ⟨p, hp⟩ := headLines_midway sampleEnv
  obtain ⟨q, hq, _⟩ := (C66_which_lines _ _ _ _ hp).1 lowerEvent_added
  exact ⟨by decide +kernel, p, q, hp, hq⟩

example : (decodeDoc sampleEnv (calText (headLines ++ lowerEvent ++ twoEvents))).isOk = true ∧ decodeDoc sampleEnv (calText (oneEvent ++ lowerEvent ++ twoEvents)) = .err .missingRequired ∧
    decodeDoc sampleEnv (calText (oneEvent ++ twoEvents)) = .err .missingRequired := by
  decide +kernel

/-! ## Lower case -/

/-- An event with an alarm that ends with `end:VALARM`. -/
def quietEvent : List Line := [plainLine kBEGIN c!"VEVENT", plainLine c!"UID" c!"1", plainLine c!"DTSTAMP" c!"20210729T014000Z", plainLine kBEGIN kVALARM,
  plainLine kACTION c!"NONE", plainLine c!"end" kVALARM, plainLine kEND c!"VEVENT"]

/-- A block that is not known, and an event with a block in it. -/
def quietRest : List Line := [plainLine kBEGIN kVALARM, plainLine kACTION c!"NONE", plainLine c!"end" kVALARM, plainLine c!"begin" c!"VEVENT",
  plainLine c!"UID" c!"2", plainLine c!"DTSTAMP" c!"20210729T014000Z", plainLine c!"begin" c!"B", plainLine kEND c!"B", plainLine c!"end" c!"VEVENT"]

/-- `quietEvent` is not accepted for itself; but together with `quietRest` it is, as a single event with two alarms: the END line of the event is taken
for that of the alarm. -/
theorem C66_lower_case : decodeDoc sampleEnv (calText (headLines ++ quietEvent)) = .err .invalidEnd ∧
    (decodeDoc sampleEnv (calText (headLines ++ quietRest))).isOk = true ∧
    (decodeDoc sampleEnv (calText (headLines ++ quietEvent ++ quietRest))).isOk = true := by
  decide +kernel

/-- C66.  The claim as stated in full is false: a counterexample. -/
theorem C66_full_claim_is_false : ¬ C66_claim := by
  intro h
  obtain ⟨h1, h2, h3⟩ := C66_lower_case
  have hk : Items quietEvent [.block c!"VEVENT" [plainLine c!"UID" c!"1", plainLine c!"DTSTAMP" c!"20210729T014000Z", plainLine kBEGIN kVALARM,
      plainLine kACTION c!"NONE", plainLine c!"end" kVALARM]] := by
    refine Items.block (b := plainLine kBEGIN c!"VEVENT") (e := plainLine kEND c!"VEVENT") (k := [plainLine c!"UID" c!"1",
      plainLine c!"DTSTAMP" c!"20210729T014000Z", plainLine kBEGIN kVALARM, plainLine kACTION c!"NONE", plainLine c!"end" kVALARM])
      (by decide) (by decide) (by decide) (.line (by decide) (by decide) (.line (by decide) (by decide) ?_)) .nil
    exact Closed.block (b := plainLine kBEGIN kVALARM) (e := plainLine c!"end" kVALARM) (k := [plainLine kACTION c!"NONE"]) (by decide) (by decide) (by decide)
      (.line (by decide) (by decide) .nil) .nil
  have hb : Items quietRest [.block kVALARM [plainLine kACTION c!"NONE"], .block c!"VEVENT" [plainLine c!"UID" c!"2",
      plainLine c!"DTSTAMP" c!"20210729T014000Z", plainLine c!"begin" c!"B", plainLine kEND c!"B"]] := by
    refine Items.block (b := plainLine kBEGIN kVALARM) (e := plainLine c!"end" kVALARM) (k := [plainLine kACTION c!"NONE"]) (by decide) (by decide) (by decide)
      (.line (by decide) (by decide) .nil) ?_
    refine Items.block (b := plainLine c!"begin" c!"VEVENT") (e := plainLine c!"end" c!"VEVENT") (k := [plainLine c!"UID" c!"2",
      plainLine c!"DTSTAMP" c!"20210729T014000Z", plainLine c!"begin" c!"B", plainLine kEND c!"B"]) (by decide) (by decide) (by decide)
      (.line (by decide) (by decide) (.line (by decide) (by decide) ?_)) .nil
    exact Closed.block (b := plainLine c!"begin" c!"B") (e := plainLine kEND c!"B") (k := []) (by decide) (by decide) (by decide) .nil .nil
  cases hx : decodeDoc sampleEnv (calText (headLines ++ quietEvent ++ quietRest)) with
  | ok c' =>
    obtain ⟨c, d, _, h5, _⟩ := (h sampleEnv headLines quietEvent quietRest _ _ _ c' headLines_items hk hb (by intro i hi; simp only [List.mem_singleton] at hi; exact ⟨_, _, hi⟩)
      (tokenise_front (s := (headLines ++ quietEvent ++ quietRest).flatMap printLine) (r := []) (by decide +kernel)).1).1 hx
    rw [h1] at h5
    cases h5
  | err e => rw [hx] at h3; exact absurd h3 (by simp [Res.isOk])
  | panic => rw [hx] at h3; exact absurd h3 (by simp [Res.isOk])

end Ics.Props
