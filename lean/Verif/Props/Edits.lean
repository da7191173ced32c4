import Verif.EditLemmas
import Verif.Props.Decode
/-!
# Theorems about edits that should make no difference: C40, C41, C42, C43
-/

namespace Ics.Props

open Spec

theorem Recased.refl (l : Line) : Recased l l := by
  refine ⟨rfl, fun _ => rfl, ?_, rfl⟩
  induction l.params with
  | nil => exact .nil
  | cons p ps ih => exact .cons ⟨rfl, rfl⟩ ih

theorem ResAlike.refl (w : Bool) {α : Type} (x : Res α) : ResAlike w x x := by
  unfold ResAlike; split <;> simp

theorem SameRead.refl (w : Bool) (E : Env) (l : Line) : SameRead w E l l := ⟨rfl, fun _ => ⟨rfl, rfl⟩, fun _ _ _ => ResAlike.refl _ _⟩

theorem Variant.refl (w : Bool) (E : Env) : ∀ (a : List Line), Variant (SameRead w E) a a
  | [] => .nil
  | l :: a => .line (SameRead.refl w E l) (Variant.refl w E a)

theorem Swapped.refl : ∀ (a : List Line), Swapped a a
  | [] => .nil
  | _ :: a => .line (Swapped.refl a)

/-! ## C40 Unknown lines -/

/-- C40.  A line with a name that no component knows makes no difference anywhere behind the first line: the calendar is the same, and so is the error
or panic if there is one. -/
theorem C40_foreign (E : Env) (s s' : Str) (b l : Line) (p r : List Line) (t : Term) (h : tokenise s = ⟨b :: p ++ r, t⟩)
    (h' : tokenise s' = ⟨b :: p ++ l :: r, t⟩) (hl : Foreign l) : decodeDoc E s' = decodeDoc E s := by
  have hv : ∀ p : List Line, Variant (SameRead false E) (p ++ r) (p ++ l :: r) := by
    intro p
    induction p with
    | nil => exact .foreign hl (Variant.refl _ E r)
    | cons x p ih => exact .line (SameRead.refl _ E x) ih
  unfold decodeDoc
  rw [h, h']
  exact (decodeStream_variant (SameRead.refl false E b) (hv p)).symm

/-- C40.  A line with a name that is not known to the component it is in makes no difference, for any result.  (A name may be known to one component
and not to another.)

Missing: the lines before it, if they contain blocks of other components that are closed, must have the names BEGIN, END and ACTION in upper case. -/
theorem C40_unknown_partial (E : Env) (s s' : Str) (B : Body) (pre r : List Line) (l : Line) (t : Term) (hi : Inside B pre) (hl : NotKnown l r B)
    (h : tokenise s = ⟨pre ++ r, t⟩) (h' : tokenise s' = ⟨pre ++ l :: r, t⟩) : decodeDoc E s' = decodeDoc E s := by
  unfold decodeDoc
  rw [h, h']
  exact hi.insert hl

/-- A document with an event, inside its alarm. -/
def inAlarm : List Line := [plainLine kBEGIN c!"VCALENDAR"] ++ [plainLine c!"VERSION" c!"2.0", plainLine c!"PRODID" c!"x"] ++ [plainLine kBEGIN c!"VEVENT"] ++
  [plainLine c!"UID" c!"1", plainLine c!"DTSTAMP" c!"20210729T014000Z", plainLine kBEGIN kVALARM, plainLine kACTION c!"NONE", plainLine kEND kVALARM] ++
  [plainLine kBEGIN kVALARM] ++ [plainLine kACTION c!"NONE"]

def afterAlarm : List Line := [plainLine kEND kVALARM, plainLine kEND c!"VEVENT", plainLine kEND c!"VCALENDAR"]

theorem inEvent_inside : Inside (.comp tabEvent) ([plainLine kBEGIN c!"VCALENDAR"] ++ [plainLine c!"VERSION" c!"2.0", plainLine c!"PRODID" c!"x"] ++
    [plainLine kBEGIN c!"VEVENT"] ++ [plainLine c!"UID" c!"1", plainLine c!"DTSTAMP" c!"20210729T014000Z", plainLine kBEGIN kVALARM,
    plainLine kACTION c!"NONE", plainLine kEND kVALARM]) := by
  refine .lines (.comp (x := (c!"VEVENT", tabEvent)) (.lines (.cal (by decide) (by decide)) (fun k => by simp) ?_ (by decide)) (by decide) ?_ (by decide))
    (fun k => by simp) ?_ (by decide)
  · exact .line (by decide) (by decide) (.line (by decide) (by decide) .nil)
  · exact List.mem_of_getElem? (i := 0) rfl
  · refine .line (by decide) (by decide) (.line (by decide) (by decide) ?_)
    exact Closed.block (b := plainLine kBEGIN kVALARM) (e := plainLine kEND kVALARM) (k := [plainLine kACTION c!"NONE"]) (by decide) (by decide) (by decide)
      (.line (by decide) (by decide) .nil) .nil

theorem inAlarm_inside : Inside (.alarm [plainLine kACTION c!"NONE"]) inAlarm := by
  refine .line (k := []) (.alarm (n := kVALARM) inEvent_inside (by decide) ?_ (by decide)) (by decide) (by decide)
  exact List.mem_of_getElem? (i := 0) rfl

/-- UID is known to events, but not to an alarm without effect; an unknown line inside that alarm. -/
example : Inside (.alarm [plainLine kACTION c!"NONE"]) inAlarm ∧ NotKnown (plainLine c!"UID" c!"2") afterAlarm (.alarm [plainLine kACTION c!"NONE"]) ∧
    tokenise ((inAlarm ++ afterAlarm).flatMap printLine) = ⟨inAlarm ++ afterAlarm, .done⟩ ∧
    tokenise ((inAlarm ++ plainLine c!"UID" c!"2" :: afterAlarm).flatMap printLine) = ⟨inAlarm ++ plainLine c!"UID" c!"2" :: afterAlarm, .done⟩ ∧
    (decodeDoc sampleEnv ((inAlarm ++ afterAlarm).flatMap printLine)).isOk = true := by
  refine ⟨inAlarm_inside, ⟨by decide, fun a ha => ?_⟩, by decide +kernel, by decide +kernel, by decide +kernel⟩
  have : a.action = c!"NONE" := by simpa [actions, afterAlarm, plainLine, kACTION, kEND, upper, upperC] using ha
  cases a <;> revert this <;> decide +kernel

example : Foreign (plainLine c!"X-WR-CALNAME" c!"n") ∧ ¬ Foreign (plainLine c!"uid" c!"n") := by decide +kernel

/-- Between `end:VALARM` and the next line called `END`, even in another component, a line ACTION is counted as one of the alarm. -/
theorem C40_action_outside : (decodeDoc sampleEnv twoUidsDoc).isOk = true ∧ decodeDoc sampleEnv ((plainLine kBEGIN c!"VCALENDAR" ::
    [plainLine c!"VERSION" c!"2.0", plainLine c!"PRODID" c!"x", plainLine kBEGIN c!"VEVENT"] ++ (twoUids.take 5 ++ [plainLine kACTION c!"AUDIO"] ++
    twoUids.drop 5) ++ [plainLine kEND c!"VEVENT", plainLine kEND c!"VCALENDAR"]).flatMap printLine) = .err .invalidStructure := by decide +kernel

/-- The full claim. -/
def C40_claim : Prop := ∀ (E : Env) (s s' : Str) (B : Body) (pre r : List Line) (l : Line) (t : Term), InsideAnyCase B pre → NotKnown l r B →
  tokenise s = ⟨pre ++ r, t⟩ → tokenise s' = ⟨pre ++ l :: r, t⟩ → decodeDoc E s' = decodeDoc E s

/-- C40.  The claim as stated in full is false: a counterexample. -/
theorem C40_full_claim_is_false : ¬ C40_claim := by
  intro h
  have hi : InsideAnyCase (.comp tabEvent) ([plainLine kBEGIN c!"VCALENDAR"] ++ [plainLine c!"VERSION" c!"2.0", plainLine c!"PRODID" c!"x"] ++
      [plainLine kBEGIN c!"VEVENT"] ++ twoUids.take 5) := by
    refine .lines (.comp (x := (c!"VEVENT", tabEvent)) (.lines (.cal (by decide) (by decide)) (fun k => by simp) ?_) (by decide) ?_ (by decide))
      (fun k => by simp) ?_
    · exact .line (by decide) (by decide) (.line (by decide) (by decide) .nil)
    · exact List.mem_of_getElem? (i := 0) rfl
    · refine .line (by decide) (by decide) (.line (by decide) (by decide) ?_)
      exact Closed.block (b := plainLine kBEGIN kVALARM) (e := plainLine c!"end" kVALARM) (k := [plainLine kACTION c!"NONE"]) (by decide) (by decide) (by decide)
        (.line (by decide) (by decide) .nil) .nil
  have hx := C40_action_outside
  have := h sampleEnv twoUidsDoc _ _ _ (twoUids.drop 5 ++ [plainLine kEND c!"VEVENT", plainLine kEND c!"VCALENDAR"]) (plainLine kACTION c!"AUDIO") .done hi
    ⟨by decide, by decide, by decide⟩ (by decide +kernel) (by decide +kernel : tokenise ((plainLine kBEGIN c!"VCALENDAR" ::
    [plainLine c!"VERSION" c!"2.0", plainLine c!"PRODID" c!"x", plainLine kBEGIN c!"VEVENT"] ++ (twoUids.take 5 ++ [plainLine kACTION c!"AUDIO"] ++
    twoUids.drop 5) ++ [plainLine kEND c!"VEVENT", plainLine kEND c!"VCALENDAR"]).flatMap printLine) = _)
  rw [← this, hx.2] at hx
  exact absurd hx.1 (by decide)

/-! ## C41 Unknown blocks -/

/-- The property: a closed block with a name that is not known makes no difference inside any component. -/
def C41_claim : Prop := ∀ (E : Env) (s s' : Str) (B : Body) (pre k r : List Line) (b e : Line) (t : Term), Inside B pre →
  Begins b → Ends e → upper e.value = upper b.value → Closed k → upper b.value ∉ B.parts →
  tokenise s = ⟨pre ++ r, t⟩ → tokenise s' = ⟨pre ++ (b :: k ++ e :: r), t⟩ → decodeDoc E s' = decodeDoc E s

/-- C41.  It does not, whatever is in the block, if the block is not in an alarm, and the names of the blocks in it are in upper case (and the names
BEGIN and END). -/
theorem C41_block_partial (E : Env) (s s' : Str) (B : Body) (pre k r : List Line) (b e : Line) (t : Term) (hi : Inside B pre) (hB : ∀ k, B ≠ .alarm k)
    (hb : Begins b) (he : Ends e) (hv : e.value = b.value) (hc : Closed k) (hl : Loud (b :: k ++ [e])) (hn : upper b.value ∉ B.parts)
    (h : tokenise s = ⟨pre ++ r, t⟩) (h' : tokenise s' = ⟨pre ++ (b :: k ++ e :: r), t⟩) : decodeDoc E s' = decodeDoc E s := by
  unfold decodeDoc
  rw [h, h']
  exact hi.insert_block hB hb he hv hc hl hn r

/-- A block with blocks in it. -/
def nested : List Line := [plainLine kBEGIN c!"X", plainLine c!"UID" c!"2", plainLine kBEGIN c!"VEVENT", plainLine kBEGIN c!"X", plainLine kEND c!"X",
  plainLine kEND c!"VEVENT"]

example : Closed nested.tail ∧ Loud (nested ++ [plainLine kEND c!"X"]) ∧ upper c!"X" ∉ (Body.comp tabEvent).parts := by
  refine ⟨.line (by decide) (by decide) ?_, by decide, by decide⟩
  refine Closed.block (b := plainLine kBEGIN c!"VEVENT") (k := [plainLine kBEGIN c!"X", plainLine kEND c!"X"]) (by decide) (by decide) (by decide) ?_ .nil
  exact Closed.block (b := plainLine kBEGIN c!"X") (k := []) (by decide) (by decide) (by decide) .nil .nil

/-- In an alarm such a block is an error. -/
theorem C41_in_alarm : (decodeDoc sampleEnv ((inAlarm ++ afterAlarm).flatMap printLine)).isOk = true ∧
    decodeDoc sampleEnv ((inAlarm ++ plainLine kBEGIN c!"X" :: plainLine kEND c!"X" :: afterAlarm).flatMap printLine) = .err .invalidStructure := by
  decide +kernel

/-- C41.  The claim as stated in full is false: a counterexample. -/
theorem C41_full_claim_is_false : ¬ C41_claim := by
  intro h
  have := h sampleEnv _ _ _ inAlarm [] afterAlarm (plainLine kBEGIN c!"X") (plainLine kEND c!"X") .done inAlarm_inside (by decide) (by decide) (by decide)
    .nil (by simp [Body.parts]) (by decide +kernel : tokenise ((inAlarm ++ afterAlarm).flatMap printLine) = _)
    (by decide +kernel : tokenise ((inAlarm ++ plainLine kBEGIN c!"X" :: plainLine kEND c!"X" :: afterAlarm).flatMap printLine) = _)
  have hx := C41_in_alarm
  rw [← this, hx.2] at hx
  exact absurd hx.1 (by decide)

/-- And so is a block in a block with a name in lower case, closed by the same name. -/
theorem C41_lower_case : decodeDoc sampleEnv c!"BEGIN:VCALENDAR\r\nVERSION:2.0\r\nPRODID:x\r\nBEGIN:X\r\nBEGIN:y\r\nEND:y\r\nEND:X\r\nEND:VCALENDAR\r\n" =
      .err .invalidEnd ∧
    (decodeDoc sampleEnv c!"BEGIN:VCALENDAR\r\nVERSION:2.0\r\nPRODID:x\r\nBEGIN:X\r\nBEGIN:Y\r\nEND:Y\r\nEND:X\r\nEND:VCALENDAR\r\n").isOk = true := by
  decide +kernel

/-! ## C42 Order -/

/-- C42.  Exchanging neighbouring lines with different names (not BEGIN or END) anywhere in a document makes no difference to a successful Decode. -/
theorem C42_order (E : Env) (s s' : Str) (a b : List Line) (t : Term) (h : tokenise s = ⟨a, t⟩) (h' : tokenise s' = ⟨b, t⟩) (hs : Swapped a b) (c : Cal)
    (hc : decodeDoc E s = .ok c) : decodeDoc E s' = .ok c := by
  unfold decodeDoc at hc ⊢
  rw [h] at hc
  rw [h']
  exact decodeStream_orderly hs hc

theorem Swapped.symm {a b : List Line} (h : Swapped a b) : Swapped b a := by
  induction h with
  | nil => exact .nil
  | line _ ih => exact .line ih
  | swap h1 h2 h3 h4 h5 _ ih => exact .swap h3 h4 h1 h2 (Ne.symm h5) ih

/-- C42.  A single exchange, in both directions. -/
theorem C42_swap (E : Env) (s s' : Str) (p r : List Line) (l m : Line) (t : Term) (h : tokenise s = ⟨p ++ l :: m :: r, t⟩)
    (h' : tokenise s' = ⟨p ++ m :: l :: r, t⟩) (hl : ¬ Begins l ∧ ¬ Ends l) (hm : ¬ Begins m ∧ ¬ Ends m) (hn : upper l.name ≠ upper m.name) (c : Cal) :
    decodeDoc E s = .ok c ↔ decodeDoc E s' = .ok c := by
  have hs : Swapped (p ++ l :: m :: r) (p ++ m :: l :: r) := by
    clear h h'
    induction p with
    | nil => exact .swap hl.1 hl.2 hm.1 hm.2 hn (Swapped.refl r)
    | cons x p ih => exact .line ih
  exact ⟨C42_order E s s' _ _ t h h' hs c, C42_order E s' s _ _ t h' h (Swapped.symm hs) c⟩

/-- Order matters for lines with the same name, and for BEGIN and END. -/
example : ∃ a b : Str, decodeDoc sampleEnv a ≠ decodeDoc sampleEnv b ∧
    (tokenise a).lines = inAlarm.take 6 ++ plainLine c!"COMMENT" c!"1" :: plainLine c!"COMMENT" c!"2" :: afterAlarm.drop 1 ∧
    (tokenise b).lines = inAlarm.take 6 ++ plainLine c!"COMMENT" c!"2" :: plainLine c!"COMMENT" c!"1" :: afterAlarm.drop 1 :=
  ⟨(inAlarm.take 6 ++ plainLine c!"COMMENT" c!"1" :: plainLine c!"COMMENT" c!"2" :: afterAlarm.drop 1).flatMap printLine,
    (inAlarm.take 6 ++ plainLine c!"COMMENT" c!"2" :: plainLine c!"COMMENT" c!"1" :: afterAlarm.drop 1).flatMap printLine, by decide +kernel⟩

example : ∃ a b : Str, (decodeDoc sampleEnv a).isOk = true ∧ a ≠ b ∧
    (tokenise a).lines = inAlarm.take 4 ++ plainLine c!"UID" c!"1" :: plainLine c!"DTSTAMP" c!"20210729T014000Z" :: afterAlarm.drop 1 ∧
    (tokenise b).lines = inAlarm.take 4 ++ plainLine c!"DTSTAMP" c!"20210729T014000Z" :: plainLine c!"UID" c!"1" :: afterAlarm.drop 1 :=
  ⟨(inAlarm.take 4 ++ plainLine c!"UID" c!"1" :: plainLine c!"DTSTAMP" c!"20210729T014000Z" :: afterAlarm.drop 1).flatMap printLine,
    (inAlarm.take 4 ++ plainLine c!"DTSTAMP" c!"20210729T014000Z" :: plainLine c!"UID" c!"1" :: afterAlarm.drop 1).flatMap printLine, by decide +kernel⟩

/-! ## C43 Case -/

/-- The property: the case of names makes no difference. -/
def C43_claim : Prop := ∀ (E : Env) (s s' : Str) (a b : List Line) (t : Term), tokenise s = ⟨a, t⟩ → tokenise s' = ⟨b, t⟩ →
  Pairwise2 CaseAlike a b → decodeDoc E s' = decodeDoc E s

/-- C43.  The case of property names (other than BEGIN, END and ACTION) and of parameter names makes no difference, for any result. -/
theorem C43_names_partial (E : Env) (s s' : Str) (a b : List Line) (t : Term) (h : tokenise s = ⟨a, t⟩) (h' : tokenise s' = ⟨b, t⟩)
    (hr : Pairwise2 Recased a b) : decodeDoc E s' = decodeDoc E s := by
  have hv : ∀ {a b : List Line}, Pairwise2 Recased a b → Variant (SameRead false E) a b := by
    intro a b h
    induction h with
    | nil => exact .nil
    | cons h _ ih => exact .line (h.same E) ih
  unfold decodeDoc
  rw [h, h']
  cases hr with
  | nil => rfl
  | cons hl hr => exact (decodeStream_variant (hl.same E) (hv hr)).symm

/-- C43.  In a component that is known, other than an alarm, the case of BEGIN, and of the name of the component that begins, makes no difference. -/
theorem C43_begin_partial (E : Env) (s s' : Str) (B : Body) (pre r : List Line) (b b' : Line) (t : Term) (hi : Inside B pre)
    (hB : (∀ k, B ≠ .alarm k) ∧ B ≠ .unknown) (hb : Begins b) (hb' : Begins b') (hv : upper b'.value = upper b.value)
    (h : tokenise s = ⟨pre ++ b :: r, t⟩) (h' : tokenise s' = ⟨pre ++ b' :: r, t⟩) : decodeDoc E s' = decodeDoc E s := by
  unfold decodeDoc
  rw [h, h']
  exact hi.begin_case hB hb hb' hv r

/-- C43.  In a component other than an alarm the case of END makes no difference (but the case of the name behind it does). -/
theorem C43_end_partial (E : Env) (s s' : Str) (B : Body) (pre r : List Line) (e e' : Line) (t : Term) (hi : Inside B pre)
    (hB : ∀ k, B ≠ .alarm k) (he : Ends e) (he' : Ends e') (hv : e'.value = e.value)
    (h : tokenise s = ⟨pre ++ e :: r, t⟩) (h' : tokenise s' = ⟨pre ++ e' :: r, t⟩) : decodeDoc E s' = decodeDoc E s := by
  unfold decodeDoc
  rw [h, h']
  exact hi.end_case hB he he' hv r

example : Recased ⟨c!"dtstart", [(c!"tzid", [⟨false, c!"UTC"⟩])], c!"20210729T014000"⟩ ⟨c!"DTSTART", [(c!"TZID", [⟨false, c!"UTC"⟩])], c!"20210729T014000"⟩ :=
  ⟨by decide, by decide, .cons ⟨by decide, rfl⟩ .nil, rfl⟩

/-- The end of a component, in lower case, is not recognised. -/
theorem C43_end_name : decodeDoc sampleEnv c!"BEGIN:VCALENDAR\r\nVERSION:2.0\r\nPRODID:x\r\nEND:vcalendar\r\n" = .err .invalidEnd ∧
    (decodeDoc sampleEnv c!"BEGIN:vcalendar\r\nVERSION:2.0\r\nPRODID:x\r\nEND:VCALENDAR\r\n").isOk = true := by decide +kernel

/-- In an alarm `action` is not recognised. -/
theorem C43_action : (decodeDoc sampleEnv ((inAlarm ++ afterAlarm).flatMap printLine)).isOk = true ∧
    decodeDoc sampleEnv ((inAlarm.dropLast ++ plainLine c!"action" c!"NONE" :: afterAlarm).flatMap printLine) = .err .missingAlarmAction := by decide +kernel

/-- In an alarm `end` does not end it for the loop that looks for its type; here it goes on to the end of the event. -/
theorem C43_alarm_end :
    decodeDoc sampleEnv ((inAlarm ++ plainLine c!"end" kVALARM :: afterAlarm.tail).flatMap printLine) = .err .invalidEnd := by decide +kernel

/-- C43.  The claim as stated in full is false: a counterexample. -/
theorem C43_full_claim_is_false : ¬ C43_claim := by
  intro h
  have hr : ∀ l : Line, CaseAlike l l := fun l => ⟨rfl, (Recased.refl l).params, Or.inl rfl⟩
  have := h sampleEnv c!"BEGIN:vcalendar\r\nVERSION:2.0\r\nPRODID:x\r\nEND:VCALENDAR\r\n" c!"BEGIN:VCALENDAR\r\nVERSION:2.0\r\nPRODID:x\r\nEND:vcalendar\r\n"
    [plainLine kBEGIN c!"vcalendar", plainLine c!"VERSION" c!"2.0", plainLine c!"PRODID" c!"x", plainLine kEND c!"VCALENDAR"]
    [plainLine kBEGIN c!"VCALENDAR", plainLine c!"VERSION" c!"2.0", plainLine c!"PRODID" c!"x", plainLine kEND c!"vcalendar"] .done (by decide +kernel)
    (by decide +kernel) (.cons ⟨rfl, .nil, Or.inr (by decide)⟩ (.cons (hr _) (.cons (hr _) (.cons ⟨rfl, .nil, Or.inr (by decide)⟩ .nil))))
  have hx := C43_end_name
  rw [← this, hx.1] at hx
  exact absurd hx.2 (by decide)

end Ics.Props
