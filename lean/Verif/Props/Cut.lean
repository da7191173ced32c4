import Verif.CrashLemmas
import Verif.Props.Early
import Verif.Props.ContentLine
/-!
# Theorems about documents that are cut off, and about the line that is to blame: C12, C70, C71
-/

namespace Ics.Props

open Spec

/-- The text of the lines. -/
abbrev textOf (ls : List Line) : Str := ls.flatMap printLine

theorem decodeDoc_lines (E : Env) {ls : List Line} (hl : ∀ l ∈ ls, LineOk l) (q : Str) :
    decodeDoc E (textOf ls ++ q) = decodeStream E ⟨ls ++ (tokenise q).lines, (tokenise q).term⟩ := by
  unfold decodeDoc
  rw [tokenise_prints _ hl q]

theorem decodeDoc_text (E : Env) {ls : List Line} (hl : ∀ l ∈ ls, LineOk l) : decodeDoc E (textOf ls) = decodeStream E ⟨ls, .done⟩ := by
  have := decodeDoc_lines E hl []
  rw [tokenise_nil, List.append_nil, List.append_nil] at this
  exact this

theorem undecided_iff (E : Env) {ls : List Line} (hl : ∀ l ∈ ls, LineOk l) : Undecided E (textOf ls) ↔ Wants E ls := by
  constructor
  · intro h
    rcases wants_or_settled E ls with h1 | h1
    · refine (C65_not_both E _ (decodeStream E ⟨ls, .done⟩) ⟨decodeDoc_text E hl, fun q => ?_⟩ h).elim
      rw [decodeDoc_lines E hl, h1]
    · exact h1
  · intro h
    rcases C65_settled_or_undecided E ls hl with ⟨x, h1, h2⟩ | h1
    · exfalso
      have a := h2 c!"?"
      have b := h2 c!"A?"
      have e1 : tokenise c!"?" = ⟨[], .error .invalidContentLine⟩ := by decide +kernel
      have e2 : tokenise c!"A?" = ⟨[], .error .invalidContentLineName⟩ := by decide +kernel
      have w1 := h .invalidContentLine
      have w2 := h .invalidContentLineName
      simp only at w1 w2
      rw [decodeDoc_lines E hl, e1, List.append_nil, w1] at a
      rw [decodeDoc_lines E hl, e2, List.append_nil, w2] at b
      rw [← a] at b
      cases b
    · exact h1

theorem settles_of {E : Env} {ls : List Line} (hl : ∀ l ∈ ls, LineOk l) {x : Res Cal} (h : ∀ t q, decodeStream E ⟨ls ++ q, t⟩ = x) : Settles E (textOf ls) x :=
  ⟨by rw [decodeDoc_text E hl]; have := h .done []; rwa [List.append_nil] at this, fun q => by rw [decodeDoc_lines E hl, h]⟩

/-! ## C70 Documents cut off between lines -/

/-- The full claim: a document that is cut off between two lines is reported as ending too early. -/
def C70_claim : Prop := ∀ (E : Env) (p r : List Line) (c : Cal), (∀ l ∈ p ++ r, LineOk l) → decodeDoc E (textOf (p ++ r)) = .ok c →
  (∀ c', decodeDoc E (textOf p) ≠ .ok c') → decodeDoc E (textOf p) = .err .unexpectedEOF

/-- C70.  Of every document that is accepted, whoever wrote it, what is left when it is cut off between two lines is reported as ending too early, unless
it is complete already - or the cut is inside an alarm: then `Decode` panics.  (Not claimed for documents with BEGIN, END or ACTION in lower case.) -/
theorem C70_cut_partial (E : Env) (p r : List Line) (c : Cal) (hl : ∀ l ∈ p ++ r, LineOk l) (hk : Keywords (p ++ r)) (h : decodeDoc E (textOf (p ++ r)) = .ok c)
    (hp : ∀ c', decodeDoc E (textOf p) ≠ .ok c') :
    (decodeDoc E (textOf p) = .panic ∧ ∃ k, Inside (.alarm k) p) ∨ (decodeDoc E (textOf p) = .err .unexpectedEOF ∧ ¬ ∃ k, Inside (.alarm k) p) := by
  have hlp : ∀ l ∈ p, LineOk l := fun l h => hl l (List.mem_append_left _ h)
  rw [decodeDoc_text E hl] at h
  rw [decodeDoc_text E hlp]
  simp only [decodeDoc_text E hlp] at hp
  rcases cut_inside hk h rfl hp with rfl | ⟨B, hi⟩
  · refine Or.inr ⟨rfl, ?_⟩
    rintro ⟨k, hi⟩
    cases (hi.cut h).symm.trans (rfl : decodeStream E ⟨[], .done⟩ = .err .unexpectedEOF)
  · have h1 := hi.cut h
    rw [h1]
    have other : (∀ k, B ≠ .alarm k) → ¬ ∃ k, Inside (.alarm k) p := by
      rintro hB ⟨k, hi'⟩
      have h2 := hi'.cut h
      rw [h1] at h2
      cases B with
      | alarm k => exact hB k rfl
      | _ => cases h2
    cases B with
    | alarm k => exact Or.inl ⟨rfl, k, hi⟩
    | cal => exact Or.inr ⟨rfl, other (by simp)⟩
    | comp T => exact Or.inr ⟨rfl, other (by simp)⟩
    | leaf T => exact Or.inr ⟨rfl, other (by simp)⟩
    | unknown => exact Or.inr ⟨rfl, other (by simp)⟩

/-- C70, for the user: it is never reported as some other mistake. -/
theorem C70_never_blamed (E : Env) (p r : List Line) (c : Cal) (hl : ∀ l ∈ p ++ r, LineOk l) (hk : Keywords (p ++ r)) (h : decodeDoc E (textOf (p ++ r)) = .ok c)
    (e : Err) (he : decodeDoc E (textOf p) = .err e) : e = .unexpectedEOF := by
  rcases C70_cut_partial E p r c hl hk h (by rw [he]; intro _ h; cases h) with ⟨h1, _⟩ | ⟨h1, _⟩
  · rw [he] at h1; cases h1
  · rw [he] at h1; cases h1; rfl

theorem sample_ok : (∀ l ∈ (tokenise sampleDoc).lines, LineOk l) ∧ Keywords (tokenise sampleDoc).lines ∧ textOf (tokenise sampleDoc).lines = sampleDoc :=
  ⟨C11_document _, by decide +kernel, by decide +kernel⟩

/-- The sample document, cut off inside its event (before the alarm), and inside its alarm. -/
theorem cut_samples : decodeDoc sampleEnv (textOf ((tokenise sampleDoc).lines.take 5)) = .err .unexpectedEOF ∧
    ((tokenise sampleDoc).lines.any fun l => l.name == c!"BEGIN" && l.value == c!"VALARM") = true ∧
    decodeDoc sampleEnv (textOf ((tokenise sampleDoc).lines.take ((tokenise sampleDoc).lines.findIdx (fun l => l.value == c!"VALARM") + 2))) = .panic := by
  decide +kernel

example : ∀ e, decodeDoc sampleEnv (textOf ((tokenise sampleDoc).lines.take 5)) = .err e → e = .unexpectedEOF := by
  intro e he
  have h0 : (tokenise sampleDoc).lines.take 5 ++ (tokenise sampleDoc).lines.drop 5 = (tokenise sampleDoc).lines := List.take_append_drop _ _
  have hd : ∃ c, decodeDoc sampleEnv sampleDoc = .ok c := by
    have : (match decodeDoc sampleEnv sampleDoc with | .ok _ => true | _ => false) = true := by decide +kernel
    cases h : decodeDoc sampleEnv sampleDoc with
    | ok c => exact ⟨c, rfl⟩
    | err e => rw [h] at this; cases this
    | panic => rw [h] at this; cases this
  obtain ⟨c, hd⟩ := hd
  exact C70_never_blamed sampleEnv _ ((tokenise sampleDoc).lines.drop 5) c (by rw [h0]; exact sample_ok.1) (by rw [h0]; exact sample_ok.2.1)
    (by rw [h0, sample_ok.2.2]; exact hd) e he

/-- C70.  The claim as stated in full is false: a counterexample. -/
theorem C70_full_claim_is_false : ¬ C70_claim := by
  intro h
  have h0 : ∀ n, (tokenise sampleDoc).lines.take n ++ (tokenise sampleDoc).lines.drop n = (tokenise sampleDoc).lines := fun n => List.take_append_drop _ _
  have hd : ∃ c, decodeDoc sampleEnv sampleDoc = .ok c := by
    have : (match decodeDoc sampleEnv sampleDoc with | .ok _ => true | _ => false) = true := by decide +kernel
    cases h : decodeDoc sampleEnv sampleDoc with
    | ok c => exact ⟨c, rfl⟩
    | err e => rw [h] at this; cases this
    | panic => rw [h] at this; cases this
  obtain ⟨c, hd⟩ := hd
  have := h sampleEnv _ ((tokenise sampleDoc).lines.drop ((tokenise sampleDoc).lines.findIdx (fun l => l.value == c!"VALARM") + 2)) c
    (by rw [h0]; exact sample_ok.1) (by rw [h0, sample_ok.2.2]; exact hd) (by rw [cut_samples.2.2]; intro _ h; cases h)
  rw [cut_samples.2.2] at this
  cases this

/-! ## C71 The line that is to blame -/

/-- The property can be in this body. -/
def MayHave (B : Body) (f : SField) : Prop := f ∈ B.fields ∨ ∃ k a, B = .alarm k ∧ f ∈ (AKind.tab a).fields

/-- The full claim: at any place where a line for a property is accepted, another line for it that is wrong is reported, with its own error, whatever follows. -/
def C71_claim : Prop := ∀ (E : Env) (B : Body) (pre : List Line) (l l0 : Line) (f : SField) (e : Err), (∀ x ∈ pre ++ [l, l0], LineOk x) → Inside B pre →
  MayHave B f → f.key = upper l.name → f.key = upper l0.name → Undecided E (textOf (pre ++ [l0])) →
  f.spec.decode E l.params l.value = .err e → Settles E (textOf (pre ++ [l])) (.err e)

/-- C71.  At every place, other than in an alarm, where a line for a property is accepted, what another line for this property does depends on its parameters and
value alone: if they are right `Decode` goes on; if they are wrong, that is reported, whatever follows; and if reading them panics, so does `Decode`. -/
theorem C71_first_wrong_line_partial (E : Env) (B : Body) (pre : List Line) (l l0 : Line) (f : SField) (hl : ∀ x ∈ pre ++ [l, l0], LineOk x) (hi : Inside B pre)
    (hf : f ∈ B.fields) (h1 : f.key = upper l.name) (h2 : f.key = upper l0.name) (h3 : Undecided E (textOf (pre ++ [l0]))) :
    (∀ v, f.spec.decode E l.params l.value = .ok v → Undecided E (textOf (pre ++ [l]))) ∧
    (∀ e, f.spec.decode E l.params l.value = .err e → Settles E (textOf (pre ++ [l])) (.err e)) ∧
    (f.spec.decode E l.params l.value = .panic → Settles E (textOf (pre ++ [l])) .panic) := by
  have hl1 : ∀ x ∈ pre ++ [l], LineOk x := fun x hx => hl x (by
    simp only [List.mem_append, List.mem_cons, List.not_mem_nil, or_false] at hx ⊢
    rcases hx with h | h <;> simp [h])
  have hl0 : ∀ x ∈ pre ++ [l0], LineOk x := fun x hx => hl x (by
    simp only [List.mem_append, List.mem_cons, List.not_mem_nil, or_false] at hx ⊢
    rcases hx with h | h <;> simp [h])
  obtain ⟨a, b, c⟩ := next_prop hi hf h1 h2 ((undecided_iff E hl0).1 h3)
  refine ⟨fun v hv => (undecided_iff E hl1).2 (a v hv), fun e he => settles_of hl1 fun t q => ?_, fun hp => settles_of hl1 fun t q => ?_⟩
  · rw [List.append_assoc]; exact b e he t q
  · rw [List.append_assoc]; exact c hp t q

/-- C71.  Every result that is settled is settled by one line: up to the line before it the document was undecided. -/
theorem C71_one_line (E : Env) (ls : List Line) (hl : ∀ l ∈ ls, LineOk l) (x : Res Cal) (h : Settles E (textOf ls) x) :
    ∃ pre l r, ls = pre ++ l :: r ∧ Undecided E (textOf pre) ∧ Settles E (textOf (pre ++ [l])) x := by
  rcases wants_or_settled E ls with h1 | h1
  · have hx : ∀ t q, decodeStream E ⟨[] ++ ls ++ q, t⟩ = x := by
      intro t q
      rw [List.nil_append, h1, ← decodeDoc_text E hl]
      exact h.1
    obtain ⟨p, l, r, he, hw, hp⟩ := first_settled ls [] (wants_nil E) hx
    rw [List.nil_append] at he
    subst he
    have hlp : ∀ l ∈ p, LineOk l := fun y hy => hl y (by simp [hy])
    have hlq : ∀ y ∈ p ++ [l], LineOk y := fun y hy => hl y (by
      simp only [List.mem_append, List.mem_cons, List.not_mem_nil, or_false] at hy ⊢
      rcases hy with h | h <;> simp [h])
    exact ⟨p, l, r, rfl, (undecided_iff E hlp).2 hw, settles_of hlq fun t q => by rw [List.append_assoc]; exact hp t q⟩
  · exact (C65_not_both E _ x h ((undecided_iff E hl).2 h1)).elim

/-- In the event of the sample a SEQUENCE that is not a number is reported at once; the same for a rule that panics. -/
def seqPre : List Line := [⟨c!"BEGIN", [], c!"VCALENDAR"⟩, ⟨c!"BEGIN", [], c!"VEVENT"⟩, ⟨c!"SUMMARY", [], c!"x"⟩]

theorem seqPre_inside : Inside (.comp tabEvent) seqPre := by
  have h1 : Inside .cal [⟨c!"BEGIN", [], c!"VCALENDAR"⟩] := .cal (by decide) (by decide)
  have h2 := h1.comp (b := ⟨c!"BEGIN", [], c!"VEVENT"⟩) (x := (c!"VEVENT", tabEvent)) (by decide) (by simp [tabCalendar]) (by decide)
  exact h2.lines (k := [⟨c!"SUMMARY", [], c!"x"⟩]) (by simp) (.line (by decide) (by decide) .nil) (by decide)

theorem undecided_of {E : Env} {ls : List Line} (hl : ∀ l ∈ ls, LineOk l) (h : decodeDoc E (textOf ls ++ c!"?") ≠ decodeDoc E (textOf ls)) : Undecided E (textOf ls) := by
  rcases C65_settled_or_undecided E ls hl with ⟨x, h1, h2⟩ | h3
  · exact absurd ((h2 c!"?").trans h1.symm) h
  · exact h3

def seqGood : Line := ⟨c!"SEQUENCE", [], c!"1"⟩
def seqBad : Line := ⟨c!"SEQUENCE", [], c!"many"⟩

theorem lines_ok {ls : List Line} (h : (tokenise (textOf ls)).lines = ls ++ []) : ∀ l ∈ ls, LineOk l := (tokenise_front h).1

example : ∃ e, Settles sampleEnv (textOf (seqPre ++ [seqBad])) (.err e) := by
  obtain ⟨_, h, _⟩ := C71_first_wrong_line_partial sampleEnv (.comp tabEvent) seqPre seqBad seqGood
    ⟨c!"SEQUENCE", propSequence, .opt⟩ (lines_ok (by decide +kernel)) seqPre_inside (by simp [Body.fields, tabEvent]) (by decide) (by decide)
    (undecided_of (lines_ok (by decide +kernel)) (by decide +kernel))
  exact ⟨_, h _ rfl⟩

/-- In an alarm lines are looked at when it is complete: what is wrong in one is not reported if the alarm goes on with something that is not a content line. -/
theorem C71_not_in_alarms : decodeDoc sampleEnv c!"BEGIN:VCALENDAR\r\nBEGIN:VEVENT\r\nBEGIN:VALARM\r\nACTION:DISPLAY\r\nREPEAT:many\r\n?" = .err .invalidContentLine ∧
    decodeDoc sampleEnv c!"BEGIN:VCALENDAR\r\nBEGIN:VEVENT\r\nBEGIN:VALARM\r\nACTION:DISPLAY\r\nREPEAT:many\r\nEND:VALARM\r\n?" ≠ .err .invalidContentLine := by
  decide +kernel

def alarmPre : List Line := [⟨c!"BEGIN", [], c!"VCALENDAR"⟩, ⟨c!"BEGIN", [], c!"VEVENT"⟩, ⟨c!"BEGIN", [], c!"VALARM"⟩, ⟨c!"ACTION", [], c!"DISPLAY"⟩]

theorem alarmPre_inside : Inside (.alarm [⟨c!"ACTION", [], c!"DISPLAY"⟩]) alarmPre := by
  have h1 : Inside .cal [⟨c!"BEGIN", [], c!"VCALENDAR"⟩] := .cal (by decide) (by decide)
  have h2 := h1.comp (b := ⟨c!"BEGIN", [], c!"VEVENT"⟩) (x := (c!"VEVENT", tabEvent)) (by decide) (by simp [tabCalendar]) (by decide)
  have h3 := h2.alarm (b := ⟨c!"BEGIN", [], c!"VALARM"⟩) (n := c!"VALARM") (by decide) (by simp [tabEvent]) (by decide)
  exact h3.line (l := ⟨c!"ACTION", [], c!"DISPLAY"⟩) (by decide) (by decide)

/-- C71.  The claim as stated in full is false: a counterexample. -/
theorem C71_full_claim_is_false : ¬ C71_claim := by
  intro h
  have := h sampleEnv _ alarmPre ⟨c!"REPEAT", [], c!"many"⟩ ⟨c!"REPEAT", [], c!"1"⟩ ⟨c!"REPEAT", propRepeat, .opt⟩ _ (lines_ok (by decide +kernel)) alarmPre_inside
    (Or.inr ⟨_, .display, rfl, by simp [AKind.tab, tabAlarmDisplay]⟩) (by decide) (by decide) (undecided_of (lines_ok (by decide +kernel)) (by decide +kernel)) rfl
  have h2 := this.2 c!"?"
  have h3 := C71_not_in_alarms.1
  rw [show c!"BEGIN:VCALENDAR\r\nBEGIN:VEVENT\r\nBEGIN:VALARM\r\nACTION:DISPLAY\r\nREPEAT:many\r\n?" = textOf (alarmPre ++ [⟨c!"REPEAT", [], c!"many"⟩]) ++ c!"?" by decide +kernel, h2] at h3
  cases h3

/-! ## C12 Exactly the documents on which Decode panics -/

theorem daily_value : ∀ c ∈ c!"FREQ=DAILY", NoCtl c :=
  (lines_ok (ls := [⟨c!"RRULE", [], c!"FREQ=DAILY"⟩]) (by decide +kernel) ⟨c!"RRULE", [], c!"FREQ=DAILY"⟩ (by simp)).value

/-- C12.  `Decode` panics exactly on the documents that end, with a complete line or without a line end, inside an alarm, if nothing before is wrong; and on those
with a recurrence rule in which a day is a plus sign and a digit, at a place where a rule is allowed, if nothing before is wrong, neither in the rule nor in the
lines before it.  (For documents with BEGIN, END and ACTION in upper case.  The claim that it never panics is refuted.) -/
theorem C12_panics_iff_partial (E : Env) (s : Str) (hk : Keywords (tokenise s).lines) : decodeDoc E s = .panic ↔
    ((tokenise s).term = .done ∧ Undecided E (textOf (tokenise s).lines) ∧ ∃ k, Inside (.alarm k) (tokenise s).lines) ∨
    ∃ pre l r, (tokenise s).lines = pre ++ l :: r ∧ CrashLine E l ∧ (∃ B, Inside B pre ∧ B.Recurring) ∧ Undecided E (textOf (pre ++ [dailyLine l])) := by
  have hl := C11_document s
  rw [undecided_iff E hl]
  have key : ∀ pre l r, (tokenise s).lines = pre ++ l :: r → (Undecided E (textOf (pre ++ [dailyLine l])) ↔ Wants E (pre ++ [dailyLine l])) := by
    intro pre l r he
    refine undecided_iff E fun y hy => ?_
    rcases List.mem_append.1 hy with hy | hy
    · exact hl y (by rw [he]; simp [hy])
    · rw [List.mem_singleton.1 hy]
      have := hl l (by rw [he]; simp)
      exact ⟨this.name_ne, this.name, fun p h => (by cases h), fun p h => (by cases h), fun p h => (by cases h), daily_value⟩
  unfold decodeDoc
  rw [decodeStream_panic_iff hk]
  constructor
  · rintro (h | ⟨pre, l, r, he, h1, h2, h3⟩)
    · exact Or.inl h
    · exact Or.inr ⟨pre, l, r, he, h1, h2, (key pre l r he).2 h3⟩
  · rintro (h | ⟨pre, l, r, he, h1, h2, h3⟩)
    · exact Or.inl h
    · exact Or.inr ⟨pre, l, r, he, h1, h2, (key pre l r he).1 h3⟩

/-- Both cases do happen: a document that ends in an alarm, and one with a day that is a plus sign and a digit. -/
example : let s := c!"BEGIN:VCALENDAR\r\nBEGIN:VEVENT\r\nBEGIN:VALARM\r\nACTION:DISPLAY\r\n"
    (tokenise s).term = .done ∧ Undecided sampleEnv (textOf (tokenise s).lines) ∧ ∃ k, Inside (.alarm k) (tokenise s).lines := by
  intro s
  rcases (C12_panics_iff_partial sampleEnv s (by decide +kernel)).1 (by decide +kernel) with h | ⟨pre, l, r, he, ⟨h, _⟩, _⟩
  · exact h
  · exfalso
    have hm : l ∈ (tokenise s).lines := by rw [he]; simp
    have : ∀ l ∈ (tokenise s).lines, upper l.name ≠ c!"RRULE" := by decide +kernel
    exact this l hm h

example : let s := c!"BEGIN:VCALENDAR\r\nBEGIN:VEVENT\r\nRRULE:FREQ=DAILY;BYDAY=+5\r\nEND:VEVENT\r\nnonsense"
    ∃ pre l r, (tokenise s).lines = pre ++ l :: r ∧ CrashLine sampleEnv l ∧ (∃ B, Inside B pre ∧ B.Recurring) ∧ Undecided sampleEnv (textOf (pre ++ [dailyLine l])) := by
  intro s
  rcases (C12_panics_iff_partial sampleEnv s (by decide +kernel)).1 (by decide +kernel) with ⟨h, _⟩ | h
  · exact absurd h (by decide +kernel)
  · exact h

/-- The rule texts on which reading a rule panics. -/
theorem C24_panics_iff (E : Env) (p : Nat) (tz : Option Str) (s : Str) : Recur.decode E p tz s = .panic ↔ CrashRule E p tz s := Recur.decode_panic_iff

/-- A crashing rule, and one where something before the day is wrong, so that an error is reported. -/
example : CrashRule sampleEnv 0 none c!"FREQ=DAILY;BYDAY=MO,+5,XX;Y" := (C24_panics_iff _ _ _ _).1 (by decide)
example : ¬ CrashRule sampleEnv 0 none c!"FREQ=DAILY;BYDAY=XX,+5" := fun h => absurd ((C24_panics_iff _ _ _ _).2 h) (by decide)

end Ics.Props
