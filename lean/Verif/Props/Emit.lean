import Verif.StuckLemmas
import Verif.CallSizeLemmas
import Verif.Props.Writer
import Verif.Props.Unbroken
import Verif.Props.Exactly
import Verif.Props.Cases
/-!
# Properties C103 and C104: how far Encode comes, and how much each call of the caller's writer is given

`encodeCalls E w c` is `Encode` with the calls of the folder as the `encode` methods make them, one by one.  It may never return (C30); then `.never f` has in `f` all that ever
reaches the caller's writer.
-/

namespace Ics.Props

open Ics Spec

/-! ## C103 -/

/-- C103.  The `Encode` of the other properties, where the way the document is cut into calls was left open, is this one. -/
theorem C103_same (E : Env) (c : Cal) : ∃ cut : Str → List Str, (∀ s, (cut s).flatten = s) ∧ ∀ w, encodeTo E w cut c =
    match encodeCalls E w c with
    | .panic => .panic
    | .returned e f => .done (e, f)
    | .never _ => .running := by
  have h := Cal.said_text E c
  unfold Said.text at h
  by_cases he : (c.said E).ends = true
  · rw [if_pos he] at h
    refine ⟨fun s => if s = (c.said E).calls.flatten then (c.said E).calls else [s], fun s => ?_, fun w => ?_⟩
    · dsimp only
      split
      · rename_i h; exact h.symm
      · simp
    · unfold encodeTo encodeCalls
      cases c.valid with
      | err e => rfl
      | panic => rfl
      | ok u => simp only [← h, if_pos, he]
  · rw [if_neg he] at h
    refine ⟨fun s => [s], fun s => by simp, fun w => ?_⟩
    unfold encodeTo encodeCalls
    cases c.valid with
    | err e => rfl
    | panic => rfl
    | ok u => simp only [← h, if_neg he]

/-- The text with `;` for quotes and `x` for line feeds and carets. -/
def soften (s : Str) : Str := if Marked s = true then s.map fun c => if c = '"' then ';' else if c = '\n' ∨ c = '^' then 'x' else c else s

/-- It may stand in. -/
theorem soften_standIn : StandIn soften where
  same s h := by simp [soften, h]
  plain s h := by
    unfold soften
    rw [if_pos h, Marked, List.any_eq_false]
    intro c hc
    obtain ⟨d, _, rfl⟩ := List.mem_map.1 hc
    split
    · decide
    · split
      · decide
      · rename_i h1 h2
        simp only [not_or] at h2
        simp [h1, h2.1, h2.2]
  some s h := by
    unfold soften
    rw [if_pos h]
    rintro h'
    rw [List.map_eq_nil_iff.1 h'] at h
    cases h
  quotes s h := by
    unfold soften
    rw [if_pos h]
    constructor
    · rintro ⟨c, hc, hq⟩
      obtain ⟨d, hd, rfl⟩ := List.mem_map.1 hc
      split at hq
      · rename_i e; exact ⟨d, hd, .inl e⟩
      · split at hq
        · exact absurd hq (by decide)
        · exact ⟨d, hd, hq⟩
    · rintro ⟨c, hc, hq⟩
      refine ⟨_, List.mem_map.2 ⟨c, hc, rfl⟩, ?_⟩
      rcases hq with rfl | rfl | rfl | rfl <;> decide

/-- C103.  `Encode` never returns if and only if the calendar is accepted and a text in a parameter has a line feed, a caret or a quote in it: whatever the caller's writer does. -/
theorem C103_never_iff (E : Env) (w : Writer) (c : Cal) (ht : c.typed = true) :
    (∃ f, encodeCalls E w c = .never f) ↔ c.valid = .ok () ∧ ∃ s ∈ textsInOrder c, ∃ ch ∈ s, ch = '\n' ∨ ch = '^' ∨ ch = '"' := by
  have hm : ∀ s : Str, Marked s = true ↔ ∃ ch ∈ s, ch = '\n' ∨ ch = '^' ∨ ch = '"' := by
    intro s
    simp [Marked, List.any_eq_true, or_assoc]
  have hs := Cal.stuck (E := E) soften_standIn c ht
  unfold StuckAt at hs
  unfold encodeCalls
  cases hv : c.valid with
  | err e => simp
  | panic => simp
  | ok u =>
    dsimp only
    split at hs
    · rename_i hn
      rw [if_pos hs.1]
      refine ⟨fun ⟨f, h⟩ => (by cases h), ?_⟩
      rintro ⟨_, s, h1, h2⟩
      exact absurd ((hm s).2 h2) (List.find?_eq_none.1 hn s h1)
    · rename_i s hf
      rw [if_neg (by simp [hs.1])]
      exact ⟨fun _ => ⟨rfl, s, List.mem_of_find?_eq_some hf, (hm s).1 (List.find?_some hf)⟩, fun _ => ⟨_, rfl⟩⟩

/-- C103.  How far it comes: to the first such text.  Written is all that stands in front of that text in the document of the calendar with other texts in the place of such texts, folded;
a writer that never returns an error is given all of it, one that does a first part. -/
theorem C103_how_far (E : Env) (c : Cal) (ht : c.typed = true) (hv : c.valid = .ok ()) (s : Str) (hs : (textsInOrder c).find? Marked = some s) :
    ∃ t, (∀ f, StandIn f → ∃ r, encodeDoc E (mendCal f c) = some (t ++ f s ++ r)) ∧ ∀ w, ∃ g, encodeCalls E w c = .never g ∧
      g.log.flatten <+: (({} : Folder).writes okSink [utf8 t]).out ∧ (g.err = none → g.log.flatten = (({} : Folder).writes okSink [utf8 t]).out) := by
  have key : ∀ f, StandIn f → (c.said E).ends = false ∧ ∃ r, encodeDoc E (mendCal f c) = some ((c.said E).calls.flatten ++ f s ++ r) := by
    intro f hf
    have h := Cal.stuck (E := E) hf c ht
    unfold StuckAt at h
    rw [hs] at h
    exact h
  refine ⟨(c.said E).calls.flatten, fun f hf => (key f hf).2, fun w => ⟨({} : WFolder).writes w ((c.said E).calls.map utf8), ?_, ?_⟩⟩
  · unfold encodeCalls
    rw [hv]
    simp only [(key _ soften_standIn).1]
    rfl
  · have h := C101_together w ((c.said E).calls.map utf8)
    have e := C04_write_granularity_irrelevant (c.said E).calls [(c.said E).calls.flatten] (by simp)
    rw [e] at h
    exact h

/-- With a character in front of it it still may. -/
theorem soften_behind {x : Char} (h1 : x ≠ '\n' ∧ x ≠ '^') (h2 : x ≠ '"' ∧ x ≠ ';' ∧ x ≠ ':' ∧ x ≠ ',') : StandIn fun s => if Marked s = true then x :: soften s else s where
  same s h := by simp [h]
  plain s h := by
    have := soften_standIn.plain s h
    rw [if_pos h]
    unfold Marked at this ⊢
    rw [List.any_cons, this]
    simp [h1.1, h1.2, h2.1]
  some s h := by simp [h]
  quotes s h := by
    rw [if_pos h, ← soften_standIn.quotes s h]
    constructor
    · rintro ⟨c, hc, hq⟩
      rcases List.mem_cons.1 hc with rfl | hc
      · rcases hq with h | h | h | h
        · exact absurd h h2.1
        · exact absurd h h2.2.1
        · exact absurd h h2.2.2.1
        · exact absurd h h2.2.2.2
      · exact ⟨c, hc, hq⟩
    · rintro ⟨c, hc, hq⟩
      exact ⟨c, .tail _ hc, hq⟩

/-- C103.  There is one such text, so that this says exactly how far it comes. -/
theorem C103_one_text (E : Env) (c : Cal) (s : Str) (hs : Marked s = true) (t u : Str) (h : ∀ f, StandIn f → ∃ r, encodeDoc E (mendCal f c) = some (t ++ f s ++ r))
    (h' : ∀ f, StandIn f → ∃ r, encodeDoc E (mendCal f c) = some (u ++ f s ++ r)) : t = u := by
  have key : ∀ {t u : Str}, (∀ f, StandIn f → ∃ r, encodeDoc E (mendCal f c) = some (t ++ f s ++ r)) →
      (∀ f, StandIn f → ∃ r, encodeDoc E (mendCal f c) = some (u ++ f s ++ r)) → ¬ t.length < u.length := by
    intro t u h h' hlt
    have at_ : ∀ x : Char, (x ≠ '\n' ∧ x ≠ '^') → (x ≠ '"' ∧ x ≠ ';' ∧ x ≠ ':' ∧ x ≠ ',') → u[t.length]? = some x := by
      intro x h1 h2
      obtain ⟨r, hr⟩ := h _ (soften_behind h1 h2)
      obtain ⟨q, hq⟩ := h' _ (soften_behind h1 h2)
      rw [hr] at hq
      have e := congrArg (fun l : List Char => l[t.length]?) (Option.some.inj hq)
      rw [if_pos hs, List.append_assoc, List.append_assoc, List.getElem?_append_right (Nat.le_refl _), List.getElem?_append_left hlt] at e
      rw [← e]
      simp
    have a := at_ '0' (by decide) (by decide)
    have b := at_ '1' (by decide) (by decide)
    rw [a] at b
    cases b
  have hl : t.length = u.length := Nat.le_antisymm (Nat.le_of_not_lt (key h' h)) (Nat.le_of_not_lt (key h h'))
  obtain ⟨r, hr⟩ := h _ soften_standIn
  obtain ⟨q, hq⟩ := h' _ soften_standIn
  rw [hr] at hq
  have e := Option.some.inj hq
  rw [List.append_assoc, List.append_assoc] at e
  exact (List.append_inj e hl).1

/-! ## C104 -/

/-- What the calls of the folder are given has a line end at its end or nowhere. -/
theorem said_shaped {E : Env} {c : Cal} (ht : c.typed = true) (hv : c.valid = .ok ()) (hu : Unbroken E c) (he : (c.said E).ends = true) : ∀ p ∈ (c.said E).calls, Shaped p := by
  have htx := Cal.said_text E c
  unfold Said.text at htx
  rw [if_pos he] at htx
  have hg := GoodCal.build (fun f p => f.spec.encode E p ≠ none ∧ (∀ y ∈ propParams f.spec p, UnbrokenParam E y.1.kind y.2) ∧ ∀ v ∈ propVals p, UnbrokenVal E v)
    (fun f p => FieldWf f ∧ f.spec.typed p = true ∧ f.spec.valid p = .ok () ∧ f.spec.encode E p ≠ none ∧
      (∀ y ∈ propParams f.spec p, UnbrokenParam E y.1.kind y.2) ∧ ∀ v ∈ propVals p, UnbrokenVal E v) (by
      intro f p hw ht he hv
      exact ⟨hw, ht, hv, he⟩) c ht hv (fun x hx => ⟨written_each htx.symm x hx, hu x hx⟩)
  refine cal_shaped (P := fun y => ∃ b, y.1.spec.typed y.2 = true ∧ y.1.spec.encode E y.2 = some (b ++ crlf) ∧ ∀ c ∈ b, NoCtl c) ?_ ?_
  · rintro y ⟨b, h1, h2, h3⟩
    exact prop_shaped h1 h2 h3
  · intro y hy
    obtain ⟨hw, h1, h2, h3, h4⟩ := (hg.each y hy).1
    obtain ⟨a, b, k⟩ := PSpec.encode_any E y.1.spec y.2 hw.spec h1 h2 h3
    exact ⟨printBare (toLine E y.1.spec y.2), h1, a, (lineClear_iff b).1 (k.1 h4)⟩

/-- C104.  When `Encode` returns for a calendar that breaks no line, no call of the caller's writer was given octets of two lines: each was given a fold, or a part of a line of at most
75 octets, with its end or without. -/
theorem C104_one_line_partial (E : Env) (w : Writer) (c : Cal) (ht : c.typed = true) (hu : Unbroken E c) (e : Option EncErr) (f : WFolder)
    (h : encodeCalls E w c = .returned e f) : ∀ p ∈ f.log, OfOneLine p := by
  unfold encodeCalls at h
  split at h
  · cases h; nofun
  · cases h
  rename_i hv
  dsimp only at h
  by_cases he : (c.said E).ends = true
  case neg => rw [if_neg he] at h; cases h
  rw [if_pos he] at h
  cases h
  have hsh := said_shaped ht hv hu he
  have hb : Brief (({} : WFolder).writes taker ((c.said E).calls.map utf8)) := brief_writes _ hsh {} ⟨rfl, Nat.zero_le _, by nofun⟩
  intro p hp
  refine hb.2.2 p ?_
  rcases SameCalls.writes (w := w) ((c.said E).calls.map utf8) {} {} rfl rfl rfl rfl with ⟨_, _, h⟩ | ⟨_, h⟩
  · exact h ▸ hp
  · exact h.subset hp

/-- What happened at the writer. -/
theorem encodeCalls_handed {E : Env} {w : Writer} {c : Cal} {e : Option EncErr} {f : WFolder} (h : encodeCalls E w c = .returned e f) : Handed w f.log f.out f.err := by
  unfold encodeCalls at h
  split at h
  · cases h; exact .none
  · cases h
  · dsimp only at h
    split at h
    · cases h; exact C101_calls w _
    · cases h

theorem handed_some {w : Writer} {log out e} (h : Handed w log out e) : ∀ p ∈ log, 1 ≤ p.length := by
  induction h with
  | none => nofun
  | call p _ hp ih =>
    intro q hm
    rcases List.mem_append.1 hm with hm | hm
    · exact ih q hm
    · rw [List.mem_singleton.1 hm]
      exact List.length_pos_iff.2 hp

/-- C104.  So no call is given more than 77 octets: a line of 75 and its end. -/
theorem C104_call_size_partial (E : Env) (w : Writer) (c : Cal) (ht : c.typed = true) (hu : Unbroken E c) (e : Option EncErr) (f : WFolder)
    (h : encodeCalls E w c = .returned e f) : ∀ p ∈ f.log, 1 ≤ p.length ∧ p.length ≤ 77 := fun p hp =>
  ⟨handed_some (encodeCalls_handed h) p hp, OfOneLine.length (C104_one_line_partial E w c ht hu e f h p hp)⟩

/-- C104.  So there is a call for every 77 octets accepted, at the least. -/
theorem C104_number_of_calls_partial (E : Env) (w : Writer) (c : Cal) (ht : c.typed = true) (hu : Unbroken E c) (e : Option EncErr) (f : WFolder)
    (h : encodeCalls E w c = .returned e f) : f.out.length ≤ 77 * f.log.length := by
  have h1 := C104_call_size_partial E w c ht hu e f h
  have h2 := encodeCalls_handed h
  revert h1 h2
  generalize f.log = log, f.out = out, f.err = err
  intro h1 h2
  induction h2 with
  | none => simp
  | @call log out p _ hp ih =>
    have := ih fun q hq => h1 q (List.mem_append_left _ hq)
    have := (h1 p (by simp)).2
    simp only [List.length_append, List.length_take, List.length_cons, List.length_nil]
    omega

/-- C104.  In particular for calendars that were read, as far as the library writes URIs and floats without control characters. -/
theorem C104_decoded_partial (E : Env) (hE : SaneEnv E) (hP : PlainEnv E) (doc : Str) (c : Cal) (hd : decodeDoc E doc = .ok c) (w : Writer) (e : Option EncErr) (f : WFolder)
    (h : encodeCalls E w c = .returned e f) : ∀ p ∈ f.log, 1 ≤ p.length ∧ p.length ≤ 77 :=
  C104_call_size_partial E w c (C45_typed E doc c hd) (C46_decoded_partial E hE hP doc c hd) e f h

/-- C104.  The same of what the calls were given. -/
theorem C104_decoded_one_line_partial (E : Env) (hE : SaneEnv E) (hP : PlainEnv E) (doc : Str) (c : Cal) (hd : decodeDoc E doc = .ok c) (w : Writer) (e : Option EncErr) (f : WFolder)
    (h : encodeCalls E w c = .returned e f) : ∀ p ∈ f.log, OfOneLine p :=
  C104_one_line_partial E w c (C45_typed E doc c hd) (C46_decoded_partial E hE hP doc c hd) e f h

/-! ## Concrete cases -/

/-- The first calls of the folder for the sample, and those for the property with a parameter that is written in quotes. -/
example : (sampleCal.said sampleEnv).calls.take 10 = [c!"BEGIN:VCALENDAR\r\n", c!"VERSION", c!":", c!"2.0", c!"\r\n", c!"PRODID", c!":", c!"-//x", c!"\r\n", c!"BEGIN:VEVENT\r\n"] ∧
    ((sampleCal.said sampleEnv).calls.dropWhile (· ≠ c!"ATTENDEE")).take 14 = [c!"ATTENDEE", c!";CUTYPE=", c!"INDIVIDUAL", c!";ROLE=", c!"CHAIR", c!";RSVP=", c!"TRUE", c!";CN=", c!"\"", c!"Ann: B", c!"\"", c!":",
      c!"mailto:ann@example.com", c!"\r\n"] := by decide +kernel

theorem sampleCal_returned (w : Writer) : ∃ e f, encodeCalls sampleEnv w sampleCal = .returned e f := by
  unfold encodeCalls
  rw [sampleCal_valid]
  dsimp only
  rw [if_pos (by decide +kernel)]
  exact ⟨_, _, rfl⟩

example : ∃ e f, encodeCalls sampleEnv noFolds sampleCal = .returned e f ∧ (∀ p ∈ f.log, OfOneLine p) ∧ (∀ p ∈ f.log, 1 ≤ p.length ∧ p.length ≤ 77) ∧
    f.out.length ≤ 77 * f.log.length := by
  obtain ⟨e, f, h⟩ := sampleCal_returned noFolds
  exact ⟨e, f, h, C104_one_line_partial _ _ _ sampleCal_typed sampleCal_unbroken _ _ h, C104_call_size_partial _ _ _ sampleCal_typed sampleCal_unbroken _ _ h, C104_number_of_calls_partial _ _ _ sampleCal_typed sampleCal_unbroken _ _ h⟩

example : ∃ c, decodeDoc strictEnv (oneMoreDoc c!"SUMMARY;LANGUAGE=en:x") = .ok c ∧ ∀ e f, encodeCalls strictEnv taker c = .returned e f → ∀ p ∈ f.log, 1 ≤ p.length ∧ p.length ≤ 77 :=
  ⟨oneMore c!"SUMMARY" (.fields [none, some (.str c!"en")] [some (.text c!"x")]), by decide +kernel, fun _ _ h =>
    C104_decoded_partial strictEnv strictEnv_sane strictEnv_plain (oneMoreDoc c!"SUMMARY;LANGUAGE=en:x") _ (by decide +kernel) _ _ _ h⟩

/-- The calendar for which `Encode` does not return has one such text. -/
theorem caretCal_texts : (textsInOrder caretCal).find? Marked = some c!"en^US" := by decide +kernel

example (w : Writer) : ∃ f, encodeCalls sampleEnv w caretCal = .never f :=
  (C103_never_iff sampleEnv w caretCal caretCal_typed.1).2 ⟨caretCal_typed.2, by decide +kernel⟩

example := C103_how_far sampleEnv caretCal caretCal_typed.1 caretCal_typed.2 _ caretCal_texts

/-- C103.  What a writer that takes everything has been given, and is given nothing behind it for ever. -/
theorem C103_caret : ∃ g, encodeCalls sampleEnv taker caretCal = .never g ∧
    g.out = utf8 c!"BEGIN:VCALENDAR\r\nVERSION:2.0\r\nPRODID:-//x\r\nBEGIN:VEVENT\r\nDTSTAMP:20210729T014000Z\r\nUID:1\r\nSUMMARY;LANGUAGE=" ∧
    encodeDoc sampleEnv (mendCal soften caretCal) =
      some c!"BEGIN:VCALENDAR\r\nVERSION:2.0\r\nPRODID:-//x\r\nBEGIN:VEVENT\r\nDTSTAMP:20210729T014000Z\r\nUID:1\r\nSUMMARY;LANGUAGE=enxUS:Lunch\r\nEND:VEVENT\r\nEND:VCALENDAR\r\n" := by
  refine ⟨({} : WFolder).writes taker ((caretCal.said sampleEnv).calls.map utf8), ?_, by decide +kernel, by decide +kernel⟩
  unfold encodeCalls
  rw [caretCal_typed.2]
  dsimp only
  rw [if_neg (by decide +kernel)]

/-- C103.  A writer that fails at once does not stop it either: it is called once, and `Encode` does not return. -/
theorem C103_failing_writer_does_not_stop_it : ∃ g, encodeCalls sampleEnv (fun _ _ => (0, some 5)) caretCal = .never g ∧ g.log.length = 1 ∧ g.err = some 5 := by
  refine ⟨({} : WFolder).writes (fun _ _ => (0, some 5)) ((caretCal.said sampleEnv).calls.map utf8), ?_, by decide +kernel, by decide +kernel⟩
  unfold encodeCalls
  rw [caretCal_typed.2]
  dsimp only
  rw [if_neg (by decide +kernel)]

/-- C103.  The claim that the calendars for which `Encode` does not return leave nothing behind is false. -/
theorem C103_nothing_written_is_false : ¬ ∀ (E : Env) (w : Writer) (c : Cal) (g : WFolder), c.typed = true → encodeCalls E w c = .never g → g.out = [] := by
  intro h
  obtain ⟨g, h1, h2, _⟩ := C103_caret
  have := h _ _ _ _ caretCal_typed.1 h1
  rw [h2] at this
  revert this
  decide +kernel

/-- A calendar with a time zone whose name is line feeds. -/
def feedsCal : Cal := sect tabCalendar [(c!"VERSION", val1 0 (.text c!"2.0")), (c!"PRODID", val1 0 (.text c!"-//x"))]
  [[sect tabEvent [(c!"DTSTAMP", val1 0 (.dateTime ⟨63763119600, 0, .zone (List.replicate 500 '\n') 0 0⟩)), (c!"UID", val1 0 (.text c!"1"))] [[]]], [], [], [], []]

/-- C104.  Without the condition it is false: the name is handed over in one call. -/
theorem C104_full_claim_is_false : ¬ ∀ (E : Env) (w : Writer) (c : Cal) (e : Option EncErr) (f : WFolder), c.typed = true → encodeCalls E w c = .returned e f →
    ∀ p ∈ f.log, p.length ≤ 77 := by
  intro h
  have hv : feedsCal.typed = true ∧ feedsCal.valid = .ok () ∧ (feedsCal.said sampleEnv).ends = true := by decide +kernel
  have h1 : encodeCalls sampleEnv taker feedsCal =
      .returned ((({} : WFolder).writes taker ((feedsCal.said sampleEnv).calls.map utf8)).err.map .write) (({} : WFolder).writes taker ((feedsCal.said sampleEnv).calls.map utf8)) := by
    unfold encodeCalls
    rw [hv.2.1]
    dsimp only
    rw [if_pos hv.2.2]
  have := h _ _ _ _ _ hv.1 h1
  revert this
  decide +kernel

end Ics.Props
