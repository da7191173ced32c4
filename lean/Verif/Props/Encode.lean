import Verif.Props.Sample
import Verif.Props.Values
/-!
# Theorems about Encode: C06, C28, C30, C46
-/

namespace Ics.Props

open Spec

/-! ## C06 Nothing is written when validation fails -/

/-- C06.  If `Encode` returns an error of validation, the writer has seen no call and received no octet; it returns one whenever validation
fails. -/
theorem C06_nothing_written (E : Env) (W : Sink) (cut : Str → List Str) (c : Cal) :
    (∀ o e, encode E W cut c = .done o → o.err = some (.validation e) → o.f.out = [] ∧ o.f.calls = 0 ∧ c.valid = .err e) ∧
    (∀ e, c.valid = .err e → ∃ o, encode E W cut c = .done o ∧ o.err = some (.validation e)) := by
  constructor
  · intro o e h he
    unfold encode at h
    split at h
    · next e' hv =>
      cases h
      cases he
      exact ⟨rfl, rfl, hv⟩
    · cases h
    · split at h
      · cases h
      · cases h
        simp only [Option.map_eq_some_iff] at he
        obtain ⟨a, _, h⟩ := he
        cases h
  · intro e h
    exact ⟨⟨some (.validation e), {}⟩, by unfold encode; rw [h], rfl⟩

/-- An event with a control character in the language of its summary. -/
def sampleBadCal : Cal := ⟨sampleCal.fields, [[sect tabEvent [(c!"DTSTAMP", val1 0 (.dateTime ⟨63763119600, 0, .utc⟩)),
  (c!"UID", val1 0 (.text c!"1")), (c!"SUMMARY", .fields [none, some (.str c!"\u0001")] [some (.text c!"x")])] [[]]], [], [], [], []]⟩

example : sampleBadCal.typed = true ∧ sampleBadCal.valid = .err .invalidText := by decide +kernel

/-! ## C28 Positions -/

/-- The positions in a property. -/
def positions (p : PropVal) : List (UInt64 × UInt64) := (propVals p).filterMap fun
  | .tfloat t => some t
  | _ => none

/-- The full claim: `Encode` accepts a calendar whose other properties are valid exactly if the floats of all positions are finite. -/
def C28_claim : Prop := ∀ (c : Cal), c.typed = true → NoNilAlarm c →
  (∀ x ∈ calProps c, positions x.2 = [] → x.1.spec.valid x.2 = .ok ()) →
  (c.valid = .ok () ↔ ∀ x ∈ calProps c, ∀ y ∈ positions x.2, exponent y.1.toNat ≠ 2047 ∧ exponent y.2.toNat ≠ 2047)

/-- C28.  `Encode` rejects every calendar with a position that has a finite float in it, and writes nothing. -/
theorem C28_encode_rejects_finite (E : Env) (W : Sink) (cut : Str → List Str) (c : Cal) (x : SField × PropVal) (hx : x ∈ calProps c)
    (a b : UInt64) (hm : (a, b) ∈ positions x.2) (hf : exponent a.toNat ≠ 2047 ∨ exponent b.toNat ≠ 2047)
    (ht : c.typed = true) : ∀ o, encode E W cut c = .done o → ∃ e, o.err = some (.validation e) ∧ o.f.out = [] := by
  have hn : c.valid ≠ .ok () := by
    intro hv
    have hxv := ((Cal.valid_iff c).1 hv).1 x hx
    have hxt := Cal.typed_props ht x hx
    revert hm hxv hxt
    obtain ⟨⟨key, ⟨n, sh⟩, mult⟩, p⟩ := x
    intro hm hxv hxt
    cases p with
    | enum k => simp [positions, propVals] at hm
    | fields ps vs =>
      cases sh with
      | enum names => simp [PSpec.typed] at hxt
      | fields params vals =>
        simp only [PSpec.valid, Res.bind_eq_ok] at hxv
        obtain ⟨_, _, _, h2, _⟩ := hxv
        have hm2 : some (Val.tfloat (a, b)) ∈ vs := by
          unfold positions at hm
          obtain ⟨v, hv, e⟩ := List.mem_filterMap.1 hm
          have : v = .tfloat (a, b) := by
            cases v <;> simp at e
            rw [e]
          subst this
          simpa [propVals] using hv
        have h3 := (validVals_iff vs).1 h2 _ hm2
        have h4 : TFloat.valid (a, b) = .ok () := h3
        have := (C28_validation_is_inverted a b).1 h4
        omega
  intro o ho
  unfold encode at ho
  split at ho
  · cases ho; exact ⟨_, rfl, rfl⟩
  · cases ho
  · next h => exact absurd h hn

/-- A calendar with one event at a position. -/
def geoCal (a b : UInt64) : Cal := sect tabCalendar [(c!"VERSION", val1 0 (.text c!"2.0")), (c!"PRODID", val1 0 (.text c!"-//x"))]
  [[sect tabEvent [(c!"DTSTAMP", val1 0 (.dateTime ⟨63763119600, 0, .utc⟩)), (c!"UID", val1 0 (.text c!"1")), (c!"GEO", val1 0 (.tfloat (a, b)))] [[]]],
   [], [], [], []]

/-- C28.  Paris is rejected, two infinities are accepted. -/
theorem C28_paris_rejected : (geoCal 0x40486ccccccccccd 0x4002cccccccccccd).typed = true ∧
    (geoCal 0x40486ccccccccccd 0x4002cccccccccccd).valid = .err .invalidFloat ∧
    (geoCal 0x7ff0000000000000 0x7ff0000000000000).valid = .ok () := by decide +kernel

/-- C28.  The claim as stated in full is false: a counterexample. -/
theorem C28_full_claim_is_false : ¬ C28_claim := by
  intro h
  have h0 := C28_paris_rejected
  have := (h _ h0.1 (by decide +kernel) (by decide +kernel)).2 (by decide +kernel)
  rw [h0.2.1] at this
  cases this

/-! ## C30 Termination -/

/-- The full claim: `Encode` returns for every calendar that passes validation. -/
def C30_claim : Prop := ∀ (E : Env) (W : Sink) (cut : Str → List Str) (c : Cal), c.typed = true → c.valid = .ok () →
  encode E W cut c ≠ .running

/-- C30.  Exactly which calendars `Encode` does not return for: those that pass validation and have a newline, a caret or a quote in the text
of some parameter.  For all others it returns. -/
theorem C30_termination_exact_partial (E : Env) (W : Sink) (cut : Str → List Str) (c : Cal) (ht : c.typed = true) :
    encode E W cut c = .running ↔ c.valid = .ok () ∧
      ∃ x ∈ calProps c, ∃ y ∈ propParams x.1.spec x.2, ∃ s ∈ paramTexts y.2, '\n' ∈ s ∨ '^' ∈ s ∨ '"' ∈ s := by
  have h1 : encode E W cut c = .running ↔ c.valid = .ok () ∧ encodeDoc E c = none := by
    unfold encode
    cases c.valid with
    | err e => simp
    | panic => simp
    | ok u => cases encodeDoc E c <;> simp
  rw [h1, encodeDoc_none]
  have h2 : ∀ x ∈ calProps c, (x.1.spec.encode E x.2 = none ↔
      ∃ y ∈ propParams x.1.spec x.2, ∃ s ∈ paramTexts y.2, '\n' ∈ s ∨ '^' ∈ s ∨ '"' ∈ s) := by
    intro x hx
    rw [PSpec.encode_none]
    have h3 : ∀ y ∈ propParams x.1.spec x.2, (y.1.kind.encode E y.1.name y.2 = none ↔
        ∃ s ∈ paramTexts y.2, '\n' ∈ s ∨ '^' ∈ s ∨ '"' ∈ s) := by
      intro y hy
      rw [PKind.encode_none E y.1.name y.1.kind y.2 (PSpec.typed_params (Cal.typed_props ht x hx) y hy)]
      constructor
      · rintro ⟨s, hs, c, hc, rfl | rfl | rfl⟩
        · exact ⟨s, hs, Or.inl hc⟩
        · exact ⟨s, hs, Or.inr (Or.inl hc)⟩
        · exact ⟨s, hs, Or.inr (Or.inr hc)⟩
      · rintro ⟨s, hs, h | h | h⟩
        · exact ⟨s, hs, _, h, Or.inl rfl⟩
        · exact ⟨s, hs, _, h, Or.inr (Or.inl rfl)⟩
        · exact ⟨s, hs, _, h, Or.inr (Or.inr rfl)⟩
    constructor
    · rintro ⟨y, hy, h⟩; exact ⟨y, hy, (h3 y hy).1 h⟩
    · rintro ⟨y, hy, h⟩; exact ⟨y, hy, (h3 y hy).2 h⟩
  constructor
  · rintro ⟨hv, x, hx, h⟩; exact ⟨hv, x, hx, (h2 x hx).1 h⟩
  · rintro ⟨hv, x, hx, h⟩; exact ⟨hv, x, hx, (h2 x hx).2 h⟩

/-- An event whose summary has a language with a caret in it. -/
def caretCal : Cal := sect tabCalendar [(c!"VERSION", val1 0 (.text c!"2.0")), (c!"PRODID", val1 0 (.text c!"-//x"))]
  [[sect tabEvent [(c!"DTSTAMP", val1 0 (.dateTime ⟨63763119600, 0, .utc⟩)), (c!"UID", val1 0 (.text c!"1")),
    (c!"SUMMARY", .fields [none, some (.str c!"en^US")] [some (.text c!"Lunch")])] [[]]], [], [], [], []]

theorem caretCal_typed : caretCal.typed = true ∧ caretCal.valid = .ok () := by decide +kernel

/-- C30.  `Encode` does not return for it. -/
theorem C30_caret_diverges (E : Env) (W : Sink) (cut : Str → List Str) : encode E W cut caretCal = .running := by
  rw [C30_termination_exact_partial E W cut caretCal caretCal_typed.1]
  refine ⟨caretCal_typed.2, ?_⟩
  decide +kernel

/-- C30.  The claim as stated in full is false: a counterexample. -/
theorem C30_full_claim_is_false : ¬ C30_claim := fun h =>
  h sampleEnv okSink (fun s => [s]) caretCal caretCal_typed.1 caretCal_typed.2 (C30_caret_diverges _ _ _)

/-- The sample is not one of them. -/
example : encode sampleEnv okSink (fun s => [s]) sampleCal ≠ .running := by
  rw [Ne, C30_termination_exact_partial _ _ _ _ sampleCal_typed]
  decide +kernel

/-! ## C46 No content injection -/

/-- The full claim: the text of every calendar that passes validation is read as exactly the lines of its outline. -/
def C46_claim : Prop := ∀ (E : Env) (c : Cal) (s : Str), c.typed = true → c.valid = .ok () → encodeDoc E c = some s →
  ∃ ls, tokenise s = ⟨ls, .done⟩ ∧ ls.map outlineOf = calOutline E c

/-- C46.  The claim for calendars whose parameters have no control characters, quotes or carets in their texts and no characters that need
quotes in their URIs, and whose time zone names have no characters that need quotes.  Texts, comments, summaries, rules, dates and
all other values are not restricted. -/
theorem C46_exact_lines_partial (E : Env) (c : Cal) (ht : c.typed = true) (hv : c.valid = .ok ())
    (hp : ∀ x ∈ calProps c, ∀ y ∈ propParams x.1.spec x.2, CleanParam E y.2)
    (hl : ∀ x ∈ calProps c, ∀ v ∈ propVals x.2, CleanVal E v) :
    ∃ s ls, encodeDoc E c = some s ∧ tokenise s = ⟨ls, .done⟩ ∧ ls.map outlineOf = calOutline E c ∧
      crlfClean s = true ∧ ¬ ['\r', '\n', ' '] <:+: s := by
  have hb := GoodCal.build
    (fun f p => (∀ y ∈ propParams f.spec p, CleanParam E y.2) ∧ (∀ v ∈ propVals p, CleanVal E v))
    (fun f p => PropSafe E f.spec p ∧ OutOk E f p) (by
      intro f p hw ht ⟨h1, h2⟩ hv
      have hs := propSafe_of (E := E) ht hv (fun x hx => cleanParam_safe (PSpec.typed_params ht x hx) (h1 x hx)) (fun v hv => cleanVal_safe (h2 v hv))
      exact ⟨hs, toLine_outline E f p hw ht hv hs⟩) c ht hv (fun x hx => ⟨hp x hx, hl x hx⟩)
  obtain ⟨e1, e2⟩ := encodeDoc_lines E c (GoodCal.safe (hb.imp fun _ _ h => h.1))
  refine ⟨_, calLines E c, e1, ?_, (hb.imp fun _ _ h => h.2).outline, crlfClean_lines _ e2, noFold_lines _ e2⟩
  have := tokenise_prints (calLines E c) e2 []
  rw [List.append_nil, tokenise_nil] at this
  simpa using this

/-- The sample meets the hypotheses. -/
example : (∀ x ∈ calProps sampleCal, ∀ y ∈ propParams x.1.spec x.2, CleanParam sampleEnv y.2) ∧
    (∀ x ∈ calProps sampleCal, ∀ v ∈ propVals x.2, CleanVal sampleEnv v) := by
  constructor
  · intro x hx y hy
    have h := sampleCal_params x hx y hy
    generalize y.2 = w at h ⊢
    generalize y.1.kind = k at h
    cases h <;> first | trivial | assumption
  · intro x hx v hv
    obtain ⟨h1, h2⟩ := sampleCal_values x hx v hv
    refine ⟨?_, ?_⟩
    · intro n p r h
      exact h2 n (by rw [valLoc_tzid, h]; rfl)
    · have := h1.libOk
      cases v <;> exact this

/-- The outline of the sample. -/
example : calOutline sampleEnv sampleCal = [.ctl c!"BEGIN" c!"VCALENDAR", .prop c!"VERSION" [], .prop c!"PRODID" [],
    .ctl c!"BEGIN" c!"VEVENT", .prop c!"DTSTAMP" [], .prop c!"UID" [], .prop c!"DTSTART" [c!"TZID"], .prop c!"CLASS" [],
    .prop c!"SUMMARY" [c!"LANGUAGE"], .prop c!"RRULE" [], .prop c!"DTEND" [c!"VALUE"],
    .prop c!"ATTENDEE" [c!"CUTYPE", c!"ROLE", c!"RSVP", c!"CN"], .prop c!"ATTENDEE" [c!"CN"],
    .ctl c!"BEGIN" c!"VALARM", .ctl c!"ACTION" c!"DISPLAY", .prop c!"DESCRIPTION" [], .prop c!"TRIGGER" [], .ctl c!"END" c!"VALARM",
    .ctl c!"END" c!"VEVENT", .ctl c!"BEGIN" c!"VTIMEZONE", .prop c!"TZID" [], .ctl c!"BEGIN" c!"STANDARD", .prop c!"DTSTART" [],
    .prop c!"TZOFFSETTO" [], .prop c!"TZOFFSETFROM" [], .ctl c!"END" c!"STANDARD", .ctl c!"END" c!"VTIMEZONE",
    .ctl c!"END" c!"VCALENDAR"] := by decide +kernel

/-- An event that starts in a zone made by `time.FixedZone` with this name. -/
def evilZone : Str := c!"Z:20200101T000000\r\nSUMMARY:evil\r\nX-A"

def evilZoneCal : Cal := sect tabCalendar [(c!"VERSION", val1 0 (.text c!"2.0")), (c!"PRODID", val1 0 (.text c!"-//x"))]
  [[sect tabEvent [(c!"DTSTAMP", val1 0 (.dateTime ⟨63763119600, 0, .zone evilZone 0 0⟩)), (c!"UID", val1 0 (.text c!"1"))] [[]]], [], [], [], []]

/-- C46.  Validation accepts it, and what is written is read as an event with a summary. -/
theorem C46_zone_name_injects : evilZoneCal.typed = true ∧ evilZoneCal.valid = .ok () ∧
    ∃ s, encodeDoc sampleEnv evilZoneCal = some s ∧ ⟨c!"SUMMARY", [], c!"evil"⟩ ∈ (tokenise s).lines :=
  ⟨by decide +kernel, by decide +kernel, _, rfl, by decide +kernel⟩

/-- An attachment with a format type that contains line ends. -/
def evilTypeCal : Cal := sect tabCalendar [(c!"VERSION", val1 0 (.text c!"2.0")), (c!"PRODID", val1 0 (.text c!"-//x"))]
  [[sect tabEvent [(c!"DTSTAMP", val1 0 (.dateTime ⟨63763119600, 0, .utc⟩)), (c!"UID", val1 0 (.text c!"1")),
    (c!"ATTACH", .fields [some (.str c!"a/b\rX")] [some (.uri ⟨c!"x"⟩), none])] [[]]], [], [], [], []]

/-- C46.  Validation accepts a format type with a carriage return, and what is written cannot be read. -/
theorem C46_format_type_breaks_line : evilTypeCal.typed = true ∧ evilTypeCal.valid = .ok () ∧
    ∃ s, encodeDoc sampleEnv evilTypeCal = some s ∧ (tokenise s).term ≠ .done :=
  ⟨by decide +kernel, by decide +kernel, _, rfl, by decide +kernel⟩

/-- C46.  The claim as stated in full is false: a counterexample. -/
theorem C46_full_claim_is_false : ¬ C46_claim := by
  intro h
  obtain ⟨h1, h2, s, h3, h4⟩ := C46_format_type_breaks_line
  obtain ⟨ls, h5, _⟩ := h sampleEnv _ s h1 h2 h3
  exact h4 (by rw [h5])

/-! ## C01 and C03 for whole calendars -/

/-- C01 and C03 for `Encode`: for the calendars of C46, every line that reaches the writer has at most 75 octets, and removing the folds gives
the text. -/
theorem C01_encode_lines_partial (E : Env) (c : Cal) (ht : c.typed = true) (hv : c.valid = .ok ())
    (hp : ∀ x ∈ calProps c, ∀ y ∈ propParams x.1.spec x.2, CleanParam E y.2)
    (hl : ∀ x ∈ calProps c, ∀ v ∈ propVals x.2, CleanVal E v) (cut : Str → List Str) (hcut : ∀ s, (cut s).flatten = s) :
    ∃ o s, encode E okSink cut c = .done o ∧ o.err = none ∧ encodeDoc E c = some s ∧
      (∀ l ∈ physLines o.f.out, l.length ≤ 75) ∧ removeFolds o.f.out = utf8 s := by
  obtain ⟨s, ls, e1, _, _, e4, e5⟩ := C46_exact_lines_partial E c ht hv hp hl
  obtain ⟨k, hk⟩ := writes_ok (cut s) {} rfl
  refine ⟨⟨none, ({} : Folder).writes okSink ((cut s).map utf8)⟩, s, ?_, rfl, e1, ?_, ?_⟩
  · unfold encode
    rw [hv, e1]
    simp [hk]
  · exact C01_lines_at_most_75_octets (cut s) (by rw [hcut]; exact e4)
  · obtain ⟨t, h1, h2⟩ := C02_fold_never_splits_characters (cut s)
    rw [h1, removeFolds_utf8 _ _ (Nat.le_refl _), removeFoldsC_FoldOf h2 (by rw [hcut]; exact e5), hcut]

end Ics.Props
