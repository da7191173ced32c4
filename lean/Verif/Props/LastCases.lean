import Verif.Props.MoreCases
import Verif.Props.Readers
import Verif.Props.Emit
import Verif.Props.Edits
import Verif.Props.Everywhere
import Verif.Props.Exchange
import Verif.Props.Early
import Verif.Props.Rfc
import Verif.Props.RfcValues
import Verif.Props.Property
import Verif.Props.Recur
import Verif.Props.Values
import Verif.Props.Waiting
import Verif.Props.GoTypes
import Verif.Props.Meaning
/-!
# Concrete cases of theorems that have none beside them in their own file
-/

namespace Ics.Props

open Ics Spec

/-! ## Documents -/

example := C13_begin_and_end sampleEnv sampleDoc _ sampleRead_ok
example := C36_rules sampleEnv sampleDoc _ sampleRead_ok
example := C36_every_document sampleEnv sampleDoc _ sampleRead_ok
example := C11_accepted_document_is_its_lines sampleDoc (by decide +kernel)
example := C74_rfc sampleEnv (tokenise sampleDoc).lines sampleRead (by decide +kernel)

theorem sampleLines_ok : (∀ l ∈ (tokenise sampleDoc).lines, LineOk l) ∧ (tokenise sampleDoc).lines.flatMap printLine = sampleDoc := by
  refine ⟨?_, by decide +kernel⟩
  intro l hl
  exact C11_document sampleDoc l hl

/-- The sample document with anything behind it. -/
example (q : Str) : decodeDoc sampleEnv (sampleDoc ++ q) = .ok sampleRead := by
  have h := C14_append sampleEnv (tokenise sampleDoc).lines sampleLines_ok.1 sampleRead (by rw [sampleLines_ok.2]; exact sampleRead_ok) q
  rw [sampleLines_ok.2] at h
  exact h

example (q : Str) : decodeDoc sampleEnv (sampleDoc ++ q) = decodeDoc sampleEnv sampleDoc := by
  have h := C65_answer_stands sampleEnv (tokenise sampleDoc).lines sampleLines_ok.1 (by rw [sampleLines_ok.2, sampleRead_ok]; nofun) (by rw [sampleLines_ok.2, sampleRead_ok]; nofun) q
  rw [sampleLines_ok.2] at h
  exact h

/-- The lines of a calendar with one event, with these between. -/
def eventHolding (ls : List Line) : List Line :=
  [⟨c!"BEGIN", [], c!"VCALENDAR"⟩, ⟨c!"VERSION", [], c!"2.0"⟩, ⟨c!"PRODID", [], c!"x"⟩, ⟨c!"BEGIN", [], c!"VEVENT"⟩] ++ ls ++ [⟨c!"END", [], c!"VEVENT"⟩, ⟨c!"END", [], c!"VCALENDAR"⟩]

def eventHoldingText (ls : List Line) : Str := (eventHolding ls).flatMap printLine

/-- Two lines that change places. -/
example (c : Cal) : decodeDoc sampleEnv (eventHoldingText [⟨c!"UID", [], c!"1"⟩, ⟨c!"DTSTAMP", [], c!"20210729T014000Z"⟩]) = .ok c ↔
    decodeDoc sampleEnv (eventHoldingText [⟨c!"DTSTAMP", [], c!"20210729T014000Z"⟩, ⟨c!"UID", [], c!"1"⟩]) = .ok c :=
  C42_swap sampleEnv _ _ ((eventHolding []).take 4) ((eventHolding []).drop 4) ⟨c!"UID", [], c!"1"⟩ ⟨c!"DTSTAMP", [], c!"20210729T014000Z"⟩ .done (by decide +kernel) (by decide +kernel)
    (by decide) (by decide) (by decide) c

/-- A start and an end that are exchanged. -/
example : (decodeDoc sampleEnv (eventHoldingText [⟨c!"UID", [], c!"1"⟩, ⟨c!"DTSTAMP", [], c!"20210729T014000Z"⟩, ⟨c!"DTSTART", [], c!"20210730T014000Z"⟩, ⟨c!"DTEND", [], c!"20210729T014000Z"⟩])).isOk = true := by
  have : (decodeDoc sampleEnv (eventHoldingText [⟨c!"UID", [], c!"1"⟩, ⟨c!"DTSTAMP", [], c!"20210729T014000Z"⟩, ⟨c!"DTSTART", [], c!"20210729T014000Z"⟩, ⟨c!"DTEND", [], c!"20210730T014000Z"⟩])).isOk = true := by
    decide +kernel
  cases h : decodeDoc sampleEnv (eventHoldingText [⟨c!"UID", [], c!"1"⟩, ⟨c!"DTSTAMP", [], c!"20210729T014000Z"⟩, ⟨c!"DTSTART", [], c!"20210729T014000Z"⟩, ⟨c!"DTEND", [], c!"20210730T014000Z"⟩]) with
  | ok c =>
    exact C79_exchanged sampleEnv _ _ ((eventHolding []).take 4 ++ [⟨c!"UID", [], c!"1"⟩, ⟨c!"DTSTAMP", [], c!"20210729T014000Z"⟩]) [] ((eventHolding []).drop 4)
      ⟨c!"DTSTART", [], c!"20210729T014000Z"⟩ ⟨c!"DTEND", [], c!"20210730T014000Z"⟩ .done c (by decide) (by decide) (by decide +kernel) (by decide +kernel) (by decide +kernel) (by decide +kernel) h
  | err e => rw [h] at this; cases this
  | panic => rw [h] at this; cases this

/-- A document that is cut off, in one piece. -/
example := C15_pieces_partial sampleEnv sampleEnv sampleCal sampleCal_typed sampleCal_valid sampleCal_clean.1 (fun x hx v hv => (sampleCal_clean.2 x hx v hv).1) (fun s => [s]) (by simp) _ sampleCal_encoded
  (listReader [utf8 (sampleDoc.take 20)]) beginPiece_wellCut
  (fun h =>
    have h1 : utf8 (sampleDoc.take 20) <+: (({} : Folder).writes okSink ([sampleDoc].map utf8)).out := by decide +kernel
    have h2 : (utf8 (sampleDoc.take 20)).length + 2 < (({} : Folder).writes okSink ([sampleDoc].map utf8)).out.length := by decide +kernel
    have h3 := (beginPiece_delivered h).length_le
    ⟨(beginPiece_delivered h).trans h1, Nat.lt_of_le_of_lt (Nat.add_le_add_right h3 2) h2⟩) [16, 30] 40 (by decide)

example := C69_one_more_partial sampleEnv sampleCal sampleCal_goodCalendar (fun s => [s]) (by simp)

/-! ## Readers -/

/-- Read from memory with a buffer of 45 octets and with one of 50. -/
theorem foldedOnce_other : ∃ out u, readAll (fullReader foldedOnce 0) 300 (List.replicate 6 45) {} [] = .done (out, some 0, u) ∧ delivered (fullReader foldedOnce 0) u.hist = foldedOnce ∧
    ¬ MarkerSplit (fullReader foldedOnce 0) u.hist := by
  have h : ∃ out u, readAll (fullReader foldedOnce 0) 300 (List.replicate 6 45) {} [] = .done (out, some 0, u) ∧ delivered (fullReader foldedOnce 0) u.hist = foldedOnce ∧
      out = removeFolds (delivered (fullReader foldedOnce 0) u.hist) := by
    refine ⟨utf8 (endedBy c!"\r\n"), ⟨[], [1, 45, 45, 3, 45]⟩, ?_, ?_, ?_⟩ <;> decide +kernel
  obtain ⟨out, u, h1, h2, h3⟩ := h
  exact ⟨out, u, h1, h2, (C07_exactly_partial _ (fullReader_ok _ _) (fullReader_lazy _ _) (fullReader_eager _ _) _ (by decide) _ _ _ _ h1
    (by rw [h2]; exact foldedOnce_unfolded) (by rw [h2]; exact foldedOnce_noMore)).1 h3⟩

example : decodeReader sampleEnv (fullReader foldedOnce 0) 300 (List.replicate 6 50) = decodeReader sampleEnv (fullReader foldedOnce 0) 300 (List.replicate 6 45) := by
  obtain ⟨o, u, h1, h2, h3⟩ := foldedOnce_read
  obtain ⟨o', u', h1', h2', h3'⟩ := foldedOnce_other
  exact C07_same_result_partial sampleEnv _ _ (fullReader_ok _ _) (fullReader_lazy _ _) (fullReader_eager _ _) (fullReader_ok _ _) (fullReader_lazy _ _) (fullReader_eager _ _) _ _ (by decide)
    (by decide) _ _ _ _ _ _ _ _ h1 h1' (h2.trans h2'.symm) (by rw [h2]; exact foldedOnce_unfolded) h3 h3'

example (c : Cal) : decodeReader sampleEnv (fullReader foldedOnce 0) 300 (List.replicate 6 50) = .done (.ok c) ↔ ∃ ls, TextBegins ls (runes (removeFolds foldedOnce)) ∧ ExactDoc sampleEnv ls c := by
  obtain ⟨o, u, h1, h2, h3⟩ := foldedOnce_read
  have h := C95_readers_partial sampleEnv _ (fullReader_ok _ _) (fullReader_lazy _ _) (fullReader_eager _ _) _ (by decide) _ _ _ _ h1 (by rw [h2]; exact foldedOnce_unfolded) h3 c
  rw [h2] at h
  exact h

/-! ## Values and properties -/

example := C05_error_is_sticky okSink { err := some 7 } rfl [utf8 c!"a", utf8 c!"b"]

/-- A date-time and a date. -/
example : (∃ t, DateTime.decode sampleEnv 0 none c!"20210729T014000Z" = .ok t) ∧ ∃ t, Date.decode c!"20210729" = .ok t :=
  have two : ∀ a b : Fin 10, Dec [digitChar a, digitChar b] (10 * a + b) := fun a b => .snoc b (.one a)
  have day : DateText c!"20210729" 2021 7 29 :=
    ⟨c!"2021", c!"07", c!"29", rfl, ⟨.snoc (s := c!"202") 1 (.snoc (s := c!"20") 2 (two 2 0)), rfl⟩, ⟨two 0 7, rfl⟩, ⟨two 2 9, rfl⟩, by unfold IsDate; decide⟩
  have clock : ClockText c!"014000" 1 40 0 := ⟨c!"01", c!"40", c!"00", rfl, ⟨two 0 1, rfl⟩, ⟨two 4 0, rfl⟩, ⟨two 0 0, rfl⟩, by decide, by decide, by decide⟩
  ⟨(C52_single_values sampleEnv 0 _).1 ⟨c!"20210729", c!"014000", 2021, 7, 29, 1, 40, 0, true, rfl, day, clock⟩, (C52_single_values sampleEnv 0 _).2 ⟨2021, 7, 29, day⟩⟩

example := C23_utc_round_trip_partial sampleEnv 0 { freq := 3, until_ := ⟨63763119600, 0, .utc⟩, untilTime := true, byDay := [⟨2, 5⟩] }
  ⟨by decide, by decide, by decide, by decide, by decide, by decide, by decide, by decide, by decide, by decide, by decide, by decide, by decide⟩ (by decide +kernel) (by decide) (.inl rfl) rfl rfl
  (by decide +kernel) (by decide +kernel) (by decide) (by decide)

example := C24_panics_only_on_plus_digit sampleEnv 0 none c!"FREQ=DAILY;BYDAY=+5" (by decide)

/-- A period in a zone with an end. -/
example : ∃ p, Period.decode sampleEnv 0 (some c!"Europe/Paris") c!"20210729T014000/20210729T024000" = .ok p ∧ p.valid = .err .invalidPeriodEnd := by
  have : (Period.decode sampleEnv 0 (some c!"Europe/Paris") c!"20210729T014000/20210729T024000").isOk = true := by decide +kernel
  cases h : Period.decode sampleEnv 0 (some c!"Europe/Paris") c!"20210729T014000/20210729T024000" with
  | ok p =>
    have h1 : (match Period.decode sampleEnv 0 (some c!"Europe/Paris") c!"20210729T014000/20210729T024000" with | .ok p => p.stop.isZero || p.start.isZero | _ => true) = false := by decide +kernel
    rw [h] at h1
    simp only [Bool.or_eq_false_iff] at h1
    exact ⟨p, rfl, C27_zoned_periods_rejected sampleEnv 0 c!"Europe/Paris" _ p (by decide) h h1.1 h1.2⟩
  | err e => rw [h] at this; cases this
  | panic => rw [h] at this; cases this

/-- LANGUAGE twice. -/
example : propSummary.decode sampleEnv [(c!"LANGUAGE", [⟨false, c!"en"⟩]), (c!"language", [⟨false, c!"de"⟩])] c!"x" = .err .duplicateParam :=
  C32_repeated_error sampleEnv propSummary [] [] [] (c!"LANGUAGE", [⟨false, c!"en"⟩]) (c!"language", [⟨false, c!"de"⟩]) c!"x" (.fields [none, some (.str c!"en")] [some (.text c!"x")])
    (show _ ∨ _ from .inl (by decide)) (by decide) rfl (by decide +kernel)

/-! ## Calls of the writer -/

example (t u : Str) (h : ∀ f, StandIn f → ∃ r, encodeDoc sampleEnv (mendCal f caretCal) = some (t ++ f c!"en^US" ++ r))
    (h' : ∀ f, StandIn f → ∃ r, encodeDoc sampleEnv (mendCal f caretCal) = some (u ++ f c!"en^US" ++ r)) : t = u := C103_one_text sampleEnv caretCal c!"en^US" (by decide) t u h h'

example : ∃ c, decodeDoc strictEnv (oneMoreDoc c!"SUMMARY;LANGUAGE=en:x") = .ok c ∧ ∀ e f, encodeCalls strictEnv taker c = .returned e f → ∀ p ∈ f.log, OfOneLine p :=
  ⟨oneMore c!"SUMMARY" (.fields [none, some (.str c!"en")] [some (.text c!"x")]), by decide +kernel, fun _ _ h =>
    C104_decoded_one_line_partial strictEnv strictEnv_sane strictEnv_plain (oneMoreDoc c!"SUMMARY;LANGUAGE=en:x") _ (by decide +kernel) _ _ _ h⟩

/-! ## END in another case, and blocks that are not closed -/

/-- `End:VCALENDAR` and `END:VCALENDAR`. -/
example : decodeDoc sampleEnv ((lowerPre.take 1 ++ [(⟨c!"End", [], c!"VCALENDAR"⟩ : Line)]).flatMap printLine) = decodeDoc sampleEnv ((lowerPre.take 1 ++ [(⟨c!"END", [], c!"VCALENDAR"⟩ : Line)]).flatMap printLine) :=
  C43_end_partial sampleEnv _ _ .cal (lowerPre.take 1) [] ⟨c!"END", [], c!"VCALENDAR"⟩ ⟨c!"End", [], c!"VCALENDAR"⟩ .done (.cal (by decide) (by decide)) (by nofun) (by decide) (by decide) rfl
    (by decide +kernel) (by decide +kernel)

/-- An unknown block in the event. -/
example : ∃ k r', ([⟨c!"END", [], c!"X"⟩] ++ lowerPost : List Line) = k ++ r' ∧ Skipped c!"X" k := by
  have : (decodeDoc sampleEnv (textOf (lowerPre ++ ⟨c!"BEGIN", [], c!"x"⟩ :: ([⟨c!"END", [], c!"X"⟩] ++ lowerPost)))).isOk = true := by decide +kernel
  cases h : decodeDoc sampleEnv (textOf (lowerPre ++ ⟨c!"BEGIN", [], c!"x"⟩ :: ([⟨c!"END", [], c!"X"⟩] ++ lowerPost))) with
  | ok c =>
    exact C41_only_closed sampleEnv _ lowerPre ([⟨c!"END", [], c!"X"⟩] ++ lowerPost) _ _ ⟨c!"BEGIN", [], c!"x"⟩ .done lowerPre_midway (by simp) (by decide) (by decide +kernel)
      (by decide +kernel) c h
  | err e => rw [h] at this; cases this
  | panic => rw [h] at this; cases this

/-! ## Alternatives -/

/-- DTSTART without VALUE is a date-time. -/
example := C50_default_type .event _ (List.mem_of_getElem? (i := 2) rfl : (partFields .event)[2] ∈ partFields .event) sampleEnv [] c!"20210729T014000Z"

example : ∃ qs vs i v k n, propDateTimeStart.decode sampleEnv [(c!"VALUE", [⟨false, c!"DATE"⟩])] c!"20210729" = .ok (.fields qs vs) ∧
    Chosen [(c!"DATE-TIME", .dateTime), (c!"DATE", .date)] [(c!"VALUE", [⟨false, c!"DATE"⟩])] i ∧ vs[i]? = some (some v) ∧ v.kind = k ∧ [(c!"DATE-TIME", Kind.dateTime), (c!"DATE", .date)][i]? = some (n, k) := by
  have : (propDateTimeStart.decode sampleEnv [(c!"VALUE", [⟨false, c!"DATE"⟩])] c!"20210729").isOk = true := by decide +kernel
  cases h : propDateTimeStart.decode sampleEnv [(c!"VALUE", [⟨false, c!"DATE"⟩])] c!"20210729" with
  | ok r =>
    obtain ⟨qs, vs, i, v, k, n, h1, h2, h3, h4, h5, h6, h7⟩ := C33_decode_one_alternative sampleEnv propDateTimeStart (by decide) _ _ rfl (by decide) _ _ r h
    exact ⟨qs, vs, i, v, k, n, by rw [h1], h2, h4, h7, h6⟩
  | err e => rw [h] at this; cases this
  | panic => rw [h] at this; cases this

/-- Both alternatives set, or none. -/
example : propDateTimeStart.valid (.fields [] [some (.dateTime ⟨1, 0, .utc⟩), some (.date ⟨86400, 0, .utc⟩)]) ≠ .ok () ∧ propDateTimeStart.valid (.fields [] [none, none]) ≠ .ok () := by
  refine ⟨fun h => ?_, fun h => ?_⟩
  · obtain ⟨_, _, a, v, b, h1, h2⟩ := (C33_valid_one_alternative _ _ _ (by decide) _ _).1 h
    have h3 := congrArg List.length h1
    have h4 : ∀ x ∈ a ++ b, x ∈ [some (Val.dateTime ⟨1, 0, .utc⟩), some (Val.date ⟨86400, 0, .utc⟩)] := by
      intro x hx
      rw [h1]
      simp only [List.mem_append, List.mem_cons] at hx ⊢
      exact hx.elim .inl fun hx => .inr (.inr hx)
    simp only [List.length_append, List.length_cons, List.length_nil] at h3
    obtain ⟨x, hx⟩ := List.exists_mem_of_length_pos (l := a ++ b) (by simp only [List.length_append]; omega)
    have h5 := h4 x hx
    rw [h2 x hx] at h5
    simp at h5
  · obtain ⟨_, _, a, v, b, h1, _⟩ := (C33_valid_one_alternative _ _ _ (by decide) _ _).1 h
    have : some v ∈ [none, none] := by rw [h1]; simp
    simp at this

/-- A summary that is no text has the error for texts. -/
example : Err.invalidText ∈ Kind.errors .text := C73_value_errors sampleEnv (fun _ => none) .text c!"a,b" .invalidText (by decide +kernel)

/-- A parameter with a colon comes back. -/
example (E : Env) : ∃ enc toks, paramCommonName.kind.encode E paramCommonName.name (.str c!"Ann: B") = some enc ∧ ReadsAs enc paramCommonName.name toks ∧
    paramCommonName.kind.decode E toks = .ok (.str c!"Ann: B") :=
  (C31_exactly E paramCommonName (.str c!"Ann: B") (by decide) (by decide) (Plain_all (by decide))).2 (.str _ _ (by decide) (Plain_all (by decide)))

/-- In a document: the first wrong line is the wrong duration. -/
example : ∃ p l f, Looked sampleEnv (tokenise c!"BEGIN:VCALENDAR\r\nBEGIN:VEVENT\r\nDURATION:P1X\r\n").lines p l ∧ f ∈ p.frame.fields ∧ f.key = upper l.name ∧
    (f.mult = .many ∨ ¬ HasLine p.own f.key) ∧ PropWrong sampleEnv f.spec.shape l.params l.value .invalidDuration :=
  (C85_document_property sampleEnv _ .invalidDuration (by decide)).1 (by decide +kernel)

/-- The sample calendar is not refused. -/
example : ¬ ∃ o e, encode sampleEnv okSink (fun s => [s]) sampleCal = .done o ∧ o.err = some (.validation e) := by
  rw [C59_encode_refuses _ _ _ _ sampleCal_typed, ← C59_valid_exact _ sampleCal_typed]
  exact fun h => h sampleCal_valid

/-- A nil alarm beside another one. -/
example (a : AKind) : ∃ c : CalP, PointersOfType c ∧ ∃ e, c.subs[0]? = some [e] ∧ e.subs[0]? = some [.nil a, .nil .audio] :=
  ⟨_, C87_nil_anywhere (pointerCal ⟨1, 0, .utc⟩ (.nil .audio)) ((C87_go_type _).1 (by decide +kernel)) 0 0 c!"VEVENT" c!"VALARM" tabEvent rfl rfl [] [] _ rfl [] [.nil .audio] rfl a, _, rfl, rfl⟩

end Ics.Props
