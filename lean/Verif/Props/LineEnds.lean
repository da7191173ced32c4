import Verif.Props.Exact
import Verif.Props.Unfolding
import Verif.Props.ContentLine
import Verif.Props.Early
import Verif.ByteLemmas
/-!
# Theorems about exactly the texts that Decode accepts, and about line ends: C95
-/

namespace Ics.Props

open Spec

/-- The text begins with these content lines, each with CR LF behind it; if the text ends with them the last CR LF may be missing. -/
def TextBegins (ls : List Line) (s : Str) : Prop := (∀ l ∈ ls, LineOk l) ∧ ((∃ q, s = ls.flatMap printLine ++ q) ∨ s ++ ['\r', '\n'] = ls.flatMap printLine)

theorem printLine_ne (l : Line) : printLine l ≠ [] := by simp [printLine]

theorem printBare_ne (l : Line) : printBare l ≠ [] := by simp [printBare]

/-- A text to which CR LF is added has the same lines if it has one at least and they are well formed. -/
theorem tokenise_unended {ls : List Line} {s : Str} (hl : ∀ l ∈ ls, LineOk l) (hne : ls ≠ []) (h : s ++ ['\r', '\n'] = ls.flatMap printLine) : tokenise s = ⟨ls, .done⟩ := by
  obtain ⟨pre, x, rfl⟩ : ∃ pre x, ls = pre ++ [x] := ⟨ls.dropLast, ls.getLast hne, (List.dropLast_concat_getLast hne).symm⟩
  have hs : s = pre.flatMap printLine ++ printBare x := by
    rw [List.flatMap_append, List.flatMap_singleton, printLine, ← List.append_assoc] at h
    exact List.append_cancel_right h
  rw [hs, tokenise_prints pre (fun l h => hl l (by simp [h]))]
  have hx := C10_print_parse_last x (hl x (by simp))
  rw [tokenise_line hx, tokenise_nil]

/-- C95.  `Decode` returns a calendar exactly if the text begins with content lines, each ended by CR LF, that are read as this calendar by the grammar of C74; only if nothing
follows, the last CR LF may be missing. -/
theorem C95_exactly (E : Env) (s : Str) (c : Cal) : decodeDoc E s = .ok c ↔ ∃ ls, TextBegins ls s ∧ ExactDoc E ls c := by
  rw [C74_exact]
  constructor
  · rintro ⟨p, r, h1, h2⟩
    exact ⟨p, tokenise_front h1, h2⟩
  · rintro ⟨ls, ⟨h1, h2⟩, h3⟩
    have hne : ls ≠ [] := by
      obtain ⟨b, k, rfl, _⟩ := h3
      simp
    rcases h2 with ⟨q, rfl⟩ | h2
    · exact ⟨ls, (tokenise q).lines, by rw [tokenise_prints ls h1], h3⟩
    · exact ⟨ls, [], by rw [tokenise_unended h1 hne h2, List.append_nil], h3⟩

/-- C95.  These lines are settled by the text. -/
theorem C95_one (E : Env) (s : Str) (c c' : Cal) (ls ls' : List Line) (h : TextBegins ls s) (h' : TextBegins ls' s) (hc : ExactDoc E ls c) (hc' : ExactDoc E ls' c') :
    ls = ls' ∧ c = c' := by
  have key : ∀ {ls : List Line} {c : Cal}, TextBegins ls s → ExactDoc E ls c → ∃ r, (tokenise s).lines = ls ++ r := by
    rintro ls c ⟨h1, h2⟩ h3
    have hne : ls ≠ [] := by
      obtain ⟨b, k, rfl, _⟩ := h3
      simp
    rcases h2 with ⟨q, rfl⟩ | h2
    · exact ⟨(tokenise q).lines, by rw [tokenise_prints ls h1]⟩
    · exact ⟨[], by rw [tokenise_unended h1 hne h2, List.append_nil]⟩
  obtain ⟨r, hr⟩ := key h hc
  obtain ⟨r', hr'⟩ := key h' hc'
  exact C74_one E ls ls' r r' c c' hc hc' (hr.symm.trans hr')

/-! ## Line ends -/

/-- Control characters, except HTAB, are found nowhere but as CR LF, and no CR LF is at the beginning or behind another one. -/
inductive Clean : Bool → Str → Prop
  | nil {b : Bool} : Clean b []
  | char {b : Bool} {c : Char} {s : Str} : NoCtl c → Clean true s → Clean b (c :: s)
  | line {s : Str} : Clean false s → Clean true ('\r' :: '\n' :: s)

theorem Clean.chars {t r : Str} (ht : ∀ c ∈ t, NoCtl c) (hr : Clean true r) {b : Bool} (hb : t ≠ [] ∨ b = true) : Clean b (t ++ r) := by
  induction t generalizing b with
  | nil =>
    rcases hb with hb | rfl
    · exact absurd rfl hb
    · exact hr
  | cons c t ih => exact .char (ht c (by simp)) (ih (fun x hx => ht x (by simp [hx])) (Or.inr rfl))

theorem Clean.lines {ls : List Line} (h : ∀ l ∈ ls, LineOk l) : Clean false (ls.flatMap printLine) := by
  induction ls with
  | nil => exact .nil
  | cons l ls ih =>
    rw [List.flatMap_cons, printLine, List.append_assoc]
    exact Clean.chars (printBare_NoCtl (h l (by simp))) (.line (ih fun x hx => h x (by simp [hx]))) (Or.inl (printBare_ne l))

theorem Clean.unended {b : Bool} {t : Str} (h : Clean b t) : ∀ {s : Str}, t = s ++ ['\r', '\n'] → Clean b s := by
  induction h with
  | nil => intro s e; simp at e
  | char hc _ ih =>
    intro s e
    cases s with
    | nil =>
      injection e with e _
      subst e
      exact absurd hc (by unfold NoCtl; decide)
    | cons x s =>
      injection e with e1 e2
      subst e1
      exact .char hc (ih e2)
  | line _ ih =>
    intro s e
    cases s with
    | nil => exact .nil
    | cons x s =>
      injection e with e1 e2
      subst e1
      cases s with
      | nil =>
        injection e2 with e2 e3
        exact absurd e2 (by decide)
      | cons y s =>
        injection e2 with e2 e3
        subst e2
        exact .line (ih e3)

/-- C95.  In the part of an accepted document that decides what it is read as, there are no control characters but HTAB and CR LF, and no empty lines: so a CR or LF for itself,
or an empty line, is found behind the calendar only. -/
theorem C95_line_ends (E : Env) (s : Str) (c : Cal) (h : decodeDoc E s = .ok c) : ∃ t q, s = t ++ q ∧ Clean false t ∧ decodeDoc E t = .ok c := by
  obtain ⟨ls, ⟨h1, h2⟩, h3⟩ := (C95_exactly E s c).1 h
  rcases h2 with ⟨q, h2⟩ | h2
  · exact ⟨_, q, h2, Clean.lines h1, (C95_exactly ..).2 ⟨ls, ⟨h1, Or.inl ⟨[], by simp⟩⟩, h3⟩⟩
  · exact ⟨s, [], by simp, (Clean.lines h1).unended h2.symm, h⟩

theorem parseLine_control (l : Line) (h : LineOk l) (x : Char) (r : Str) (hx : ¬ NoCtl x) (hr : x = '\r' → r.head? ≠ some '\n') :
    parseLine (printBare l ++ x :: r) = .error .invalidContentLineValue := by
  have hc : isCtl32 x = true := by
    cases hc : isCtl32 x
    · exact absurd ((isCtl32_iff x).1 hc) hx
    · rfl
  have hv : parseValue (l.value ++ x :: r) = .err .invalidContentLineValue := by
    obtain ⟨h1, h2⟩ := takeWhile_stop (fun c => !isCtl32 c) l.value (x :: r) (by intro y hy; simp [(isCtl32_iff y).2 (h.value y hy)]) (by simp [hc])
    unfold parseValue
    rw [h2]
    split
    · next e =>
      injection e with e1 e2
      exact absurd (by rw [e2]; rfl) (hr e1)
    · next e => cases e
    · rfl
  obtain ⟨d, q, hq, hd⟩ := printParams_head l.params (l.value ++ x :: r)
  have e : printBare l ++ x :: r = l.name ++ d :: q := by
    rw [← hq]; simp [printBare]
  have hdi : isIana d = false := by rcases hd with rfl | rfl <;> decide
  obtain ⟨t1, t2⟩ := takeWhile_stop isIana l.name (d :: q) (by intro y hy; exact (isIana_iff y).2 (h.name y hy)) (by simpa using hdi)
  have hp : parseParams ((d :: q).length + 1) (d :: q) = .ok (l.params, l.value ++ x :: r) := by
    rw [← hq]
    refine parseParams_print _ _ _ h.pname h.pvals_ne h.pvals ?_
    have := printParams_length l.params
    simp; omega
  rw [e]
  unfold parseLine
  simp only [t1, t2, if_neg h.name_ne]
  rcases hd with rfl | rfl
  · simp only [hp, Res.ok_bind, hv]; rfl
  · simp only [hp, Res.ok_bind, hv]; rfl

theorem parseLine_wrong_start {x : Char} {r : Str} (h : ¬ IanaChar x) : parseLine (x :: r) = .error .invalidContentLine := by
  have hx : isIana x = false := by
    cases hx : isIana x
    · rfl
    · exact absurd ((isIana_iff x).1 hx) h
  simp [parseLine, hx]

theorem notALine {q : Str} {e : Err} (h : parseLine q = .error e) : NotALine q e := by
  unfold NotALine
  simp [tokenise, streamF, h]

/-- After complete lines that do not settle the result, a text that is not a content line is reported. -/
theorem settled_or (E : Env) (ls : List Line) (hl : ∀ l ∈ ls, LineOk l) {q : Str} {e : Err} (h : parseLine q = .error e) :
    (∃ x, Settles E (ls.flatMap printLine) x) ∨ decodeDoc E (ls.flatMap printLine ++ q) = .err e :=
  (C65_settled_or_undecided E ls hl).imp_right fun hu => hu.2 q e (notALine h)

/-- C95.  A line that is ended by anything but CR LF, such as LF alone, or CR alone, or that has another control character in its value, is reported as a line with a wrong value,
unless the lines before have settled the result. -/
theorem C95_other_line_ends (E : Env) (ls : List Line) (hl : ∀ l ∈ ls, LineOk l) (l : Line) (h : LineOk l) (x : Char) (r : Str) (hx : ¬ NoCtl x)
    (hr : x = '\r' → r.head? ≠ some '\n') :
    (∃ y, Settles E (ls.flatMap printLine) y) ∨ decodeDoc E (ls.flatMap printLine ++ (printBare l ++ x :: r)) = .err .invalidContentLineValue :=
  settled_or E ls hl (parseLine_control l h x r hx hr)

/-- C95.  So a document whose lines are ended by LF alone is refused because of its first line, and so is one whose lines are ended by CR alone. -/
theorem C95_first_line_end (E : Env) (l : Line) (h : LineOk l) (r : Str) : decodeDoc E (printBare l ++ '\n' :: r) = .err .invalidContentLineValue ∧
    (r.head? ≠ some '\n' → decodeDoc E (printBare l ++ '\r' :: r) = .err .invalidContentLineValue) := by
  have key : ∀ x, ¬ NoCtl x → (x = '\r' → r.head? ≠ some '\n') → decodeDoc E (printBare l ++ x :: r) = .err .invalidContentLineValue := by
    intro x hx hr
    have := notALine (parseLine_control l h x r hx hr)
    unfold decodeDoc
    rw [this]
    rfl
  exact ⟨key '\n' (by unfold NoCtl; decide) (fun e => absurd e (by decide)), fun hr => key '\r' (by unfold NoCtl; decide) fun _ => hr⟩

/-- C95.  A line that begins with anything but a letter, a digit or a hyphen is reported, unless the lines before have settled the result.  This is so for empty lines, lines that
begin with a space, and for a byte order mark. -/
theorem C95_wrong_line (E : Env) (ls : List Line) (hl : ∀ l ∈ ls, LineOk l) (x : Char) (r : Str) (h : ¬ IanaChar x) :
    (∃ y, Settles E (ls.flatMap printLine) y) ∨ decodeDoc E (ls.flatMap printLine ++ x :: r) = .err .invalidContentLine :=
  settled_or E ls hl (parseLine_wrong_start h)

/-- C95.  At the beginning of the document it always is. -/
theorem C95_wrong_start (E : Env) (x : Char) (r : Str) (h : ¬ IanaChar x) : decodeDoc E (x :: r) = .err .invalidContentLine := by
  have := notALine (parseLine_wrong_start (r := r) h)
  unfold decodeDoc
  rw [this]
  rfl

/-- C95.  No document without CR is accepted, and none without LF. -/
theorem C95_needs_cr_lf (E : Env) (s : Str) (c : Cal) (h : decodeDoc E s = .ok c) : ∃ a b, s = a ++ '\r' :: '\n' :: b ∧ ∀ x ∈ a, NoCtl x := by
  obtain ⟨ls, ⟨h1, h2⟩, b, k, rfl, hb, k', e, is, rfl, _⟩ := (C95_exactly E s c).1 h
  have hne : ∃ t, (k' ++ [e]).flatMap printLine = t ++ ['\r', '\n'] ∧ True := ⟨k'.flatMap printLine ++ printBare e, by simp [printLine], trivial⟩
  refine ⟨printBare b, ?_⟩
  rcases h2 with ⟨q, rfl⟩ | h2
  · exact ⟨(k' ++ [e]).flatMap printLine ++ q, by simp [printLine], printBare_NoCtl (h1 b (by simp))⟩
  · obtain ⟨t, ht, _⟩ := hne
    refine ⟨t, ?_, printBare_NoCtl (h1 b (by simp))⟩
    rw [List.flatMap_cons, ht, ← List.append_assoc] at h2
    rw [List.append_cancel_right h2]
    simp [printLine]

/-- C95.  An accepted document begins with BEGIN, in any case, and what follows begins with a colon or a semicolon. -/
theorem C95_first_characters (E : Env) (s : Str) (c : Cal) (h : decodeDoc E s = .ok c) : ∃ n d r, s = n ++ d :: r ∧ upper n = c!"BEGIN" ∧ (d = ':' ∨ d = ';') := by
  obtain ⟨ls, ⟨h1, h2⟩, b, k, rfl, hb, _⟩ := (C95_exactly E s c).1 h
  have key : ∀ {b : Line} {t : Str}, s = printBare b ++ t → Opening b → ∃ n d r, s = n ++ d :: r ∧ upper n = c!"BEGIN" ∧ (d = ':' ∨ d = ';') := by
    intro b t e hb
    obtain ⟨d, q, hq, hd⟩ := printParams_head b.params (b.value ++ t)
    refine ⟨b.name, d, q, ?_, hb.1, hd.symm⟩
    rw [e, ← hq]; simp [printBare]
  rcases h2 with ⟨q, h2⟩ | h2
  · exact key (t := ['\r', '\n'] ++ (k.flatMap printLine ++ q)) (by rw [h2]; simp [printLine]) hb
  · obtain ⟨pre, x, hk⟩ : ∃ pre x, b :: k = pre ++ [x] := ⟨(b :: k).dropLast, (b :: k).getLast (by simp), (List.dropLast_concat_getLast (by simp)).symm⟩
    rw [hk, List.flatMap_append, List.flatMap_singleton, printLine, ← List.append_assoc] at h2
    have hs := List.append_cancel_right h2
    cases pre with
    | nil =>
      injection hk with e1 _
      subst e1
      exact key (t := []) (by rw [hs]; simp) hb
    | cons y pre =>
      injection hk with e1 _
      subst e1
      exact key (t := ['\r', '\n'] ++ (pre.flatMap printLine ++ printBare x)) (by rw [hs]; simp [printLine]) hb

/-! ## Octets -/

/-- C95, in octets, for a document that is delivered at once (and does not hit the bug of C08): `Decode` returns a calendar exactly if the octets, without the markers CR LF SPACE,
are those of a text of which this is true. -/
theorem C95_octets_partial (E : Env) (doc : Bytes) (fin k : Nat) (h : hasFold doc → ¬ badEnd doc) (hk : doc.length ≤ k) (hk0 : 0 < k) (fuel : Nat) (hf : k + 4 ≤ fuel) (c : Cal) :
    decodeReader E (onceReader doc fin) fuel [k, k] = .done (.ok c) ↔ ∃ ls, TextBegins ls (runes (removeFolds doc)) ∧ ExactDoc E ls c := by
  obtain ⟨u, hu⟩ := C07_single_delivery_partial doc fin k h hk hk0 fuel hf
  unfold decodeReader
  rw [hu, ← C95_exactly]
  show Run.done (decodeDoc E _) = _ ↔ _
  constructor
  · intro h
    injection h
  · intro h
    rw [h]

/-! ## Concrete cases -/

/-- A calendar with one event, with CR LF, with LF, with CR, with an empty line, and with a byte order mark. -/
def endedBy (e : Str) : Str := [c!"BEGIN:VCALENDAR", c!"VERSION:2.0", c!"PRODID:x", c!"BEGIN:VEVENT", c!"UID:1", c!"DTSTAMP:20210729T014000Z", c!"END:VEVENT", c!"END:VCALENDAR"].flatMap (· ++ e)

example : (decodeDoc sampleEnv (endedBy c!"\r\n")).isOk = true ∧ (decodeDoc sampleEnv ((endedBy c!"\r\n").dropLast.dropLast)).isOk = true ∧
    (decodeDoc sampleEnv ((endedBy c!"\r\n").dropLast)) = .err .invalidContentLineValue ∧
    decodeDoc sampleEnv (endedBy c!"\n") = .err .invalidContentLineValue ∧ decodeDoc sampleEnv (endedBy c!"\r") = .err .invalidContentLineValue ∧
    decodeDoc sampleEnv (endedBy c!"\r\n\r\n") = .err .invalidContentLine ∧ decodeDoc sampleEnv (endedBy c!" \r\n") = .err .invalidCalendar ∧
    decodeDoc sampleEnv ('﻿' :: endedBy c!"\r\n") = .err .invalidContentLine := by decide +kernel

/-- The lines of it, by `C95_exactly`. -/
example : ∃ c ls, TextBegins ls (endedBy c!"\r\n" ++ c!"\n\n") ∧ ExactDoc sampleEnv ls c := by
  have : (decodeDoc sampleEnv (endedBy c!"\r\n" ++ c!"\n\n")).isOk = true := by decide +kernel
  cases h : decodeDoc sampleEnv (endedBy c!"\r\n" ++ c!"\n\n") with
  | ok c => exact ⟨c, (C95_exactly ..).1 h⟩
  | err e => rw [h] at this; cases this
  | panic => rw [h] at this; cases this

example : ¬ IanaChar '﻿' ∧ ¬ IanaChar '\r' ∧ ¬ IanaChar ' ' ∧ ¬ NoCtl '\n' ∧ ¬ NoCtl '\u0000' := by unfold IanaChar NoCtl; decide

/-- The hypotheses of `C95_octets_partial`, with a fold in the document. -/
example : ∃ c, decodeReader sampleEnv (onceReader (utf8 (c!"BEGIN:VCAL\r\n ENDAR\r\n" ++ (endedBy c!"\r\n").drop 17)) 0) 4100 [4096, 4096] = .done (.ok c) ∧
    ∃ ls, TextBegins ls (runes (removeFolds (utf8 (c!"BEGIN:VCAL\r\n ENDAR\r\n" ++ (endedBy c!"\r\n").drop 17)))) ∧ ExactDoc sampleEnv ls c := by
  have hd : decodeReader sampleEnv (onceReader (utf8 (c!"BEGIN:VCAL\r\n ENDAR\r\n" ++ (endedBy c!"\r\n").drop 17)) 0) 4100 [4096, 4096] = .done (decodeDoc sampleEnv (endedBy c!"\r\n")) := by decide +kernel
  have : (decodeDoc sampleEnv (endedBy c!"\r\n")).isOk = true := by decide +kernel
  cases h : decodeDoc sampleEnv (endedBy c!"\r\n") with
  | ok c =>
    rw [h] at hd
    refine ⟨c, hd, (C95_octets_partial sampleEnv _ 0 4096 (fun _ => ?_) (by decide +kernel) (by decide) 4100 (by decide) c).1 hd⟩
    have e : ∀ b : Bytes, b.drop (b.length - 3) = [82, 13, 10] → ¬ badEnd b := fun b hb => by
      rw [← List.take_append_drop (b.length - 3) b, hb]
      exact not_badEnd _ 82 (by decide)
    exact e _ (by decide +kernel)
  | err e => rw [h] at this; cases this
  | panic => rw [h] at this; cases this

end Ics.Props
