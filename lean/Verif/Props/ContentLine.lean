import Verif.TokeniserLemmas
/-!
# Properties C10, C11: content lines

`parseLine s` is what the tokeniser and phraser deliver for the text `s`: a line and the text behind it.
-/

namespace Ics.Props

open Ics Spec

/-- C10.  A printed content line followed by any text parses as exactly that line and leaves exactly that text. -/
theorem C10_print_parse (l : Line) (h : LineOk l) (rest : Str) :
    parseLine (printLine l ++ rest) = .line l rest := by
  rw [printLine, List.append_assoc]
  exact parseLine_print_aux l h _ rest (parseValue_print l.value rest h.value)

/-- C10, for the last line of a document without line end. -/
theorem C10_print_parse_last (l : Line) (h : LineOk l) : parseLine (printBare l) = .line l [] := by
  have := parseLine_print_aux l h [] [] (by simpa using parseValue_print_end l.value h.value)
  simpa using this

/-- C10, whole documents: any number of printed lines is read back as those lines. -/
theorem C10_document (ls : List Line) (h : ∀ l ∈ ls, LineOk l) :
    tokenise (ls.flatMap printLine) = ⟨ls, .done⟩ := by
  have := tokenise_prints ls h []
  rw [tokenise_nil] at this
  simpa using this

/-- C10: two different documents of well-formed lines never print alike. -/
theorem C10_print_injective (ls ms : List Line) (hl : ∀ l ∈ ls, LineOk l) (hm : ∀ l ∈ ms, LineOk l)
    (h : ls.flatMap printLine = ms.flatMap printLine) : ls = ms := by
  have h1 := C10_document ls hl
  rw [h, C10_document ms hm] at h1
  injection h1 with h1 _
  exact h1.symm

/-- C11.  Every line the tokeniser delivers is well formed and is exactly the text consumed. -/
theorem C11_parsed_lines_wellformed {s : Str} {l : Line} {r : Str} (h : parseLine s = .line l r) :
    LineOk l ∧ (s = printLine l ++ r ∨ (s = printBare l ∧ r = [])) := parseLine_inv h

/-- C11, all lines of a document; the lines delivered are a faithful reading of a prefix of the document. -/
theorem C11_document (s : Str) : ∀ l ∈ (tokenise s).lines, LineOk l := by
  suffices H : ∀ n (s : Str), s.length ≤ n → ∀ l ∈ (tokenise s).lines, LineOk l from H _ s (Nat.le_refl _)
  intro n
  induction n with
  | zero =>
    intro s hs l hl
    have : s = [] := List.length_eq_zero_iff.1 (by omega)
    subst this
    simp [tokenise_nil] at hl
  | succ n ih =>
    intro s hs l hl
    cases hp : parseLine s with
    | line l' r =>
      rw [tokenise_line hp] at hl
      have := parseLine_rest_lt hp
      rcases List.mem_cons.1 hl with rfl | hl
      · exact (parseLine_inv hp).1
      · exact ih r (by omega) l hl
    | done => simp [tokenise, streamF, hp] at hl
    | error e => simp [tokenise, streamF, hp] at hl

/-- C11: when the whole document is accepted it is exactly the print of its lines, the last possibly without line end. -/
theorem C11_accepted_document_is_its_lines (s : Str) (h : (tokenise s).term = .done) :
    s = (tokenise s).lines.flatMap printLine ∨
      ∃ ls l, (tokenise s).lines = ls ++ [l] ∧ s = ls.flatMap printLine ++ printBare l := by
  suffices H : ∀ n (s : Str), s.length ≤ n → (tokenise s).term = .done →
      s = (tokenise s).lines.flatMap printLine ∨
      ∃ ls l, (tokenise s).lines = ls ++ [l] ∧ s = ls.flatMap printLine ++ printBare l from H _ s (Nat.le_refl _) h
  intro n
  induction n with
  | zero =>
    intro s hs _
    have : s = [] := List.length_eq_zero_iff.1 (by omega)
    subst this
    left; rfl
  | succ n ih =>
    intro s hs ht
    cases hp : parseLine s with
    | line l r =>
      have hlt := parseLine_rest_lt hp
      rw [tokenise_line hp] at ht ⊢
      rcases (parseLine_inv hp).2 with h2 | ⟨h2, h3⟩
      · rcases ih r (by omega) ht with h4 | ⟨ls, l', h4, h5⟩
        · left
          rw [List.flatMap_cons, ← h4, h2]
        · right
          refine ⟨l :: ls, l', by rw [h4]; rfl, ?_⟩
          rw [List.flatMap_cons, List.append_assoc, ← h5, h2]
      · right
        subst h3
        exact ⟨[], l, by rw [tokenise_nil]; rfl, by simpa using h2⟩
    | done =>
      left
      have e : tokenise s = ⟨[], .done⟩ := by rw [tokenise, streamF, hp]
      rw [e]
      unfold parseLine at hp
      have hs := takeWhile_dropWhile isIana s
      generalize s.takeWhile isIana = n at hp hs
      generalize s.dropWhile isIana = t at hp hs
      dsimp only at hp
      split at hp
      · next hn =>
        split at hp
        · next ht => rw [hs, hn, ht]; rfl
        · cases hp
      · have key : ∀ x : Res (List (Str × List PVal) × Str), x ≠ .panic →
            (match (do
              let (ps, r) ← x
              let (v, r) ← parseValue r
              Res.ok (Phrase.line ⟨n, ps, v⟩ r)) with
              | .ok p => p
              | .err e => .error e
              | .panic => Phrase.done) ≠ .done := by
          intro x hx
          cases x with
          | ok p =>
            obtain ⟨ps, r⟩ := p
            simp only [Res.ok_bind]
            cases hv : parseValue r with
            | ok q => simp
            | err e => simp
            | panic => unfold parseValue at hv; split at hv <;> cases hv
          | err e => simp
          | panic => exact absurd rfl hx
        split at hp
        · exact absurd hp (key _ (parseParams_ne_panic _ _))
        · exact absurd hp (key _ (parseParams_ne_panic _ _))
        · cases hp
    | error e =>
      rw [tokenise, streamF, hp] at ht
      cases ht

/-- The hypotheses are met by a line with quoted and unquoted parameter values. -/
def sampleLine : Line :=
  ⟨c!"ATTENDEE", [(c!"CN", [⟨true, c!"Smith; John"⟩]), (c!"X-A", [⟨false, c!"1"⟩, ⟨false, c!""⟩])], c!"mailto:a@b.c"⟩

example : printLine sampleLine = c!"ATTENDEE;CN=\"Smith; John\";X-A=1,:mailto:a@b.c\r\n" := by decide

theorem sampleLine_ok : LineOk sampleLine := by
  constructor <;> simp [sampleLine, IanaChar, ParamValOk, NoCtl]

example : parseLine (c!"ATTENDEE;CN=\"Smith; John\";X-A=1,:mailto:a@b.c\r\n" ++ c!"END:X\r\n") = .line sampleLine c!"END:X\r\n" :=
  by decide +kernel

/-- Lines outside the class are refused: control character in the value, quote in an unquoted value, bare LF. -/
example : parseLine c!"A:b\u0001c\r\n" = .error .invalidContentLineValue := by decide +kernel
example : parseLine c!"A;B=c\"d:e\r\n" = .error .invalidContentLineParamValue := by decide +kernel
example : parseLine c!"A:b\n" = .error .invalidContentLineValue := by decide +kernel

end Ics.Props
