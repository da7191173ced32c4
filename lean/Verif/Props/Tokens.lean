import Verif.TokensLemmas
import Verif.EarlyLemmas
import Verif.CutLemmas
import Verif.Props.Sample
/-!
# Theorems about tokens and phrases: C111

`decodeTokens` is `Decode` with each function of tokeniser.go modelled by itself, over any parser library of the kind `Lib`.
-/

namespace Ics.Props

open Spec

/-- C111.  The phrases of a document, asked for one by one, are its content lines, each with its name, its parameters each with its values, and its value as tokens; they end as the
content lines do, except that behind a last line without line end it is the library that says how. -/
theorem C111_phrases (L : Lib) (s : Str) : ∃ t p, (newTokeniser s).phrases L (s.length + 1) = some ((tokenise s).lines.map lineTokens, t, p) ∧
    (¬ NoLastLineEnd s → t = match (tokenise s).term with | .done => none | .error e => some (.code e)) ∧
    (NoLastLineEnd s → (tokenise s).term = .done ∧ t = L.noState.map .code) := by
  obtain ⟨t, p, h1, h2, h3, _⟩ := phrases_reads L (s.length + 1) s none (Nat.lt_succ_self _)
  refine ⟨t, p, h1, ?_, h3⟩
  intro h
  rw [h2 h]
  cases (tokenise s).term <;> rfl

/-- C111.  The code that takes the tokens of a phrase apart gets the content line back, and does not panic. -/
theorem C111_taken_apart (l : Line) : lineOfTokens (lineTokens l) = some l := lineOfTokens_tokens l

/-- C111.  `Decode` over any such library returns what `decodeDoc` says.  The only exception: the text ends too early, in a last line without line end, and the library takes that for an
error; then this error is returned. -/
theorem C111_decode (L : Lib) (E : Env) (s : Str) : ∃ r, decodeTokens L E s = some r ∧
    (r = decodeDoc E s ∨ (NoLastLineEnd s ∧ (decodeDoc E s = .err .unexpectedEOF ∨ decodeDoc E s = .panic) ∧ ∃ x, L.noState = some x ∧ r = .err x)) := by
  obtain ⟨t, p, h1, h2, h3, h4⟩ := phrases_reads L (s.length + 1) s none (Nat.lt_succ_self _)
  have h1 : (newTokeniser s).phrases L (s.length + 1) = _ := h1
  have hd : decodeDoc E s = decodeStream E ⟨(tokenise s).lines, (tokenise s).term⟩ := rfl
  unfold decodeTokens
  rw [h1, hd]
  generalize (tokenise s).lines = ls at *
  generalize (tokenise s).term = tm at *
  cases ls with
  | nil =>
    cases t with
    | none =>
      simp only [List.map_nil, h4 rfl rfl]
      refine ⟨_, rfl, .inl ?_⟩
      by_cases hn : NoLastLineEnd s
      · rw [(h3 hn).1]; rfl
      · cases tm with
        | done => rfl
        | error e => have := h2 hn; cases this
    | some x =>
      simp only [List.map_nil, linesOf]
      refine ⟨_, rfl, ?_⟩
      by_cases hn : NoLastLineEnd s
      · obtain ⟨rfl, h5⟩ := h3 hn
        cases hL : L.noState with
        | none => rw [hL] at h5; cases h5
        | some y => rw [hL] at h5; cases h5; exact .inr ⟨hn, .inl rfl, y, rfl, rfl⟩
      · cases tm with
        | done => have := h2 hn; cases this
        | error e => have := h2 hn; cases this; exact .inl rfl
  | cons l ls =>
    have h6 := linesOfTokens_tokens (l :: ls)
    simp only [List.map_cons] at h6 ⊢
    rw [h6]
    refine ⟨_, rfl, ?_⟩
    by_cases hn : NoLastLineEnd s
    · obtain ⟨rfl, h5⟩ := h3 hn
      cases hL : L.noState with
      | none => rw [hL] at h5; cases h5; exact .inl rfl
      | some y =>
        rw [hL] at h5
        cases h5
        rcases decodeStream_early E (l :: ls) with h | h
        · left
          have := h (.error y) []
          rw [List.append_nil] at this
          exact this
        · exact .inr ⟨hn, h.2, y, rfl, h.1 y⟩
    · have := h2 hn
      subst this
      cases tm <;> exact .inl rfl

/-- C111.  Which documents are accepted, and as which calendar, does not depend on the library. -/
theorem C111_accepts (L : Lib) (E : Env) (s : Str) (c : Cal) : decodeTokens L E s = some (.ok c) ↔ decodeDoc E s = .ok c := by
  obtain ⟨r, h1, h2⟩ := C111_decode L E s
  rw [h1]
  rcases h2 with rfl | ⟨_, h3, x, _, rfl⟩
  · exact ⟨fun h => Option.some.inj h, fun h => by rw [h]⟩
  · constructor
    · intro h; cases h
    · intro h; rw [h] at h3; rcases h3 with h3 | h3 <;> cases h3

/-- C111.  Where every line has its line end, nothing depends on the library. -/
theorem C111_line_ends (L : Lib) (E : Env) (s : Str) (h : ¬ NoLastLineEnd s) : decodeTokens L E s = some (decodeDoc E s) := by
  obtain ⟨r, h1, h2⟩ := C111_decode L E s
  rw [h1]
  rcases h2 with rfl | ⟨h3, _⟩
  · rfl
  · exact absurd h3 h

/-- C111.  Nor does the library's own error for a phrase that fails without an error of the tokeniser matter: there is no such phrase. -/
theorem C111_never_unknown (n : Option Err) (x y : Err) (E : Env) (s : Str) : decodeTokens ⟨n, x⟩ E s = decodeTokens ⟨n, y⟩ E s := by
  obtain ⟨t, p, h1, h2, h3, h4⟩ := phrases_reads ⟨n, x⟩ (s.length + 1) s none (Nat.lt_succ_self _)
  obtain ⟨t', p', h1', h2', h3', h4'⟩ := phrases_reads ⟨n, y⟩ (s.length + 1) s none (Nat.lt_succ_self _)
  have ht : t = t' := by
    by_cases hn : NoLastLineEnd s
    · rw [(h3 hn).2, (h3' hn).2]
    · rw [h2 hn, h2' hn]
  subst ht
  have h1 : (newTokeniser s).phrases _ (s.length + 1) = _ := h1
  have h1' : (newTokeniser s).phrases _ (s.length + 1) = _ := h1'
  unfold decodeTokens
  rw [h1, h1']
  cases hl : (tokenise s).lines with
  | nil =>
    cases t with
    | none => simp only [List.map_nil, h4 hl rfl, h4' hl rfl]
    | some z => rfl
  | cons l ls => rfl

/-- C111.  A document that ends with CR LF has all its line ends (so `C111_line_ends` is not about nothing). -/
theorem C111_ends_with_line_end (s : Str) : ¬ NoLastLineEnd (s ++ ['\r', '\n']) := by
  rintro ⟨ls, l, h, hok⟩
  have hl := hok l (by simp)
  have h2 : '\n' ∈ ':' :: l.value := by
    have h2 := congrArg List.getLast? h
    rw [printBare, List.getLast?_append, ← List.append_assoc, List.getLast?_append] at h2
    cases hv : (':' :: l.value).getLast? with
    | none => simp at hv
    | some c =>
      rw [hv] at h2
      simp at h2
      subst h2
      exact List.mem_of_getLast? hv
  rcases List.mem_cons.1 h2 with h3 | h3
  · cases h3
  · have := hl.value _ h3
    simp [NoCtl] at this

/-- A library that knows no more tokens where the function is nil, and one that makes it an error. -/
def quietLib : Lib := ⟨none, .ext⟩
def strictLib : Lib := ⟨some (.io 7), .ext⟩

/-- C111.  The runes that the slices of `nonsafeChars` stand for: control characters without tabulator and line feed; with line feed; with line feed and the double quote; and what has a meaning
in a parameter. -/
theorem C111_slices (c : Char) :
    (c ∈ nonsafeChars.take 31 ↔ (c.toNat < 32 ∨ c.toNat = 127) ∧ c ≠ '\t' ∧ c ≠ '\n') ∧
    (c ∈ nonsafeChars.take 32 ↔ (c.toNat < 32 ∨ c.toNat = 127) ∧ c ≠ '\t') ∧
    (c ∈ nonsafeChars.take 33 ↔ (c.toNat < 32 ∨ c.toNat = 127) ∧ c ≠ '\t' ∨ c = '"') ∧
    (c ∈ nonsafeChars.drop 32 ↔ c = '"' ∨ c = ';' ∨ c = ':' ∨ c = ',') ∧
    (c ∈ nonsafeChars ↔ (c.toNat < 32 ∨ c.toNat = 127) ∧ c ≠ '\t' ∨ c = '"' ∨ c = ';' ∨ c = ':' ∨ c = ',') := by
  by_cases hc : c.toNat < 128
  · have h : ∀ n : Fin 128,
        (Char.ofNat n.1 ∈ nonsafeChars.take 31 ↔ ((Char.ofNat n.1).toNat < 32 ∨ (Char.ofNat n.1).toNat = 127) ∧ Char.ofNat n.1 ≠ '\t' ∧ Char.ofNat n.1 ≠ '\n') ∧
        (Char.ofNat n.1 ∈ nonsafeChars.take 32 ↔ ((Char.ofNat n.1).toNat < 32 ∨ (Char.ofNat n.1).toNat = 127) ∧ Char.ofNat n.1 ≠ '\t') ∧
        (Char.ofNat n.1 ∈ nonsafeChars.take 33 ↔ ((Char.ofNat n.1).toNat < 32 ∨ (Char.ofNat n.1).toNat = 127) ∧ Char.ofNat n.1 ≠ '\t' ∨ Char.ofNat n.1 = '"') ∧
        (Char.ofNat n.1 ∈ nonsafeChars.drop 32 ↔ Char.ofNat n.1 = '"' ∨ Char.ofNat n.1 = ';' ∨ Char.ofNat n.1 = ':' ∨ Char.ofNat n.1 = ',') ∧
        (Char.ofNat n.1 ∈ nonsafeChars ↔ ((Char.ofNat n.1).toNat < 32 ∨ (Char.ofNat n.1).toNat = 127) ∧ Char.ofNat n.1 ≠ '\t' ∨
          Char.ofNat n.1 = '"' ∨ Char.ofNat n.1 = ';' ∨ Char.ofNat n.1 = ':' ∨ Char.ofNat n.1 = ',') := by decide +kernel
    have := h ⟨c.toNat, hc⟩
    rwa [show Char.ofNat (⟨c.toNat, hc⟩ : Fin 128).1 = c from Char.ofNat_toNat c] at this
  · have h : ∀ x ∈ nonsafeChars, x.toNat < 128 := by decide +kernel
    have hn : c ∉ nonsafeChars := fun hm => hc (h c hm)
    have hne : ∀ x : Char, x.toNat < 128 → c ≠ x := fun x hx e => hc (e ▸ hx)
    have h1 := hne '"' (by decide)
    have h2 := hne ';' (by decide)
    have h3 := hne ':' (by decide)
    have h4 := hne ',' (by decide)
    have h5 : ¬ (c.toNat < 32 ∨ c.toNat = 127) := by omega
    have ht : ∀ n, c ∉ nonsafeChars.take n := fun n hm => hn (List.mem_of_mem_take hm)
    have hd : c ∉ nonsafeChars.drop 32 := fun hm => hn (List.mem_of_mem_drop hm)
    simp only [ht, hd, hn, h1, h2, h3, h4, h5, false_and, or_self, iff_self, and_self]

/-- Cases: the sample calendar, with the last line end and without; a text that ends in its second line, which is where the two libraries differ; a fault in a parameter; no text. -/
theorem C111_cases :
    decodeTokens quietLib sampleEnv sampleDoc = some (decodeDoc sampleEnv sampleDoc) ∧ (decodeDoc sampleEnv sampleDoc).isOk = true ∧
    decodeTokens strictLib sampleEnv sampleDoc.dropLast.dropLast = some (decodeDoc sampleEnv sampleDoc) ∧
    decodeTokens quietLib sampleEnv c!"BEGIN:VCALENDAR\r\nVERSION:2.0" = some (.err .unexpectedEOF) ∧
    decodeTokens strictLib sampleEnv c!"BEGIN:VCALENDAR\r\nVERSION:2.0" = some (.err (.io 7)) ∧
    decodeTokens strictLib sampleEnv c!"BEGIN:VCALENDAR\r\nVERSION;A=b,\"c\";D=\"e:2.0\r\n" = some (.err .invalidContentLineQuotedParamValue) ∧
    decodeTokens strictLib sampleEnv [] = some (.err .unexpectedEOF) := by decide +kernel

/-- The tokens of a line with two parameters. -/
theorem C111_tokens_case : (newTokeniser c!"A;B=c,\"d;e\";F=:g\r\nH").phrase quietLib = some (.line [⟨.name, c!"A"⟩, ⟨.paramName, c!"B"⟩, ⟨.paramValue, c!"c"⟩, ⟨.paramQuotedValue, c!"d;e"⟩,
    ⟨.paramName, c!"F"⟩, ⟨.paramValue, []⟩, ⟨.value, c!"g"⟩], newTokeniser c!"H") := by decide +kernel

end Ics.Props
