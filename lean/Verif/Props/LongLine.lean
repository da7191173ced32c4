import Verif.Props.Unbroken
import Verif.Props.FoldingOctets
/-!
# Lines that are too long: C01 for every calendar
-/

namespace Ics.Props

open Spec

/-- C01, the full claim: every line that `Encode` sends has at most 75 octets, for every calendar, however the output is divided into writes. -/
def C01_claim : Prop := ∀ (E : Env) (c : Cal) (cut : Str → List Str) (o : EncOut), c.typed = true → c.valid = .ok () → (∀ s, (cut s).flatten = s) →
  encode E okSink cut c = .done o → ∀ l ∈ physLines o.f.out, l.length ≤ 75

/-- An event in a zone made by `time.FixedZone` whose name is a number of carriage returns. -/
def crZoneCal : Cal := sect tabCalendar [(c!"VERSION", val1 0 (.text c!"2.0")), (c!"PRODID", val1 0 (.text c!"-//x"))]
  [[sect tabEvent [(c!"DTSTAMP", val1 0 (.dateTime ⟨63763119600, 0, .zone (List.replicate 80 '\r') 0 0⟩)), (c!"UID", val1 0 (.text c!"1"))] [[]]], [], [], [], []]

/-- C01 fails for it: validation accepts it, and a line of 93 octets is written, since a carriage return is never the place of a line break. -/
theorem C01_zone_name_long_line : crZoneCal.typed = true ∧ crZoneCal.valid = .ok () ∧
    ∃ o, encode sampleEnv okSink (fun s => [s]) crZoneCal = .done o ∧ o.err = none ∧ ∃ l ∈ physLines o.f.out, l.length = 93 := by
  have h1 : crZoneCal.typed = true := by decide +kernel
  have h2 : crZoneCal.valid = .ok () := by decide +kernel
  have h3 : (match encode sampleEnv okSink (fun s => [s]) crZoneCal with
    | .done o => decide (o.err = none) && (physLines o.f.out).any (fun l => l.length == 93)
    | _ => false) = true := by decide +kernel
  refine ⟨h1, h2, ?_⟩
  cases h : encode sampleEnv okSink (fun s => [s]) crZoneCal with
  | done o =>
    rw [h] at h3
    simp only [Bool.and_eq_true, decide_eq_true_eq, List.any_eq_true, beq_iff_eq] at h3
    exact ⟨o, rfl, h3.1, h3.2⟩
  | panic => rw [h] at h3; cases h3
  | running => rw [h] at h3; cases h3

/-- C01.  The claim as stated in full is false: a counterexample. -/
theorem C01_full_claim_is_false : ¬ C01_claim := by
  intro h
  obtain ⟨h1, h2, o, h3, _, l, h4, h5⟩ := C01_zone_name_long_line
  have := h _ _ (fun s => [s]) o h1 h2 (by simp) h3 l h4
  omega

/-- C01 for every calendar that was decoded. -/
theorem C01_decoded_partial (E : Env) (hE : SaneEnv E) (hP : PlainEnv E) (doc : Str) (c : Cal) (h : decodeDoc E doc = .ok c) (s : Str) (hv : c.valid = .ok ()) (hs : encodeDoc E c = some s)
    (cut : Str → List Str) (hcut : ∀ s, (cut s).flatten = s) : ∃ o, encode E okSink cut c = .done o ∧ o.err = none ∧ ∀ l ∈ physLines o.f.out, l.length ≤ 75 := by
  obtain ⟨o, h1, h2, h3, _⟩ := C01_any_lines_partial E c s (C45_typed E doc c h) hv hs (C46_decoded_partial E hE hP doc c h) cut hcut
  exact ⟨o, h1, h2, h3⟩

/-- The lines of a text, in characters. -/
theorem physLinesAux_utf8 : ∀ (n : Nat) (t : Str), t.length ≤ n → ∀ cur : Str, ∀ l ∈ physLinesAux (utf8 cur) (utf8 t), ∃ s, l = utf8 s := by
  intro n
  induction n with
  | zero =>
    intro t ht cur l hl
    cases t with
    | nil => simp only [utf8_nil, physLinesAux, List.mem_singleton] at hl; exact ⟨cur, hl⟩
    | cons _ _ => simp at ht
  | succ n ih =>
    intro t ht cur l hl
    cases t with
    | nil => simp only [utf8_nil, physLinesAux, List.mem_singleton] at hl; exact ⟨cur, hl⟩
    | cons c t =>
      simp only [List.length_cons] at ht
      have hstep : utf8 cur ++ encodeChar c = utf8 (cur ++ [c]) := by rw [utf8_append, utf8_cons, utf8_nil, List.append_nil]
      by_cases hcr : c = '\r'
      · subst hcr
        have he : encodeChar '\r' = [13] := rfl
        cases t with
        | nil =>
          rw [utf8_cons, utf8_nil, he] at hl
          simp only [List.append_nil, physLinesAux, List.mem_singleton] at hl
          exact ⟨cur ++ ['\r'], by rw [hl, ← hstep, he]⟩
        | cons d t =>
          have hn := ih (d :: t) (by omega) (cur ++ ['\r'])
          rw [← hstep, he, utf8_cons] at hn
          rw [utf8_cons, he, utf8_cons] at hl
          by_cases hd : d = '\n'
          · subst hd
            have he2 : encodeChar '\n' = [10] := rfl
            rw [he2] at hl
            simp only [List.cons_append, List.nil_append, physLinesAux, and_self, if_true, List.mem_cons] at hl
            rcases hl with rfl | hl
            · exact ⟨cur, rfl⟩
            · simp only [List.length_cons] at ht
              exact ih t (by omega) [] l (by rw [utf8_nil]; exact hl)
          · have h10 : ∀ b ∈ encodeChar d, b ≠ 10 :=
              encodeChar_no_byte d 10 (by decide) (by intro h; exact hd ((toNat_eq_iff d '\n').1 h))
            cases hx : encodeChar d with
            | nil => exact absurd hx (encodeChar_ne_nil d)
            | cons x xs =>
              have hx10 : x ≠ 10 := h10 x (by rw [hx]; simp)
              rw [hx] at hl hn
              simp only [List.cons_append, List.nil_append, physLinesAux, hx10, and_false, if_false] at hl
              exact hn l hl
      · have hne : ∀ b ∈ encodeChar c, b ≠ 13 :=
          encodeChar_no_byte c 13 (by decide) (by intro h; exact hcr ((toNat_eq_iff c '\r').1 h))
        rw [utf8_cons, physLinesAux_append _ hne, hstep] at hl
        exact ih t (by omega) _ l hl

/-- C02, line by line: each physical line that was written is the UTF-8 encoding of some text, for whatever texts and however they are divided into writes at characters. -/
theorem C02_lines_utf8 (ss : List Str) : ∀ l ∈ physLines (({} : Folder).writes okSink (ss.map utf8)).out, ∃ s, l = utf8 s := by
  obtain ⟨t, ht, _⟩ := C02_fold_never_splits_characters ss
  intro l hl
  rw [ht] at hl
  exact physLinesAux_utf8 t.length t (Nat.le_refl _) [] l hl

/-- The case of a text that is folded in front of a character of three octets. -/
example : (physLines (({} : Folder).writes okSink [utf8 (List.replicate 74 'a' ++ c!"€b")]).out).map List.length = [74, 5] := by decide +kernel

end Ics.Props
