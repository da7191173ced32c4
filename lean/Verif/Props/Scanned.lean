import Verif.ScannedLemmas
import Verif.Props.Scalars
import Verif.Props.Params
import Verif.Props.Meaning
/-!
# C112: the functions that walk over a text with a string tokeniser

The code of `Duration.decode`, `decodeText`, `MText.decode`, `UTCOffset.decode`, `decode6868` and `encode6868` as it stands, call by call on the tokeniser, against the descriptions of the texts.
-/

namespace Ics.Props
open Ics Ics.Spec

/-- C112.  Reading a duration ends for every text, and gives exactly what the text means. -/
theorem C112_duration (s : Str) (d : Duration) : (∃ r, Duration.scan s = some r) ∧ (Duration.scan s = some (.ok d) ↔ DurationMeans s d) := by
  rw [Duration.scan_eq, ← C19_decoding_exact]
  simp

/-- C112.  Reading a text up to a comma, a semicolon or the end: it ends, has read all up to there and no more, and nothing is pending in the tokeniser for the next `Get`. -/
theorem C112_text_piece (s : Str) : ∃ a t r, s = a ++ r ∧ scanText (s.length + 1) [] ⟨[], s⟩ = some (t, ⟨[], r⟩) ∧
    ((Loose a t ∧ ∀ c ∈ r.head?, c = ',' ∨ c = ';') ∨ (LooseText a t ∧ r = [])) := by
  obtain ⟨a, t, r, rfl, h⟩ := decodeText_cases s
  refine ⟨a, t, r, rfl, ?_, h⟩
  rw [scanText_eq _ _ _ (Nat.lt_succ_self _)]
  rcases h with ⟨h1, h2⟩ | ⟨h1, rfl⟩
  · rw [decodeText_loose h1 r h2]; rfl
  · rw [List.append_nil, looseText_decode h1]; rfl

/-- C112.  Reading a text ends for every text, and gives exactly what it means. -/
theorem C112_text (s t : Str) : (∃ r, Text.scan s = some r) ∧ (Text.scan s = some (.ok t) ↔ LooseText s t) := by
  rw [Text.scan_eq, ← C16_decoding_exact]
  simp

/-- C112.  Reading a list of texts ends for every text, and gives exactly the texts it means. -/
theorem C112_text_list (s : Str) (ts : List Str) : (∃ r, MText.scan s = some r) ∧ (MText.scan s = some (.ok ts) ↔ LooseList s ts) := by
  rw [MText.scan_eq, ← C17_decoding_exact]
  simp

/-- C112.  Reading an offset gives exactly what it means. -/
theorem C112_offset (s : Str) (u : Int) : UTCOffset.scan s = .ok u ↔ LooseOffset s u := by
  rw [UTCOffset.scan_eq, ← C20_accepted_offsets]

/-- C112.  The escapes of RFC 6868 are read to the end of every text; the result is that of RFC 6868 exactly if no caret has a character behind it, because the tokeniser still holds what has been
replaced when the next piece is taken from it. -/
theorem C112_escapes (s : Str) : ∃ t, scan6868 (s.length + 1) [] ⟨[], s⟩ = some t ∧ (t = rfcDec6868 s ↔ ∀ a c b, s ≠ a ++ '^' :: c :: b) :=
  ⟨decode6868 s, by rw [scan6868_eq _ (s.length + 1) _ _ _ (Nat.lt_succ_self _) (Nat.lt_succ_self _)]; rfl, C29_decoding_exact_partial s⟩

/-- C112.  Writing the escapes returns after some number of rounds exactly for the texts without newline, caret and quote, and then returns them as they are; for the others no number of rounds is
enough. -/
theorem C112_write_escapes (s d : Str) : (∃ n, rounds6868 n [] ⟨[], s⟩ = some d) ↔ d = s ∧ ∀ c ∈ s, ¬ (c = '\n' ∨ c = '^' ∨ c = '"') := by
  have key : (∃ n, rounds6868 n [] ⟨[], s⟩ = some d) ↔ encode6868 s = some d := by
    rw [(encode6868_spec s).1 d]
    refine exists_congr fun n => ?_
    rw [rounds6868_eq]
    cases Enc6868.rounds n (.run s []) <;> simp
  rw [key]
  by_cases h : ∃ c ∈ s, isEsc6868 c = true
  · rw [encode6868_esc s h]
    obtain ⟨c, hc, he⟩ := h
    exact ⟨fun h => (nomatch h), fun h => absurd ((isEsc6868_iff c).1 he) (h.2 c hc)⟩
  · have hp : ∀ c ∈ s, isEsc6868 c = false := by
      intro c hc
      cases he : isEsc6868 c with
      | false => rfl
      | true => exact absurd ⟨c, hc, he⟩ h
    rw [encode6868_plain s hp]
    constructor
    · rintro h'
      cases h'
      exact ⟨rfl, fun c hc he => h ⟨c, hc, (isEsc6868_iff c).2 he⟩⟩
    · rintro ⟨rfl, -⟩; rfl

/-- C112.  The functions on texts that the rest of the model uses, and their errors, are those of the code call by call. -/
theorem C112_same (s : Str) : Duration.scan s = some (Duration.decode s) ∧ Text.scan s = some (Text.decode s) ∧ MText.scan s = some (MText.decode s) ∧
    UTCOffset.scan s = UTCOffset.decode s ∧ scan6868 (s.length + 1) [] ⟨[], s⟩ = some (decode6868 s) ∧
    ∀ n, rounds6868 (n + 1) [] ⟨[], s⟩ = encode6868 s := by
  refine ⟨Duration.scan_eq s, Text.scan_eq s, MText.scan_eq s, UTCOffset.scan_eq s, ?_, ?_⟩
  · rw [scan6868_eq _ (s.length + 1) _ _ _ (Nat.lt_succ_self _) (Nat.lt_succ_self _)]; rfl
  · intro n
    rw [rounds6868_eq]
    cases h : encode6868 s with
    | none =>
      have := (encode6868_spec s).2.1 h (n + 1)
      cases hr : Enc6868.rounds (n + 1) (.run s []) with
      | run _ _ => rfl
      | ret d => exact absurd hr (this d)
    | some d =>
      have h1 : (Enc6868.run s []).step = .ret d := by
        unfold encode6868 at h
        split at h
        · next h' => cases h; exact h'
        · cases h
      have h2 : ∀ m, Enc6868.rounds m (.ret d) = .ret d := by
        intro m; induction m with
        | zero => rfl
        | succ m ih => exact ih
      rw [Enc6868.rounds, h1, h2]

/-- C112, concrete cases. -/
theorem C112_cases : Duration.scan c!"-P1DT2H3M4S" = some (.ok { neg := true, days := 1, hours := 2, minutes := 3, seconds := 4 }) ∧ Duration.scan c!"P1W2" = some (.err .invalidDuration) ∧
    Duration.scan c!"PTX" = some (.err .ext) ∧
    scanText 8 [] ⟨[], c!"a\\,b\\"⟩ = some (c!"a,b\\�", ⟨[], []⟩) ∧ scanText 8 [] ⟨[], c!"a\\nb;c"⟩ = some (c!"a\nb", ⟨[], c!";c"⟩) ∧ Text.scan c!"a;b" = some (.err .invalidText) ∧
    MText.scan c!"a\\,b,,c" = some (.ok [c!"a,b", [], c!"c"]) ∧ UTCOffset.scan c!"-0530" = .ok (-19800) ∧ UTCOffset.scan c!"-0000" = .err .invalidOffset ∧
    scan6868 8 [] ⟨[], c!"a^nb^"⟩ = some c!"a\n^nb^" ∧ rounds6868 1 [] ⟨[], c!"a b"⟩ = some c!"a b" ∧ rounds6868 50 [] ⟨[], c!"a^b"⟩ = none := by
  decide +kernel

end Ics.Props
