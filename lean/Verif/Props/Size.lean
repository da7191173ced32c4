import Verif.SizeLemmas
import Verif.ComposeExactLemmas
import Verif.Props.Time
/-!
# C97: what Decode keeps is bounded by the size of the document
-/

namespace Ics.Props
open Spec

/-- C97.  The calendar that `Decode` returns is at most twice as large as the document, whatever the document. -/
theorem C97_at_most_twice (E : Env) (s : Str) (c : Cal) (h : decodeDoc E s = .ok c) : calSize c ≤ 2 * s.length := by
  have := decodeDoc_size twice h
  simp only [twice, List.length_append, crlf, List.length_cons, List.length_nil] at this
  omega

/-- C97.  Only carets make it larger than the document: each by two at most. -/
theorem C97_carets (E : Env) (s : Str) (c : Cal) (h : decodeDoc E s = .ok c) : calSize c ≤ s.length + 2 * s.count '^' := by
  have := decodeDoc_size carets h
  have h0 : List.count '^' ['\r', '\n'] = 0 := by decide
  simp only [carets, List.length_append, List.count_append, crlf, h0, List.length_cons, List.length_nil] at this
  omega

/-- C97.  Without carets it is not larger than the document. -/
theorem C97_without_carets (E : Env) (s : Str) (c : Cal) (hs : '^' ∉ s) (h : decodeDoc E s = .ok c) : calSize c ≤ s.length := by
  have := C97_carets E s c h
  rw [List.count_eq_zero.2 hs] at this
  omega

theorem runesF_size : ∀ (f : Nat) (b : Bytes), (runesF f b).length ≤ f
  | 0, _ => Nat.le_refl _
  | _ + 1, [] => Nat.zero_le _
  | f + 1, _ :: _ => Nat.succ_le_succ (runesF_size f _)

/-- C97, counting octets: the calendar read from octets, UTF-8 or not, has at most twice their number. -/
theorem C97_octets (E : Env) (b : Bytes) (c : Cal) (h : decodeDoc E (runes b) = .ok c) : calSize c ≤ 2 * b.length := by
  have h1 := C97_at_most_twice E _ c h
  have h2 := runesF_size b.length b
  simp only [runes] at *
  omega

/-! ## The factor two is reached -/

/-- "^a", so many times. -/
def caretsText : Nat → Str
  | 0 => []
  | n + 1 => '^' :: 'a' :: caretsText n

/-- A document with this text as a parameter. -/
def caretsLines (d : Str) : List Line := headLines ++ [⟨c!"BEGIN", [], c!"VTODO"⟩, ⟨c!"DTSTAMP", [], c!"20210721T150000Z"⟩, ⟨c!"UID", [], c!"1"⟩,
  ⟨c!"SUMMARY", [(c!"LANGUAGE", [⟨false, d⟩])], c!"x"⟩, ⟨c!"END", [], c!"VTODO"⟩]

theorem caretsText_length (n : Nat) : (caretsText n).length = 2 * n := by
  induction n with
  | zero => rfl
  | succ n ih => simp only [caretsText, List.length_cons, ih]; omega

theorem caretsText_decoded : ∀ (n f : Nat) (p : Str), n < f → (decode6868F f p (caretsText n)).length = p.length + 4 * n
  | 0, f + 1, p, _ => by simp [decode6868F, caretsText]
  | n + 1, f + 1, p, h => by
    have := caretsText_decoded n f ['^', 'a'] (by omega)
    simp [decode6868F, caretsText, this]
    omega

theorem caretsText_mem (n : Nat) : ∀ c ∈ caretsText n, c = '^' ∨ c = 'a' := by
  induction n with
  | zero => simp [caretsText]
  | succ n ih =>
    intro c hc
    simp only [caretsText, List.mem_cons] at hc
    rcases hc with rfl | rfl | hc
    · exact .inl rfl
    · exact .inr rfl
    · exact ih c hc

theorem caretsLines_ok (n : Nat) : ∀ l ∈ caretsLines (caretsText n), LineOk l := by
  intro l hl
  have h0 : ∀ l ∈ caretsLines [], LineOk l :=
    (tokenise_front (s := (caretsLines []).flatMap printLine) (pre := caretsLines []) (r := []) (by decide +kernel)).1
  have hs : LineOk ⟨c!"SUMMARY", [(c!"LANGUAGE", [⟨false, []⟩])], c!"x"⟩ := h0 _ (by simp [caretsLines])
  have hs' : LineOk ⟨c!"SUMMARY", [(c!"LANGUAGE", [⟨false, caretsText n⟩])], c!"x"⟩ := by
    refine ⟨hs.name_ne, hs.name, ?_, ?_, ?_, hs.value⟩
    · intro p hp
      simp only [List.mem_singleton] at hp; subst hp
      exact hs.pname (c!"LANGUAGE", [⟨false, []⟩]) (List.mem_singleton.2 rfl)
    · intro p hp
      simp only [List.mem_singleton] at hp; subst hp
      simp
    · intro p hp v hv c hc
      simp only [List.mem_singleton] at hp; subst hp
      simp only [List.mem_singleton] at hv; subst hv
      rcases caretsText_mem n c hc with rfl | rfl
      · exact ⟨by unfold NoCtl; decide, by decide, fun _ => by decide⟩
      · exact ⟨by unfold NoCtl; decide, by decide, fun _ => by decide⟩
  simp only [caretsLines, List.mem_append, List.mem_cons, List.not_mem_nil, or_false] at hl
  rcases hl with hl | rfl | rfl | rfl | rfl | rfl
  · exact headLines_lines l hl
  all_goals first
    | exact hs'
    | exact h0 _ (by simp [caretsLines])

theorem sumSize_mem {α : Type} (w : α → Nat) {x : α} {l : List α} (hx : x ∈ l) : ∀ {ls : List (List α)} {i : Nat}, ls[i]? = some l → w x ≤ sumSize w ls
  | [], _, h => nomatch h
  | m :: ls, 0, h => by
    cases h
    have h1 : ∀ l : List α, x ∈ l → w x ≤ (l.map w).sum := by
      intro l
      induction l with
      | nil => intro h; cases h
      | cons y l ih =>
        intro h
        simp only [List.map_cons, List.sum_cons]
        cases h with
        | head => omega
        | tail _ h => have := ih h; omega
    have := h1 _ hx
    simp only [sumSize, List.map_cons, List.sum_cons]; omega
  | m :: ls, i + 1, h => by
    have := sumSize_mem w hx (ls := ls) (i := i) h
    simp only [sumSize, List.map_cons, List.sum_cons] at *; omega

theorem caretsLines_reads (E : Env) (d : Str) : ∃ c, decodeStream E ⟨⟨c!"BEGIN", [], c!"VCALENDAR"⟩ :: caretsLines d ++ [⟨c!"END", [], c!"VCALENDAR"⟩], .done⟩ = .ok c ∧
    (decode6868 d).length ≤ calSize c := by
  have h : ∃ c t, decodeStream E ⟨⟨c!"BEGIN", [], c!"VCALENDAR"⟩ :: caretsLines d ++ [⟨c!"END", [], c!"VCALENDAR"⟩], .done⟩ = .ok c ∧
      c.subs[1]? = some [t] ∧ t.fields[16]? = some [.fields [none, some (.str (decode6868 d))] [some (.text c!"x")]] := ⟨_, _, rfl, rfl, rfl⟩
  obtain ⟨c, t, h1, h2, h3⟩ := h
  refine ⟨c, h1, ?_⟩
  have h4 := sumSize_mem compSize (List.mem_singleton.2 rfl) h2
  have h5 := sumSize_mem propSize (List.mem_singleton.2 rfl) h3
  simp only [calSize, compSize, sectSize, propSize, paramsSize, paramSize, valsSize, valSize] at *
  omega

/-- C97.  The factor two can not be made smaller: for every length there is a document longer by 150 characters than it, whose calendar has twice the size. -/
theorem C97_twice_is_reached (E : Env) (n : Nat) : ∃ s c, decodeDoc E s = .ok c ∧ s.length ≤ 2 * n + 150 ∧ 2 * (2 * n) ≤ calSize c := by
  obtain ⟨c, h1, h2⟩ := caretsLines_reads E (caretsText n)
  refine ⟨_, c, (calText_stream (caretsLines_ok n)).trans h1, ?_, ?_⟩
  · simp [calText, caretsLines, headLines, printLine, printBare, printParams, printVals, printVal, caretsText_length]
  · rw [decode6868, caretsText_decoded n _ [] (by rw [caretsText_length]; omega)] at h2
    simp at h2; omega

/-! ## Concrete cases -/

/-- The size of the calendar of a document that is accepted. -/
def sizeOfDoc (s : Str) : Option Nat :=
  match decodeDoc sampleEnv s with
  | .ok c => some (calSize c)
  | _ => none

/-- A document with its calendar, larger than the document by the carets. -/
example : sizeOfDoc (calText (caretsLines (caretsText 100))) = some 414 ∧ (calText (caretsLines (caretsText 100))).length = 333 := by
  decide +kernel

/-- A document without carets. -/
example : sizeOfDoc (calText headLines) = some 7 ∧ (calText headLines).length = 55 ∧ '^' ∉ calText headLines := by
  decide +kernel

end Ics.Props
