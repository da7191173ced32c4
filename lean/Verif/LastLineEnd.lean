import Verif.FailingLemmas
/-!
# Lemmas: the line end behind the last line

A text that ends with the line END:VCALENDAR, of which no shorter part is read as a calendar.
-/

namespace Ics

open Spec

/-- What `Decode` accepts: the lines of the calendar, with what follows; or without the line end of the last. -/
theorem accepted_lines {E : Env} {p : Str} {c : Cal} (h : decodeDoc E p = .ok c) : ∃ ls e, (∀ l ∈ ls, LineOk l) ∧ LineOk e ∧ e.value = tabCalendar.name ∧
    (∀ t r, decodeStream E ⟨ls ++ e :: r, t⟩ = .ok c) ∧ ((∃ q, p = ls.flatMap printLine ++ printBare e ++ ['\r', '\n'] ++ q) ∨ p = ls.flatMap printLine ++ printBare e) := by
  obtain ⟨b, k, e, r, h1, _, _, _, h5, h6⟩ := decodeStream_local h
  have h1' : (tokenise p).lines = (b :: k ++ [e]) ++ r := by rw [h1]; simp
  obtain ⟨h7, h8⟩ := tokenise_front h1'
  refine ⟨b :: k, e, fun l hl => h7 l (List.mem_append_left _ hl), h7 e (by simp), h5, h6, ?_⟩
  have hx : (b :: k ++ [e]).flatMap printLine = (b :: k).flatMap printLine ++ printBare e ++ ['\r', '\n'] := by
    rw [List.flatMap_append]
    simp [printLine]
  rw [hx] at h8
  rcases h8 with ⟨q, h8⟩ | h8
  · exact .inl ⟨q, h8⟩
  · exact .inr (List.append_cancel_right h8)

theorem parseValue_whole {l : Line} (h : LineOk l) : parseValue l.value = .ok (l.value, []) := by
  have h1 : ∀ x ∈ l.value, (!isCtl32 x) = true := by
    intro x hx
    rw [(isCtl32_iff x).2 (h.value x hx)]
    rfl
  obtain ⟨t1, t2⟩ := takeWhile_stop (fun c => !isCtl32 c) l.value [] h1 (by simp)
  rw [List.append_nil] at t1 t2
  unfold parseValue
  rw [t1, t2]

/-- The lines without the last line end are read as well. -/
theorem decodeDoc_bare {E : Env} {ls : List Line} {e : Line} {c : Cal} (hl : ∀ l ∈ ls, LineOk l) (he : LineOk e) (h : ∀ t r, decodeStream E ⟨ls ++ e :: r, t⟩ = .ok c) :
    decodeDoc E (ls.flatMap printLine ++ printBare e) = .ok c := by
  unfold decodeDoc
  rw [tokenise_prints _ hl]
  have h1 := parseLine_goes_on he []
  rw [List.append_nil, List.append_nil, parseValue_whole he] at h1
  dsimp only at h1
  rw [tokenise_line h1]
  exact h _ _

theorem printBare_last {e : Line} (h : e.value = tabCalendar.name) : ∃ x, printBare e = x ++ ['R'] := by
  refine ⟨e.name ++ printParams e.params ++ ':' :: c!"VCALENDA", ?_⟩
  unfold printBare
  rw [h]
  simp [tabCalendar]

/-- Of `a ++ "R\r\n"`, if no part that ends before the R is read: the whole, if it is read, is read without its line end, and not without half of it. -/
theorem last_line_end {E : Env} {a : Str} (hno : ∀ p c, p <+: a → decodeDoc E p ≠ .ok c) :
    (∀ c, decodeDoc E (a ++ ['R'] ++ ['\r']) ≠ .ok c) ∧ ∀ c, decodeDoc E (a ++ ['R'] ++ ['\r', '\n']) = .ok c → decodeDoc E (a ++ ['R']) = .ok c := by
  constructor
  · intro c h
    obtain ⟨ls, e, h1, h2, h3, h4, ⟨q, h5⟩ | h5⟩ := accepted_lines h
    · have h6 : ls.flatMap printLine ++ printBare e <+: a ++ ['R'] ++ ['\r'] := ⟨['\r', '\n'] ++ q, by rw [h5]; simp⟩
      have h7 := congrArg List.length h5
      simp only [List.length_append, List.length_cons, List.length_nil] at h7
      rw [List.append_assoc] at h6
      exact hno _ c (List.prefix_of_prefix_length_le h6 (List.prefix_append _ _) (by simp only [List.length_append]; omega)) (decodeDoc_bare h1 h2 h4)
    · obtain ⟨x, hx⟩ := printBare_last h3
      rw [hx, ← List.append_assoc] at h5
      have := congrArg List.getLast? h5
      rw [List.getLast?_concat, List.getLast?_concat] at this
      cases this
  · intro c h
    obtain ⟨ls, e, h1, h2, h3, h4, ⟨q, h5⟩ | h5⟩ := accepted_lines h
    · have h6 : ls.flatMap printLine ++ printBare e <+: a ++ ['R'] ++ ['\r', '\n'] := ⟨['\r', '\n'] ++ q, by rw [h5]; simp⟩
      have h7 := congrArg List.length h5
      simp only [List.length_append, List.length_cons, List.length_nil] at h7
      have h8 := decodeDoc_bare h1 h2 h4
      by_cases hy : (ls.flatMap printLine ++ printBare e).length = (a ++ ['R']).length
      · have h9 := List.prefix_of_prefix_length_le h6 (List.prefix_append (a ++ ['R']) _) (by omega)
        rw [h9.eq_of_length hy] at h8
        exact h8
      · simp only [List.length_append, List.length_cons, List.length_nil] at hy
        rw [List.append_assoc] at h6
        exact absurd h8 (hno _ c (List.prefix_of_prefix_length_le h6 (List.prefix_append _ _) (by simp only [List.length_append]; omega)))
    · obtain ⟨x, hx⟩ := printBare_last h3
      rw [hx, ← List.append_assoc, show a ++ ['R'] ++ ['\r', '\n'] = (a ++ ['R'] ++ ['\r']) ++ ['\n'] from by simp] at h5
      have := congrArg List.getLast? h5
      rw [List.getLast?_concat, List.getLast?_concat] at this
      cases this

end Ics
