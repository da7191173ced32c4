import Verif.DepthLemmas
import Verif.Props.Edits
import Verif.Props.ContentLine
/-!
# C88: how deep the calls of Decode are nested
-/

namespace Ics.Props
open Ics.Spec

/-- C88.  `decode` methods and `decodeDummy` are never nested deeper than there are BEGIN lines, and two more. -/
theorem C88_at_most (E : Env) (s : Str) : decodeDepth E s ≤ 2 + begins (tokenise s).lines := decodeDepth_le E s

/-- An event with an alarm: calls of Decode, of the calendar, the event, the alarm and its type. -/
theorem C88_sample : decodeDepth sampleEnv ((inAlarm ++ afterAlarm).flatMap printLine) = 5 ∧ begins (inAlarm ++ afterAlarm) = 4 ∧ OpenAtMost 3 (inAlarm ++ afterAlarm) ∧
    Capital (inAlarm ++ afterAlarm) ∧ ¬ OpenAtMost 2 (inAlarm ++ afterAlarm) := by decide +kernel

/-- C88.  With the names BEGIN and END in upper case it is the blocks open at one time that count: a document with no more than `n` open at any place takes
no more than `n + 1` calls, or 5 for a document with an alarm.  So a long document needs no more than a short one. -/
theorem C88_nesting (E : Env) (s : Str) (n : Nat) (hc : Capital (tokenise s).lines) (h : OpenAtMost n (tokenise s).lines) : decodeDepth E s ≤ max 5 (n + 1) := by
  have h1 := decodeDepth_peak E s hc
  have h2 := h.peak
  omega

/-- An event whose alarm ends with `end`; the lines behind that, to the END, are read by nobody. -/
def loose : List Line := [plainLine kBEGIN c!"VCALENDAR", plainLine c!"VERSION" c!"2.0", plainLine c!"PRODID" c!"x", plainLine kBEGIN c!"VEVENT",
  plainLine c!"UID" c!"1", plainLine c!"DTSTAMP" c!"20210729T014000Z", plainLine kBEGIN kVALARM, plainLine kACTION c!"NONE", plainLine c!"end" kVALARM,
  plainLine c!"end" c!"A", plainLine c!"end" c!"A", plainLine c!"end" c!"A", plainLine c!"end" c!"A", plainLine c!"end" c!"A", plainLine c!"end" c!"A",
  plainLine kEND kVALARM] ++ nest 6 ++ [plainLine kEND c!"VEVENT", plainLine kEND c!"VCALENDAR"]

/-- Without that hypothesis this is not so. -/
theorem C88_lower_case : OpenAtMost 3 (tokenise (loose.flatMap printLine)).lines ∧ decodeDepth sampleEnv (loose.flatMap printLine) = 9 ∧
    (decodeDoc sampleEnv (loose.flatMap printLine)).isOk = true := by decide +kernel

/-! ## No bound -/

theorem nest_closed (n : Nat) : Closed (nest n) := by
  induction n with
  | zero => exact .nil
  | succ n ih => exact .block (by decide) (by decide) rfl ih .nil

theorem nest_mem {n : Nat} {l : Line} (h : l ∈ nest n) : l = ⟨c!"BEGIN", [], c!"A"⟩ ∨ l = ⟨c!"END", [], c!"A"⟩ := by
  rw [nest_lines] at h
  rcases List.mem_append.1 h with h | h
  · exact .inl (List.eq_of_mem_replicate h)
  · exact .inr (List.eq_of_mem_replicate h)

theorem nest_loud (n : Nat) : Loud (nest n) := by
  refine ⟨fun l hl => ?_, fun l hl => ?_⟩
  all_goals rcases nest_mem hl with rfl | rfl <;> decide

theorem plain_ok : LineOk ⟨c!"BEGIN", [], c!"A"⟩ ∧ LineOk ⟨c!"END", [], c!"A"⟩ ∧ LineOk ⟨c!"BEGIN", [], c!"VCALENDAR"⟩ ∧ LineOk ⟨c!"VERSION", [], c!"2.0"⟩ ∧
    LineOk ⟨c!"PRODID", [], c!"x"⟩ ∧ LineOk ⟨c!"END", [], c!"VCALENDAR"⟩ := by
  have h : ∀ l ∈ (tokenise c!"BEGIN:A\r\nEND:A\r\nBEGIN:VCALENDAR\r\nVERSION:2.0\r\nPRODID:x\r\nEND:VCALENDAR\r\n").lines, LineOk l := C11_document _
  rw [show (tokenise c!"BEGIN:A\r\nEND:A\r\nBEGIN:VCALENDAR\r\nVERSION:2.0\r\nPRODID:x\r\nEND:VCALENDAR\r\n").lines = [⟨c!"BEGIN", [], c!"A"⟩, ⟨c!"END", [], c!"A"⟩,
    ⟨c!"BEGIN", [], c!"VCALENDAR"⟩, ⟨c!"VERSION", [], c!"2.0"⟩, ⟨c!"PRODID", [], c!"x"⟩, ⟨c!"END", [], c!"VCALENDAR"⟩] by decide +kernel] at h
  exact ⟨h _ (by simp), h _ (by simp), h _ (by simp), h _ (by simp), h _ (by simp), h _ (by simp)⟩

theorem deep_ok (n : Nat) : ∀ l ∈ deep n, LineOk l := by
  intro l hl
  obtain ⟨h1, h2, h3, h4, h5, h6⟩ := plain_ok
  rcases List.mem_cons.1 hl with rfl | hl
  · exact h3
  · rcases List.mem_append.1 hl with hl | hl
    · rcases nest_mem hl with rfl | rfl
      · exact h1
      · exact h2
    · simp only [List.mem_cons, List.not_mem_nil, or_false] at hl
      rcases hl with rfl | rfl | rfl
      · exact h4
      · exact h5
      · exact h6

theorem deep_tokens (n : Nat) : tokenise ((deep n).flatMap printLine) = ⟨deep n, .done⟩ := by
  have := tokenise_prints (deep n) (deep_ok n) []
  rw [List.append_nil, tokenise_nil, List.append_nil] at this
  exact this

theorem nest_length (n : Nat) : ((nest n).flatMap printLine).length = 16 * n := by
  induction n with
  | zero => rfl
  | succ n ih =>
    show ((⟨c!"BEGIN", [], c!"A"⟩ :: nest n ++ [⟨c!"END", [], c!"A"⟩] : List Line).flatMap printLine).length = _
    rw [List.cons_append, List.flatMap_cons, List.flatMap_append, List.length_append, List.length_append, ih,
      show (printLine ⟨c!"BEGIN", [], c!"A"⟩).length = 9 by decide, show (List.flatMap printLine [⟨c!"END", [], c!"A"⟩]).length = 7 by decide]
    omega

/-- C88.  No number of calls is enough for every document Decode accepts: for any `n` there is one of 55 + 16 `n` characters, accepted as the empty calendar,
for which `n + 2` calls are open at one time. -/
theorem C88_unbounded (n : Nat) : ∃ s : Str, s.length = 55 + 16 * n ∧ n + 2 ≤ decodeDepth sampleEnv s ∧
    decodeDoc sampleEnv s = decodeDoc sampleEnv c!"BEGIN:VCALENDAR\r\nVERSION:2.0\r\nPRODID:x\r\nEND:VCALENDAR\r\n" ∧ (decodeDoc sampleEnv s).isOk = true := by
  refine ⟨(deep n).flatMap printLine, ?_, ?_, ?_⟩
  · show ((⟨c!"BEGIN", [], c!"VCALENDAR"⟩ :: nest n ++ [⟨c!"VERSION", [], c!"2.0"⟩, ⟨c!"PRODID", [], c!"x"⟩, ⟨c!"END", [], c!"VCALENDAR"⟩] : List Line).flatMap printLine).length = _
    rw [List.cons_append, List.flatMap_cons, List.flatMap_append, List.length_append, List.length_append, nest_length,
      show (printLine ⟨c!"BEGIN", [], c!"VCALENDAR"⟩).length = 17 by decide,
      show (List.flatMap printLine [⟨c!"VERSION", [], c!"2.0"⟩, ⟨c!"PRODID", [], c!"x"⟩, ⟨c!"END", [], c!"VCALENDAR"⟩]).length = 38 by decide]
    omega
  · unfold decodeDepth
    rw [deep_tokens]
    show n + 2 ≤ 1 + (if upper c!"BEGIN" = kBEGIN ∧ upper c!"VCALENDAR" = tabCalendar.name then _ else _)
    rw [if_pos (by decide)]
    cases n with
    | zero => unfold Tab.depth; omega
    | succ n =>
      have e : nest (n + 1) ++ [⟨c!"VERSION", [], c!"2.0"⟩, ⟨c!"PRODID", [], c!"x"⟩, ⟨c!"END", [], c!"VCALENDAR"⟩] = ⟨c!"BEGIN", [], c!"A"⟩ ::
          (List.replicate n ⟨c!"BEGIN", [], c!"A"⟩ ++ (List.replicate (n + 1) ⟨c!"END", [], c!"A"⟩ ++
          [⟨c!"VERSION", [], c!"2.0"⟩, ⟨c!"PRODID", [], c!"x"⟩, ⟨c!"END", [], c!"VCALENDAR"⟩])) := by
        rw [nest_lines, List.replicate_succ]; simp
      have h1 : ∀ ls : List Line, ls = nest (n + 1) ++ [⟨c!"VERSION", [], c!"2.0"⟩, ⟨c!"PRODID", [], c!"x"⟩, ⟨c!"END", [], c!"VCALENDAR"⟩] →
          n + 2 ≤ tabCalendar.depth sampleEnv (compDecode sampleEnv .done) (compDepth sampleEnv .done) .done ls := by
        intro ls hls
        rw [hls, e]
        refine Nat.le_trans ?_ (Tab.depth_unknown (l := ⟨c!"BEGIN", [], c!"A"⟩) (by decide) (by decide))
        have := dummyDepth_nest (t := .done) (List.replicate (n + 1) ⟨c!"END", [], c!"A"⟩ ++
          [⟨c!"VERSION", [], c!"2.0"⟩, ⟨c!"PRODID", [], c!"x"⟩, ⟨c!"END", [], c!"VCALENDAR"⟩]) n
          ((List.replicate n (⟨c!"BEGIN", [], c!"A"⟩ : Line) ++ (List.replicate (n + 1) (⟨c!"END", [], c!"A"⟩ : Line) ++
          ([⟨c!"VERSION", [], c!"2.0"⟩, ⟨c!"PRODID", [], c!"x"⟩, ⟨c!"END", [], c!"VCALENDAR"⟩] : List Line))).length + 1) (upper c!"A") (by simp; omega)
        exact Nat.le_trans (show n + 2 ≤ 1 + (n + 1) by omega) (Nat.add_le_add_left this 1)
      have := h1 _ rfl
      exact Nat.le_trans (by omega) (Nat.add_le_add_left this 1)
  · have h : decodeDoc sampleEnv ((deep n).flatMap printLine) = decodeDoc sampleEnv c!"BEGIN:VCALENDAR\r\nVERSION:2.0\r\nPRODID:x\r\nEND:VCALENDAR\r\n" := by
      cases n with
      | zero => rfl
      | succ n =>
        refine C41_block_partial sampleEnv _ _ .cal [⟨c!"BEGIN", [], c!"VCALENDAR"⟩] (nest n) [⟨c!"VERSION", [], c!"2.0"⟩, ⟨c!"PRODID", [], c!"x"⟩, ⟨c!"END", [], c!"VCALENDAR"⟩]
          ⟨c!"BEGIN", [], c!"A"⟩ ⟨c!"END", [], c!"A"⟩ .done (.cal (by decide) (by decide)) (fun k e => by cases e) (by decide) (by decide) rfl (nest_closed n) (nest_loud (n + 1))
          (by decide) (by decide +kernel) ?_
        rw [deep_tokens]
        simp [deep, nest]
    exact ⟨h, by rw [h]; decide +kernel⟩

end Ics.Props
