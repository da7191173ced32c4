import Verif.Props.RetryOctets
/-!
# C121: What is written into a file behind a calendar

C14 is about the text behind the last line.  In the file the next octet matters as well: a SPACE makes a fold of the line end.
-/

namespace Ics.Props

open Ics Spec

/-- The claim in full: whatever is written behind a calendar, the calendar is read. -/
def C121_claim : Prop := ∀ (E E' : Env) (c c' : Cal) (s : Str) (r : Bytes), c.typed = true → c.valid = .ok () → Unbroken E c → encodeDoc E c = some s → decodeDoc E' s = .ok c' →
  decodeDoc E' (runes (removeFolds (utf8 (foldStr 0 s) ++ r))) = .ok c'

/-- Behind text that is read, and ends in a line end, everything is ignored. -/
theorem rest_any (E : Env) (a : Str) (c : Cal) (h : decodeDoc E (a ++ crlf) = .ok c) (q : Str) : decodeDoc E (a ++ crlf ++ q) = .ok c := by
  obtain ⟨b, k, e, _, _, _, hev, hs, hq⟩ := C14_rest_ignored E _ c h
  rcases hs with ⟨q', hs⟩ | hs
  · rw [hs, List.append_assoc]
    exact hq _
  · exfalso
    rw [List.flatMap_append, show [e].flatMap printLine = printBare e ++ crlf from by simp [printLine, crlf], ← List.append_assoc] at hs
    have h1 := List.append_inj_left' hs rfl
    -- a line end, and the last letter of VCALENDAR
    have h2 := congrArg List.getLast? h1
    rw [printBare, hev] at h2
    simp [crlf, List.getLast?_append] at h2

/-- The octets of a written calendar, its folds removed, with something behind that does not begin with SPACE. -/
theorem appended_text {E : Env} {c : Cal} (ht : c.typed = true) (hv : c.valid = .ok ()) (hu : Unbroken E c) {s : Str} (hs : encodeDoc E c = some s) :
    ∃ a, s = a ++ crlf ∧ (∀ r : Bytes, (∀ r', r ≠ 32 :: r') → removeFolds (utf8 (foldStr 0 s) ++ r) = utf8 s ++ removeFolds r) ∧
      ∀ r' : Bytes, removeFolds (utf8 (foldStr 0 s) ++ 32 :: r') = utf8 a ++ removeFolds r' := by
  obtain ⟨e1, _, _⟩ := written_lines ht hv hs
  obtain ⟨a, ha⟩ := calLines_end E c
  have hsa : s = (a ++ ['R']) ++ crlf := by rw [e1, ha]; simp [crlf]
  obtain ⟨hg, hr, hq⟩ := text_of_file ht hv hu hs hsa
  obtain ⟨Y, hY⟩ := (foldStr_FoldOf s 0).tail a 'R' (by rw [hsa]; simp [crlf])
  have h82 : utf8 (foldStr 0 (a ++ ['R'])) = utf8 Y ++ [82] := by
    rw [hY, utf8_append, show utf8 ['R', '\r', '\n'] = [82] ++ [13] ++ [10] from by decide] at hg
    have h1 := List.append_inj_left' (show (utf8 Y ++ [82]) ++ [13] ++ [10] = _ from by rw [← hg]; simp) rfl
    exact (List.append_inj_left' h1 rfl).symm
  have hcut : ∀ w : Bytes, removeFolds (utf8 (foldStr 0 (a ++ ['R'])) ++ 13 :: w) = utf8 (a ++ ['R']) ++ removeFolds (13 :: w) := by
    intro w
    have h1 := fun w => removeFolds_letter (l := 82) (by decide) (by decide) w _ (utf8 Y) (Nat.le_refl _)
    rw [← hq, h82, List.append_assoc, List.cons_append, List.nil_append, h1, h1 [], removeFolds_ne _ _ (fun r h => by simp at h)]
    simp [removeFolds]
  refine ⟨a ++ ['R'], hsa, fun r hr32 => ?_, fun r' => ?_⟩
  · rw [hg]
    simp only [List.append_assoc, List.cons_append, List.nil_append]
    rw [hcut, removeFolds_ne, removeFolds_ne]
    · rw [hsa, utf8_append (a ++ ['R']) crlf, show utf8 crlf = [13, 10] from by decide]
      simp
    · intro x h
      simp at h
    · intro x h
      simp only [List.cons.injEq, true_and] at h
      exact hr32 _ h
  · rw [hg]
    simp only [List.append_assoc, List.cons_append, List.nil_append]
    rw [hcut]
    simp [removeFolds]

/-- C121.  What is written behind a calendar, not beginning with SPACE, makes no difference. -/
theorem C121_appended_partial (E E' : Env) (c c' : Cal) (ht : c.typed = true) (hv : c.valid = .ok ()) (hu : Unbroken E c) (s : Str) (hs : encodeDoc E c = some s) (h : decodeDoc E' s = .ok c')
    (r : Bytes) (hr : ∀ r', r ≠ 32 :: r') : decodeDoc E' (runes (removeFolds (utf8 (foldStr 0 s) ++ r))) = .ok c' := by
  obtain ⟨a, hsa, h1, _⟩ := appended_text ht hv hu hs
  rw [h1 r hr]
  unfold runes
  obtain ⟨f', hf'⟩ := runesF_append s (removeFolds r) (utf8 s ++ removeFolds r).length (by simp)
  rw [hf', hsa]
  rw [hsa] at h
  exact rest_any E' a c' h _

/-- C121.  With SPACE behind it, the calendar is read as if its last line went on with what follows. -/
theorem C121_space (E E' : Env) (c : Cal) (ht : c.typed = true) (hv : c.valid = .ok ()) (hu : Unbroken E c) (s : Str) (hs : encodeDoc E c = some s) (q : Str) (r : Bytes) (hr : removeFolds r = utf8 q) :
    ∃ a, s = a ++ crlf ∧ decodeDoc E' (runes (removeFolds (utf8 (foldStr 0 s) ++ 32 :: r))) = decodeDoc E' (a ++ q) := by
  obtain ⟨a, hsa, _, h1⟩ := appended_text ht hv hu hs
  exact ⟨a, hsa, by rw [h1, hr, ← utf8_append, runes_utf8]⟩

/-- C121.  Of two calendars written into one file, the first is read. -/
theorem C121_two_partial (E1 E2 E' : Env) (c d c' : Cal) (ht : c.typed = true) (hv : c.valid = .ok ()) (hu : Unbroken E1 c) (ht' : d.typed = true) (hv' : d.valid = .ok ())
    (s t : Str) (hs : encodeDoc E1 c = some s) (hs' : encodeDoc E2 d = some t) (h : decodeDoc E' s = .ok c') (b : Bytes) (hb : b <+: utf8 (foldStr 0 t)) :
    decodeDoc E' (runes (removeFolds (utf8 (foldStr 0 s) ++ b))) = .ok c' := by
  refine C121_appended_partial E1 E' c c' ht hv hu s hs h b (fun r' e => ?_)
  obtain ⟨e2, _, _⟩ := written_lines ht' hv' hs'
  obtain ⟨vd, rd, hd, -⟩ := calLines_version E2 ht' hv'
  obtain ⟨F, hF⟩ : ∃ F, utf8 (foldStr 0 t) = 66 :: F := by
    rw [e2, hd]
    exact ⟨_, rfl⟩
  rw [hF, e] at hb
  exact absurd (List.cons_prefix_cons.1 hb).1 (by decide)

/-- C121.  Read at once, the file gives the same. -/
theorem C121_file_partial (E E' : Env) (c c' c'' : Cal) (ht : c.typed = true) (hv : c.valid = .ok ()) (hu : Unbroken E c) (s : Str) (hs : encodeDoc E c = some s) (h : decodeDoc E' s = .ok c')
    (r : Bytes) (hr : ∀ r', r ≠ 32 :: r') (fin k : Nat) (hk : (utf8 (foldStr 0 s) ++ r).length ≤ k) (hk0 : 0 < k) (fuel : Nat) (hf : k + 4 ≤ fuel)
    (hd : decodeReader E' (onceReader (utf8 (foldStr 0 s) ++ r) fin) fuel [k, k] = .done (.ok c'')) : c'' = c' := by
  have h1 := C121_appended_partial E E' c c' ht hv hu s hs h r hr
  generalize utf8 (foldStr 0 s) ++ r = o at hk hd h1
  by_cases hb : hasFold o ∧ badEnd o
  · have e : onceReader o fin [k] = (o, none) := by simp [onceReader, hk]
    have := read_hangs (R := onceReader o fin) fuel k hk0 (by rw [e]; exact hb.1) (by rw [e]; exact hb.2)
    unfold decodeReader at hd
    rw [readAll, this] at hd
    cases hd
  · obtain ⟨u, hu'⟩ := C07_single_delivery_partial o fin k (fun h1 h2 => hb ⟨h1, h2⟩) hk hk0 fuel hf
    unfold decodeReader at hd
    rw [hu'] at hd
    injection hd with hd
    have := hd.symm.trans h1
    injection this

/-- SPACE and a letter behind the sample: END:VCALENDAR has become END:VCALENDARx. -/
theorem C121_full_claim_is_false : ¬ C121_claim := by
  intro h
  have := h sampleEnv sampleEnv sampleCal sampleRead sampleDoc [32, 120, 13, 10] sampleCal_typed sampleCal_valid sampleCal_unbroken (by decide +kernel) (by decide +kernel)
  revert this
  decide +kernel

/-- The sample with another calendar, or with a first part of one, or with anything else behind it. -/
example (r : Bytes) (hr : ∀ r', r ≠ 32 :: r') : decodeDoc sampleEnv (runes (removeFolds (retryOctets ++ r))) = .ok sampleRead :=
  C121_appended_partial sampleEnv sampleEnv sampleCal sampleRead sampleCal_typed sampleCal_valid sampleCal_unbroken sampleDoc (by decide +kernel) (by decide +kernel) r hr

example (n : Nat) : decodeDoc sampleEnv (runes (removeFolds (retryOctets ++ retryOctets.take n))) = .ok sampleRead :=
  C121_two_partial sampleEnv sampleEnv sampleEnv sampleCal sampleCal sampleRead sampleCal_typed sampleCal_valid sampleCal_unbroken sampleCal_typed sampleCal_valid sampleDoc sampleDoc (by decide +kernel)
    (by decide +kernel) (by decide +kernel) _ (List.take_prefix _ _)

example : decodeDoc sampleEnv (runes (removeFolds (retryOctets ++ [32, 120, 13, 10]))) = .err .invalidEnd ∧ decodeDoc sampleEnv (runes (removeFolds (retryOctets ++ [32]))) = .ok sampleRead := by
  decide +kernel

end Ics.Props
