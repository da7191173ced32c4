import Verif.OutputLemmas
import Verif.FoldSizeLemmas
import Verif.OutsideLemmas
import Verif.Props.Cases
import Verif.Props.Folding
/-!
# Property C99: the size of what Encode writes
-/

namespace Ics.Props

open Ics Spec

/-- C99.  The text is at most 240 times as long as the calendar is large, and longer than that only by the texts that come from the Go library. -/
theorem C99_text (E : Env) (c : Cal) (t : Str) (ht : c.typed = true) (hf : ∀ p ∈ everyProp c, PropFits E p) (h : encodeDoc E c = some t) :
    t.length ≤ 240 * calSize c + calOutside E c := encodeDoc_length ht hf h

/-- C99.  Folding adds at most three octets to every 71, however the text is divided into writes and whether or not the writer fails. -/
theorem C99_folding (W : Sink) (ss : List Str) : 71 * (({} : Folder).writes W (ss.map utf8)).out.length ≤ 74 * (utf8 ss.flatten).length := by
  have h1 : 71 * (({} : Folder).writes okSink (ss.map utf8)).out.length ≤ 74 * (utf8 ss.flatten).length := by
    obtain ⟨k, hk⟩ := writes_ok ss {} rfl
    rw [hk]
    simpa using foldStr_size ss.flatten 0
  rcases C05_failing_writer W (ss.map utf8) with ⟨_, h2, _⟩ | ⟨_, _, _, _, _, _, h2⟩
  · rw [h2]; exact h1
  · have := h2.length_le; omega

/-- C99.  What reaches the writer, which may fail, is bounded in the same way. -/
theorem C99_octets (E : Env) (W : Sink) (cut : Str → List Str) (hcut : ∀ s, (cut s).flatten = s) (c : Cal) (o : EncOut) (ht : c.typed = true)
    (hf : ∀ p ∈ everyProp c, PropFits E p) (h : encode E W cut c = .done o) : o.f.out.length ≤ 5 * (240 * calSize c + calOutside E c) := by
  unfold encode at h
  split at h
  · cases h; exact Nat.zero_le _
  · cases h
  · split at h
    · cases h
    · rename_i t e
      cases h
      have h1 := C99_folding W (cut t)
      have h2 := utf8_length t
      have h3 := C99_text E c t ht hf e
      rw [hcut] at h1
      show (({} : Folder).writes W ((cut t).map utf8)).out.length ≤ _
      omega

/-- C99.  A document that was read is written again with a length that is a fixed multiple of what it had, if the Go library does not lengthen addresses by more than a factor,
whatever the document holds. -/
theorem C99_read_and_written (E : Env) (U F : Nat) (hE : Moderate E U F) (s t : Str) (c : Cal) (h : decodeDoc E s = .ok c) (hw : encodeDoc E c = some t) :
    t.length ≤ (U + 2 * F + 483) * s.length := by
  have h1 := C99_text E c t (C45_typed E s c h) (decodeDoc_fits hE h) hw
  have h2 := C97_at_most_twice E s c h
  have h3 := decodeDoc_outside hE h
  have h4 : (U + 2 * F + 483) * s.length = (U + 2 * F + 3) * s.length + 480 * s.length := by rw [← Nat.add_mul]
  omega

/-! ## Concrete cases -/

theorem sampleEnv_moderate : Moderate sampleEnv 1 0 where
  url s u h := by
    simp only [sampleEnv] at *
    split at h
    · cases h
    · cases h; simp
  float _ := Nat.le_refl _
  zone r t := by simp only [sampleEnv]; split <;> decide
  here _ := show (0 : Int).natAbs ≤ 2 ^ 31 by decide

/-- The calendar read from the sample document with alarms, a rule and a zoned time: it is written, within the bounds. -/
example : ∃ t, encodeDoc sampleEnv sampleRead = some t ∧ 700 ≤ t.length ∧ t.length ≤ 240 * calSize sampleRead + calOutside sampleEnv sampleRead ∧
    t.length ≤ (1 + 2 * 0 + 483) * sampleDoc.length := by
  have h : ∃ t, encodeDoc sampleEnv sampleRead = some t ∧ 700 ≤ t.length := by
    have : (encodeDoc sampleEnv sampleRead).any (fun t => decide (700 ≤ t.length)) = true := by decide +kernel
    obtain ⟨t, h1, h2⟩ := (Option.any_eq_true _ _).1 this
    exact ⟨t, h1, of_decide_eq_true h2⟩
  obtain ⟨t, h1, h2⟩ := h
  exact ⟨t, h1, h2, C99_text sampleEnv sampleRead t (C45_typed _ _ _ sampleRead_ok) (decodeDoc_fits sampleEnv_moderate sampleRead_ok) h1,
    C99_read_and_written sampleEnv 1 0 sampleEnv_moderate sampleDoc t sampleRead sampleRead_ok h1⟩

/-- The octets written, if `Encode` returns. -/
def doneSize : Run EncOut → Option Nat
  | .done o => some o.f.out.length
  | _ => none

/-- A writer that fails at the third call. -/
example : ∃ o, encode sampleEnv (fun k => if k = 2 then some (5, 7) else none) (fun s => [s]) sampleRead = .done o ∧ o.f.out.length = 296 ∧
    o.f.out.length ≤ 5 * (240 * calSize sampleRead + calOutside sampleEnv sampleRead) := by
  have h : ∃ o, encode sampleEnv (fun k => if k = 2 then some (5, 7) else none) (fun s => [s]) sampleRead = .done o ∧ o.f.out.length = 296 := by
    have h : ∀ x : Run EncOut, doneSize x = some 296 → ∃ o, x = .done o ∧ o.f.out.length = 296 := by
      intro x h
      cases x with
      | done o => exact ⟨o, rfl, Option.some.inj h⟩
      | panic => cases h
      | running => cases h
    exact h _ (by decide +kernel)
  obtain ⟨o, h1, h2⟩ := h
  exact ⟨o, h1, h2, C99_octets sampleEnv _ _ (fun s => by simp) sampleRead o (C45_typed _ _ _ sampleRead_ok) (decodeDoc_fits sampleEnv_moderate sampleRead_ok) h1⟩

/-- A line of 300 octets is folded four times. -/
example : (({} : Folder).writes okSink ([List.replicate 300 'a'].map utf8)).out.length = 312 ∧ 71 * 312 ≤ 74 * 300 := by decide +kernel

end Ics.Props
