import Verif.RunLemmas
import Verif.Props.Folding
import Verif.Props.LongLine
/-!
# How long lines can be at all: C116
-/

namespace Ics.Props

open Spec

/-- C116.  Whatever octets are written, in whatever calls, and however the caller's writer behaves: of the octets that it accepts, at most 79 are between two that are CR or LF. -/
theorem C116_runs (W : Sink) (qs : List Bytes) (x : Bytes) (hx : x <:+: (({} : Folder).writes W qs).out) (h : ∀ b ∈ x, b ≠ 13 ∧ b ≠ 10) : x.length ≤ 79 := by
  have hi : x <:+: (({} : Folder).writes okSink qs).out := by
    rcases C05_failing_writer W qs with ⟨_, h2, _⟩ | ⟨_, _, _, _, _, _, h2⟩
    · rw [← h2]; exact hx
    · exact hx.trans h2.isInfix
  obtain ⟨us, hu⟩ := allPieces_exist qs
  obtain ⟨k, hk⟩ := writes_pieces hu {} rfl
  rw [hk] at hi
  exact Nat.le_trans (longRun_infix hi h) (longRun_foldU us hu.piece 0 0 (.inl rfl))

/-- C116.  And at most 75, unless there are 177 carriage returns in a row in what is written. -/
theorem C116_runs_75 (W : Sink) (qs : List Bytes) (hc : ¬ List.replicate 177 13 <:+: qs.flatten) (x : Bytes) (hx : x <:+: (({} : Folder).writes W qs).out)
    (h : ∀ b ∈ x, b ≠ 13 ∧ b ≠ 10) : x.length ≤ 75 := by
  have hi : x <:+: (({} : Folder).writes okSink qs).out := by
    rcases C05_failing_writer W qs with ⟨_, h2, _⟩ | ⟨_, _, _, _, _, _, h2⟩
    · rw [← h2]; exact hx
    · exact hx.trans h2.isInfix
  obtain ⟨us, hu⟩ := allPieces_exist qs
  obtain ⟨k, hk⟩ := writes_pieces hu {} rfl
  rw [hk] at hi
  exact Nat.le_trans (longRun_infix hi h) (longRun_foldU_few us hu.piece 0 0 0 (by omega) (by omega) (by decide) (by omega) (by rw [hu.flatten]; exact hc))

/-- C116.  Neither number can be made smaller: 75 letters, 177 carriage returns, a character of four octets and 75 letters make a run of 79 octets; the column, kept in an octet, is
zero again behind that character. -/
theorem C116_exact : (({} : Folder).writes okSink [List.replicate 75 97 ++ List.replicate 177 13 ++ [0xf0, 0x90, 0x80, 0x80] ++ List.replicate 75 97]).out =
    List.replicate 75 97 ++ List.replicate 177 13 ++ ([0xf0, 0x90, 0x80, 0x80] ++ List.replicate 75 97) := by decide +kernel

/-- C116 for `Encode`: for every calendar, valid or not, with whatever zone names, and however it is written. -/
theorem C116_encode (E : Env) (W : Sink) (cut : Str → List Str) (c : Cal) (o : EncOut) (ho : encode E W cut c = .done o) (x : Bytes) (hx : x <:+: o.f.out)
    (h : ∀ b ∈ x, b ≠ 13 ∧ b ≠ 10) : x.length ≤ 79 := by
  unfold encode at ho
  split at ho
  · injection ho with ho
    subst ho
    obtain ⟨a, b, e⟩ := hx
    have : a ++ x ++ b = [] := e
    simp only [List.append_eq_nil_iff] at this
    rw [this.1.2]
    exact Nat.zero_le _
  · cases ho
  · split at ho
    · cases ho
    · injection ho with ho
      subst ho
      exact C116_runs W _ x hx h

/-- So a line with more than 79 octets has a CR or a LF in it, in what is written of any calendar. -/
theorem C116_long_lines (E : Env) (W : Sink) (cut : Str → List Str) (c : Cal) (o : EncOut) (ho : encode E W cut c = .done o) : ∀ l ∈ physLines o.f.out, 79 < l.length → 13 ∈ l ∨ 10 ∈ l := by
  intro l hl h79
  refine Classical.byContradiction fun hno => ?_
  have := C116_encode E W cut c o ho l (physLines_infix hl) fun b hb => ⟨fun e => hno (.inl (e ▸ hb)), fun e => hno (.inr (e ▸ hb))⟩
  omega

/-! ## Concrete cases -/

/-- The time zone of `C01_zone_name_long_line`: the line of 93 octets has its carriage returns inside, and what is between is short. -/
example : ∃ o, encode sampleEnv okSink (fun s => [s]) crZoneCal = .done o ∧ ∃ l ∈ physLines o.f.out, 79 < l.length ∧ 13 ∈ l := by
  obtain ⟨_, _, o, h1, _, l, h2, h3⟩ := C01_zone_name_long_line
  refine ⟨o, h1, l, h2, by omega, ?_⟩
  have : (match encode sampleEnv okSink (fun s => [s]) crZoneCal with | .done o => (physLines o.f.out).all (fun l => l.length ≠ 93 || l.contains 13) | _ => false) = true := by decide +kernel
  rw [h1] at this
  have := List.all_eq_true.1 this l h2
  simpa [h3] using this

/-- Lone carriage returns in a text, fewer than 177 in a row: each counts for one octet of its line. -/
example : ¬ List.replicate 177 (13 : UInt8) <:+: [List.replicate 70 97 ++ [13] ++ List.replicate 10 97].flatten ∧
    (({} : Folder).writes okSink [List.replicate 70 97 ++ [13] ++ List.replicate 10 97]).out = List.replicate 70 97 ++ [13] ++ List.replicate 4 97 ++ [13, 10, 32] ++ List.replicate 6 97 := by
  refine ⟨fun h => ?_, by decide +kernel⟩
  have := h.length_le
  rw [List.length_replicate] at this
  exact absurd this (by decide +kernel)

end Ics.Props
