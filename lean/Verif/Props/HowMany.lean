import Verif.Props.Emit
import Verif.Props.Output
import Verif.FewWrites
import Verif.AtLeast
/-!
# C118: how often the caller's writer is called

The encoder makes the writes `qs` on the folder; those that are given nothing come to nothing.  `.log` is what each call of the caller's writer was given, in order.
-/

namespace Ics.Props

open Spec

/-- C118.  For any writes there is a number `m` of folds such that, whatever the writer does, it is called at most once for each write that is given something and twice for each fold; one that
returns no error is called at least once for each of both, and is given three octets for each fold besides the text. -/
theorem C118_calls (qs : List Bytes) : ∃ m, ∀ w : Writer,
    let f := ({} : WFolder).writes w qs
    f.log.length ≤ (qs.filter (· ≠ [])).length + 2 * m ∧
      (f.err = none → f.log.flatten.length = qs.flatten.length + 3 * m ∧ (qs.filter (· ≠ [])).length + m ≤ f.log.length) := by
  obtain ⟨m, new, h1, _, h3, h4, h5⟩ := writes_count qs {} rfl
  have h1 : (({} : WFolder).writes taker qs).log = new := h1
  refine ⟨m, fun w => ?_⟩
  rcases SameCalls.writes (w := w) qs {} {} rfl rfl rfl rfl with ⟨_, _, h⟩ | ⟨he, h⟩
  · rw [h1] at h
    dsimp only
    rw [h]
    exact ⟨h5, fun _ => ⟨h3, h4⟩⟩
  · rw [h1] at h
    exact ⟨Nat.le_trans h.length_le h5, fun h => absurd h he⟩

theorem taker_keeps : KeepsContract taker := fun _ _ h => absurd h (Nat.lt_irrefl _)

theorem given_some (ss : List Str) : ((ss.map utf8).filter (· ≠ [])).length = (ss.filter (· ≠ [])).length := by
  induction ss with
  | nil => rfl
  | cons s ss ih =>
    by_cases h : s = []
    · subst h
      rw [List.map_cons, List.filter_cons_of_neg (by simp [utf8]), List.filter_cons_of_neg (by simp), ih]
    · have h2 : utf8 s ≠ [] := by
        obtain ⟨c, s, rfl⟩ := List.exists_cons_of_ne_nil h
        intro h3
        have h4 := congrArg List.length h3
        have hc := encodeChar_length c
        simp only [utf8, List.flatMap_cons, List.length_append, List.length_nil] at h4
        omega
      rw [List.map_cons, List.filter_cons_of_pos (by simpa using h2), List.filter_cons_of_pos (by simpa using h), List.length_cons, List.length_cons, ih]

/-- C118.  There is at most one fold for every 71 octets of the text. -/
theorem C118_text (ss : List Str) : ∃ m, 71 * m ≤ (utf8 ss.flatten).length ∧ ∀ w : Writer,
    let f := ({} : WFolder).writes w (ss.map utf8)
    f.log.length ≤ (ss.filter (· ≠ [])).length + 2 * m ∧
      (f.err = none → f.log.flatten.length = (utf8 ss.flatten).length + 3 * m ∧ (ss.filter (· ≠ [])).length + m ≤ f.log.length) := by
  obtain ⟨m, hm⟩ := C118_calls (ss.map utf8)
  have hl : (ss.map utf8).flatten = utf8 ss.flatten := by
    clear hm
    induction ss with
    | nil => rfl
    | cons s ss ih => simp only [List.map_cons, List.flatten_cons, ih, utf8, List.flatMap_append]
  rw [given_some, hl] at hm
  refine ⟨m, ?_, hm⟩
  have h1 := (taker_writes (ss.map utf8) {} rfl).1
  have h2 := (hm taker).2 h1 |>.1
  rw [← C101_all_accepted taker taker_keeps _ h1] at h2
  have h3 : (({} : WFolder).writes taker (ss.map utf8)).out = (({} : Folder).writes okSink (ss.map utf8)).out :=
    congrArg Folder.out (C101_same_folder okSink (ss.map utf8))
  rw [h3] at h2
  have h4 := C99_folding okSink ss
  omega

/-- C118 for `Encode`: besides one call for each write of the `encode` methods, there are at most two for every 71 octets of the text; a call of `Encode` that returns nil has made one for each
write at least. -/
theorem C118_encode (E : Env) (w : Writer) (c : Cal) (e : Option EncErr) (f : WFolder) (h : encodeCalls E w c = .returned e f) :
    71 * f.log.length ≤ 71 * ((c.said E).calls.filter (· ≠ [])).length + 2 * (utf8 (c.said E).calls.flatten).length ∧
      (e = none → ((c.said E).calls.filter (· ≠ [])).length ≤ f.log.length) := by
  unfold encodeCalls at h
  split at h
  · cases h; exact ⟨Nat.zero_le _, nofun⟩
  · cases h
  · dsimp only at h
    split at h
    · cases h
      obtain ⟨m, h1, h2⟩ := C118_text (c.said E).calls
      obtain ⟨h3, h4⟩ := h2 w
      refine ⟨by omega, fun he => ?_⟩
      have := (h4 (by simpa using he)).2
      omega
    · cases h

/-- C118.  So there are at most 73 calls for every 71 octets of the text. -/
theorem C118_encode_text (E : Env) (w : Writer) (c : Cal) (e : Option EncErr) (f : WFolder) (h : encodeCalls E w c = .returned e f) :
    71 * f.log.length ≤ 73 * (utf8 (c.said E).calls.flatten).length := by
  have h1 := (C118_encode E w c e f h).1
  have h2 : ∀ ss : List Str, (ss.filter (· ≠ [])).length ≤ (utf8 ss.flatten).length := by
    intro ss
    induction ss with
    | nil => exact Nat.zero_le _
    | cons s ss ih =>
      have h3 : (utf8 (s :: ss).flatten).length = (utf8 s).length + (utf8 ss.flatten).length := by simp only [List.flatten_cons, utf8, List.flatMap_append, List.length_append]
      rw [h3]
      by_cases hs : s = []
      · rw [List.filter_cons_of_neg (by simpa using hs)]; omega
      · rw [List.filter_cons_of_pos (by simpa using hs), List.length_cons]
        obtain ⟨c, s, rfl⟩ := List.exists_cons_of_ne_nil hs
        have hc := encodeChar_length c
        have h4 : (utf8 (c :: s)).length = (encodeChar c).length + (utf8 s).length := by simp only [utf8, List.flatMap_cons, List.length_append]
        omega
  have := h2 (c.said E).calls
  omega

/-- C118.  The text is the one of `encodeDoc`: it is the writes, one after the other. -/
theorem C118_the_text (E : Env) (c : Cal) (h : (c.said E).ends = true) : encodeDoc E c = some (c.said E).calls.flatten := by
  rw [← Cal.said_text]
  unfold Said.text
  rw [if_pos h]

/-- C118.  A call of `Encode` that returns nil has called the writer at least twice for each property of the calendar, wherever it is, and for the calendar and each of its components. -/
theorem C118_per_property (E : Env) (w : Writer) (c : Cal) (ht : c.typed = true) (f : WFolder) (h : encodeCalls E w c = .returned none f) :
    2 * (everyProp c).length + 2 + 2 * c.subs.flatten.length ≤ f.log.length := by
  have h1 := (C118_encode E w c none f h).2 rfl
  have h2 := gives_props c
  have h3 : (c.said E).ends = true := by
    unfold encodeCalls at h
    split at h
    · cases h
    · cases h
    · dsimp only at h
      split at h
      · assumption
      · cases h
  have h4 := Cal.said_given ht h3
  unfold given at h4
  omega

/-! ## Concrete cases -/

/-- 80 letters in one write: three calls, of which one is the fold. -/
example : (({} : WFolder).writes taker [utf8 c!"X:", [], utf8 (List.replicate 80 'a')]).log.map List.length = [2, 73, 3, 7] := by decide +kernel

/-- A fold at the end of a write takes one call more, not two. -/
example : (({} : WFolder).writes taker [utf8 (List.replicate 75 'a'), utf8 c!"b"]).log.map List.length = [75, 3, 1] := by decide +kernel

example : ∃ e f, encodeCalls sampleEnv taker sampleCal = .returned e f ∧ 71 * f.log.length ≤ 71 * ((sampleCal.said sampleEnv).calls.filter (· ≠ [])).length + 2 * (utf8 (sampleCal.said sampleEnv).calls.flatten).length := by
  obtain ⟨e, f, h⟩ := sampleCal_returned taker
  exact ⟨e, f, h, (C118_encode _ _ _ _ _ h).1⟩

/-- The sample has 17 properties and two components. -/
example : ∃ f, encodeCalls sampleEnv taker sampleCal = .returned none f ∧ 40 ≤ f.log.length := by
  have h : ∃ f, encodeCalls sampleEnv taker sampleCal = .returned none f := by
    unfold encodeCalls
    rw [sampleCal_valid]
    dsimp only
    rw [if_pos (by decide +kernel), (taker_writes _ {} rfl).1]
    exact ⟨_, rfl⟩
  obtain ⟨f, h⟩ := h
  have h1 := C118_per_property _ _ _ sampleCal_typed f h
  have h2 : (everyProp sampleCal).length = 17 ∧ sampleCal.subs.flatten.length = 2 := by decide +kernel
  exact ⟨f, h, by omega⟩

end Ics.Props
