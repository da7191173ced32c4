import Verif.WriterLemmas
import Verif.Props.Folding
import Verif.Props.Cases
/-!
# Property C101: how the caller's writer is called

`({} : WFolder).writes w qs` is the state after the encoder made the writes `qs` on a fresh folder over the caller's writer `w`, which may do anything; `.log` is what each of its
calls was given, `.out` the octets it accepted.
-/

namespace Ics.Props

open Ics Spec

/-- C101.  The calls: each is given something, none is made after one that returned an error, and the error of the last call is the one recorded. -/
theorem C101_calls (w : Writer) (qs : List Bytes) :
    let f := ({} : WFolder).writes w qs
    Handed w f.log f.out f.err := WFolder.Good.writes qs (f := {}) .none

/-- C101.  What the calls are given: pieces of the text, none empty, and CR LF SPACE in front of some of them.  It is the same for every writer, as far as it is called; a writer that
never returns an error is given all of it. -/
theorem C101_pieces (qs : List Bytes) : ∃ ps, HandedOut qs.flatten ps ∧ ∀ w : Writer,
    let f := ({} : WFolder).writes w qs
    f.log <+: ps ∧ (f.err = none → f.log = ps) := by
  obtain ⟨ps, h1, h2⟩ := taker_pieces qs {} rfl
  refine ⟨ps, h2, fun w => ?_⟩
  have h1 : (({} : WFolder).writes taker qs).log = ps := h1
  rcases SameCalls.writes (w := w) qs {} {} rfl rfl rfl rfl with ⟨_, _, h⟩ | ⟨he, h⟩
  · rw [h1] at h
    exact ⟨h ▸ List.prefix_refl _, fun _ => h⟩
  · rw [h1] at h
    exact ⟨h, fun h => absurd h he⟩

/-- C101.  Every call is given whole characters. -/
theorem C101_whole_characters (w : Writer) (ss : List Str) : ∀ p ∈ (({} : WFolder).writes w (ss.map utf8)).log, ∃ s : Str, s ≠ [] ∧ p = utf8 s := by
  intro p hp
  have h1 : p ∈ (({} : WFolder).writes taker (ss.map utf8)).log := by
    rcases SameCalls.writes (w := w) (ss.map utf8) {} {} rfl rfl rfl rfl with ⟨_, _, h⟩ | ⟨_, h⟩
    · exact h ▸ hp
    · exact h.subset hp
  obtain ⟨s, rfl⟩ := whole_writes ss {} rfl (by nofun) p h1
  refine ⟨s, ?_, rfl⟩
  rintro rfl
  have : ∀ {log out e}, Handed w log out e → utf8 [] ∉ log := by
    intro log out e h
    induction h with
    | none => nofun
    | call p _ hp ih =>
      intro hm
      rcases List.mem_append.1 hm with hm | hm
      · exact ih hm
      · exact hp (List.mem_singleton.1 hm).symm
  exact this (C101_calls w (ss.map utf8)) hp

/-- C101.  A writer that keeps the contract of `io.Writer` and never returns an error accepted everything it was given. -/
theorem C101_all_accepted (w : Writer) (hw : KeepsContract w) (qs : List Bytes) :
    let f := ({} : WFolder).writes w qs
    f.err = none → f.out = f.log.flatten := by
  have : ∀ {log out e}, Handed w log out e → e = none → out = log.flatten := by
    intro log out e h
    induction h with
    | none => intro _; rfl
    | @call log out p _ hp ih =>
      intro he
      have hn : p.length ≤ (w log p).1 := Nat.le_of_not_lt fun h => hw log p h he
      rw [ih rfl, List.take_of_length_le hn]
      simp
  exact this (C101_calls w qs)

/-- C101.  The folder of C01 – C05 is this one, over writers that go by the number of the call. -/
theorem C101_same_folder (W : Sink) (qs : List Bytes) : counted (({} : WFolder).writes (byCount W) qs) = ({} : Folder).writes W qs := counted_writes W qs {}

/-- C101.  And what it returns. -/
theorem C101_same_count (W : Sink) (f : WFolder) (q : Bytes) : (f.write (byCount W) q).2 = ((counted f).write W q).2 := congrArg Prod.snd (counted_write W f q)

/-- C101.  All that is handed over, one call after the other, is what C01 – C05 are about. -/
theorem C101_together (w : Writer) (qs : List Bytes) :
    let f := ({} : WFolder).writes w qs
    f.log.flatten <+: (({} : Folder).writes okSink qs).out ∧ (f.err = none → f.log.flatten = (({} : Folder).writes okSink qs).out) := by
  have h0 : (({} : WFolder).writes (byCount okSink) qs).err = none ∧ (({} : WFolder).writes (byCount okSink) qs).out = (({} : Folder).writes okSink qs).out := by
    have h := C101_same_folder okSink qs
    have h1 := congrArg Folder.err h
    refine ⟨?_, congrArg Folder.out h⟩
    rcases C05_failing_writer okSink qs with ⟨h2, _⟩ | ⟨a, e, _, _, h3, _⟩
    · exact h1.trans h2
    · cases h3
  have h1 := C101_all_accepted (byCount okSink) (fun log p h => absurd h (by simp [byCount, okSink])) qs h0.1
  obtain ⟨ps, _, h2⟩ := C101_pieces qs
  have h3 := (h2 (byCount okSink)).2 h0.1
  have h4 : ps.flatten = (({} : Folder).writes okSink qs).out := by rw [← h3, ← h1, h0.2]
  refine ⟨?_, fun he => ?_⟩
  · rw [← h4]
    obtain ⟨t, ht⟩ := (h2 w).1
    exact ⟨t.flatten, by rw [← ht, List.flatten_append]⟩
  · rw [← h4, (h2 w).2 he]

/-- C101.  `Encode`: a calendar that is refused is refused before any call; otherwise the calls are as above, and the error returned is that of the last. -/
theorem C101_encode (E : Env) (w : Writer) (cut : Str → List Str) (hcut : ∀ s, (cut s).flatten = s) (c : Cal) (e : Option EncErr) (f : WFolder)
    (h : encodeTo E w cut c = .done (e, f)) : (∃ x, c.valid = .err x ∧ e = some (.validation x) ∧ f = {}) ∨
    ∃ t, c.valid = .ok () ∧ encodeDoc E c = some t ∧ e = f.err.map .write ∧ Handed w f.log f.out f.err ∧
      (∃ ps, HandedOut (utf8 t) ps ∧ f.log <+: ps ∧ (e = none → f.log = ps)) ∧ ∀ p ∈ f.log, ∃ s : Str, s ≠ [] ∧ p = utf8 s := by
  unfold encodeTo at h
  split at h
  · rename_i x hx
    cases h
    exact .inl ⟨x, hx, rfl, rfl⟩
  · cases h
  · rename_i hv
    split at h
    · cases h
    · rename_i t ht
      cases h
      obtain ⟨ps, h1, h2⟩ := C101_pieces ((cut t).map utf8)
      have hf : ((cut t).map utf8).flatten = utf8 t := by
        have : ∀ ss : List Str, (ss.map utf8).flatten = utf8 ss.flatten := by
          intro ss
          induction ss with
          | nil => rfl
          | cons s ss ih => simp only [List.map_cons, List.flatten_cons, utf8_append, ih]
        rw [this, hcut]
      rw [hf] at h1
      refine .inr ⟨t, hv, ht, rfl, C101_calls w _, ⟨ps, h1, (h2 w).1, fun he => (h2 w).2 ?_⟩, C101_whole_characters w (cut t)⟩
      simpa using he

/-- C101.  `Encode` of the other properties is this one, over writers that go by the number of the call. -/
theorem C101_same_encode (E : Env) (W : Sink) (cut : Str → List Str) (c : Cal) :
    encode E W cut c = (encodeTo E (byCount W) cut c).bind fun x => .done ⟨x.1, counted x.2⟩ := by
  unfold encode encodeTo
  cases c.valid with
  | err e => rfl
  | panic => rfl
  | ok u =>
    cases encodeDoc E c with
    | none => rfl
    | some t =>
      have h := C101_same_folder W ((cut t).map utf8)
      dsimp only
      rw [← h]
      rfl

/-! ## Concrete cases -/

/-- What the calls are given for the sample text: the fold comes as a call of its own. -/
example : (({} : WFolder).writes taker (sampleText.map utf8)).log.map List.length = [8, 66, 3, 2, 20, 2] := by decide +kernel

/-- A writer that looks at what it is given: it does not take CR LF SPACE. -/
def noFolds : Writer := fun _ p => if p = eol then (1, some 5) else (p.length, none)

example : KeepsContract noFolds := by
  intro log p h
  unfold noFolds at *
  split
  · simp
  · rename_i hp
    simp [hp] at h

example : (({} : WFolder).writes noFolds (sampleText.map utf8)).err = some 5 ∧ (({} : WFolder).writes noFolds (sampleText.map utf8)).log.map List.length = [8, 66, 3] ∧
    (({} : WFolder).writes noFolds (sampleText.map utf8)).out.length = 75 := by decide +kernel

theorem sampleCal_encodedTo (w : Writer) : encodeTo sampleEnv w (fun s => [s]) sampleCal =
    .done ((({} : WFolder).writes w ([sampleDoc].map utf8)).err.map .write, ({} : WFolder).writes w ([sampleDoc].map utf8)) := by
  unfold encodeTo
  rw [sampleCal_valid, sampleCal_doc]

example := C101_encode sampleEnv noFolds (fun s => [s]) (by simp) sampleCal _ _ (sampleCal_encodedTo noFolds)

/-- A writer that breaks the contract, taking four octets of each call and returning no error. -/
def fourOctets : Writer := fun _ _ => (4, none)

/-- Outside the contract octets are lost and no error is recorded: the count that the caller's writer returns is not looked at. -/
theorem C101_short_writes_unnoticed : ¬ ∀ (w : Writer) (qs : List Bytes), (({} : WFolder).writes w qs).err = none →
    (({} : WFolder).writes w qs).out = (({} : WFolder).writes w qs).log.flatten := by
  intro h
  have := h fourOctets [utf8 c!"BEGIN:VCALENDAR\r\n"] (by decide +kernel)
  revert this
  decide +kernel

example : (({} : WFolder).writes fourOctets [utf8 c!"BEGIN:VCALENDAR\r\n"]).out = utf8 c!"BEGI" := by decide +kernel

end Ics.Props
