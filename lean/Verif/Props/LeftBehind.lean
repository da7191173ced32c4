import Verif.Props.Pipe
import Verif.Props.Failing
import Verif.Props.HowMany
import Verif.LastLineEnd
/-!
# C119: what an Encode that failed leaves behind

`f.out` are the octets that the caller's writer has accepted: what is in the file.
-/

namespace Ics.Props

open Ics Spec

/-- A writer that keeps the contract of `io.Writer` has accepted the first part of what it was given. -/
theorem accepted_first {w : Writer} (hw : KeepsContract w) {log : List Bytes} {out : Bytes} {e : Option Nat} (h : Handed w log out e) :
    out <+: log.flatten ∧ (e = none → out = log.flatten) := by
  induction h with
  | none => exact ⟨List.prefix_refl _, fun _ => rfl⟩
  | @call log out p _ hp ih =>
    have h1 := ih.2 rfl
    rw [h1, List.flatten_append, List.flatten_singleton]
    refine ⟨List.prefix_append_right_inj _ |>.2 (List.take_prefix _ _), fun he => ?_⟩
    rw [List.take_of_length_le (Nat.le_of_not_lt fun h => hw log p h he)]

/-- C119.  What is in the file is the first part of what `Encode` would have written, all of it if it returned nil; nothing, if the calendar was refused. -/
theorem C119_first_part (E : Env) (w : Writer) (hw : KeepsContract w) (c : Cal) (e : Option EncErr) (f : WFolder) (h : encodeCalls E w c = .returned e f) :
    (∃ x, e = some (.validation x) ∧ f.out = []) ∨
    ∃ s, c.valid = .ok () ∧ encodeDoc E c = some s ∧ f.out <+: utf8 (foldStr 0 s) ∧ (e = none → f.out = utf8 (foldStr 0 s)) := by
  have hh := accepted_first hw (encodeCalls_handed h)
  have htx := Cal.said_text E c
  unfold encodeCalls at h
  split at h
  · cases h; exact .inl ⟨_, rfl, rfl⟩
  · cases h
  · rename_i hv
    dsimp only at h
    split at h
    · rename_i hends
      unfold Said.text at htx
      rw [if_pos hends] at htx
      refine .inr ⟨_, hv, htx.symm, ?_⟩
      have h4 := C101_together w ((c.said E).calls.map utf8)
      obtain ⟨k, hk⟩ := writes_ok (c.said E).calls {} rfl
      rw [hk] at h4
      have h4 : _ ∧ _ := h4
      simp only [Encoding.returned.injEq] at h
      rw [h.2] at h4
      simp only [List.nil_append] at h4
      refine ⟨hh.1.trans h4.1, fun he => ?_⟩
      have : f.err = none := by
        have h1 := h.1
        rw [he, h.2] at h1
        cases hf : f.err with
        | none => rfl
        | some x => rw [hf] at h1; cases h1
      rw [hh.2 this, h4.2 this]
    · cases h

theorem foldStr_crlf (col : UInt8) : foldStr col ['\r', '\n'] = ['\r', '\n'] := by
  simp [foldStr, stepCol]

/-- The first parts of a text and two octets, which lack no more than these. -/
theorem prefix_short {b g : Bytes} {x y : UInt8} (h1 : b <+: g ++ [x] ++ [y]) (h2 : g.length ≤ b.length) : b = g ∨ b = g ++ [x] ∨ b = g ++ [x] ++ [y] := by
  have h3 := List.prefix_iff_eq_take.1 h1
  have h4 := h1.length_le
  simp only [List.length_append, List.length_singleton] at h4
  have : b.length = g.length ∨ b.length = g.length + 1 ∨ b.length = g.length + 2 := by omega
  rcases this with h | h | h
  · rw [h] at h3
    left
    rw [h3, List.append_assoc, List.take_left']
    rfl
  · rw [h] at h3
    right; left
    rw [h3, List.take_left']
    simp
  · rw [h] at h3
    right; right
    rw [h3, List.take_of_length_le (by simp)]

/-- C15, exactly: a first part of the text that `Encode` writes is read as a calendar if it is the whole, or lacks the line end at the very end, and the whole is read; and then both give the same. -/
theorem C15_exactly_partial (E E' : Env) (c c' : Cal) (ht : c.typed = true) (hv : c.valid = .ok ()) (hu : Unbroken E c) (s p : Str) (hs : encodeDoc E c = some s) (h1 : p <+: s) :
    decodeDoc E' p = .ok c' ↔ (p = s ∨ p ++ crlf = s) ∧ decodeDoc E' s = .ok c' := by
  obtain ⟨e1, _, _⟩ := written_lines ht hv hs
  obtain ⟨a, ha⟩ := calLines_end E c
  have hsa : s = a ++ ['R'] ++ ['\r', '\n'] := by rw [e1, ha]; simp
  have hno : ∀ p c', p <+: a → decodeDoc E' p ≠ .ok c' := by
    intro p c' hp
    refine C15_any_part_partial E E' c c' ht hv hu s p hs ?_ ?_
    · rw [hsa, List.append_assoc]
      exact hp.trans (List.prefix_append _ _)
    · have := hp.length_le
      rw [hsa]
      simp only [List.length_append, List.length_cons, List.length_nil]
      omega
  obtain ⟨n1, n2⟩ := last_line_end hno
  constructor
  · intro hd
    have hlen : a.length < p.length := by
      apply Nat.lt_of_not_le
      intro h
      rw [hsa, List.append_assoc] at h1
      exact hno p c' (List.prefix_of_prefix_length_le h1 (List.prefix_append _ _) h) hd
    have h2 := List.prefix_iff_eq_take.1 h1
    have h3 := h1.length_le
    rw [hsa] at h2 h3
    simp only [List.length_append, List.length_cons, List.length_nil] at h3
    have : p.length = (a ++ ['R']).length ∨ p.length = (a ++ ['R'] ++ ['\r']).length ∨ p.length = (a ++ ['R'] ++ ['\r', '\n']).length := by
      simp only [List.length_append, List.length_cons, List.length_nil]
      omega
    rcases this with h | h | h
    · rw [h, List.take_left] at h2
      refine ⟨.inr (by rw [hsa, h2]; rfl), ?_⟩
      rw [h2] at hd
      rw [hsa]
      rcases decodeDoc_goes_on hd with h | h
      · exact h _
      · rcases h ['\r', '\n'] with ⟨_, h⟩ | ⟨h, _⟩
        · exact h
        · exact absurd (.inr (List.prefix_refl _)) h
    · rw [h, show a ++ ['R'] ++ ['\r', '\n'] = (a ++ ['R'] ++ ['\r']) ++ ['\n'] from by simp, List.take_left] at h2
      rw [h2] at hd
      exact absurd hd (n1 c')
    · rw [h, List.take_length] at h2
      have : p = s := by rw [h2, hsa]
      exact ⟨.inl this, this ▸ hd⟩
  · rintro ⟨rfl | h, hd⟩
    · exact hd
    · have : p = a ++ ['R'] := by
        rw [hsa] at h
        exact List.append_cancel_right h
      rw [this]
      rw [hsa] at hd
      exact n2 c' hd

theorem text_of_file {E : Env} {c : Cal} (ht : c.typed = true) (hv : c.valid = .ok ()) (hu : Unbroken E c) {s : Str} (hs : encodeDoc E c = some s) {a : Str} (hsa : s = a ++ crlf) :
    utf8 (foldStr 0 s) = utf8 (foldStr 0 a) ++ [13] ++ [10] ∧ removeFolds (utf8 (foldStr 0 s)) = utf8 s ∧ removeFolds (utf8 (foldStr 0 a)) = utf8 a := by
  obtain ⟨_, _, _, _, _, _, hno⟩ := C46_seen_partial E c s ht hv hs hu
  have hno' : ¬ hasFold (utf8 s) := fun h => hno (by have := hasFold_runes h; rwa [runes_utf8] at this)
  have hr : removeFolds (utf8 (foldStr 0 s)) = utf8 s := by
    have := C03_folding_is_transparent [s] (by simpa using hno')
    obtain ⟨k, hk⟩ := writes_ok [s] {} rfl
    rw [hk] at this
    simpa using this
  have hg : utf8 (foldStr 0 s) = utf8 (foldStr 0 a) ++ [13] ++ [10] := by
    rw [hsa, foldStr_append, crlf, foldStr_crlf, utf8_append]
    simp [show utf8 ['\r', '\n'] = [13, 10] from by decide]
  refine ⟨hg, hr, ?_⟩
  rw [hg, removeFolds_snoc _ _ (by decide), removeFolds_snoc _ _ (by decide), hsa, utf8_append, show utf8 crlf = [13] ++ [10] from by decide, ← List.append_assoc] at hr
  exact List.append_cancel_right (List.append_cancel_right hr)

/-- C15, in octets: a first part of the file that `Encode` writes is read as a calendar exactly if it is the whole, or lacks the line end at the very end, and if the whole is read; and then the calendar is
the same. -/
theorem C15_octets_exactly_partial (E E' : Env) (c c' : Cal) (ht : c.typed = true) (hv : c.valid = .ok ()) (hu : Unbroken E c) (s : Str) (hs : encodeDoc E c = some s) (b : Bytes) (h1 : b <+: utf8 (foldStr 0 s)) :
    decodeDoc E' (runes (removeFolds b)) = .ok c' ↔ (b = utf8 (foldStr 0 s) ∨ b ++ [13, 10] = utf8 (foldStr 0 s)) ∧ decodeDoc E' s = .ok c' := by
  obtain ⟨e1, _, _⟩ := written_lines ht hv hs
  obtain ⟨a, ha⟩ := calLines_end E c
  have hsa : s = (a ++ ['R']) ++ crlf := by rw [e1, ha]; simp [crlf]
  obtain ⟨hg, hr, hq⟩ := text_of_file ht hv hu hs hsa
  have ex := fun p => C15_exactly_partial E E' c c' ht hv hu s p hs
  constructor
  · intro hd
    have hlast : (utf8 (foldStr 0 s)).length ≤ b.length + 2 := by
      apply Nat.le_of_not_lt
      intro h2
      have ho : ∃ o, encode E okSink (fun s => [s]) c = .done o ∧ o.f.out = utf8 (foldStr 0 s) := by
        unfold encode
        rw [hv, hs]
        refine ⟨_, rfl, ?_⟩
        obtain ⟨k, hk⟩ := writes_ok [s] {} rfl
        rw [hk]
        simp
      obtain ⟨o, ho, hout⟩ := ho
      exact any_cut_octets (E' := E') (c' := c') ht hv hu (cut := fun s => [s]) (fun s => by simp) ho (b := b) (by rw [hout]; exact h1) (by rw [hout]; exact h2) hd
    rw [hg, List.length_append, List.length_append, List.length_singleton, List.length_singleton] at hlast
    rw [hg] at h1
    rcases prefix_short h1 (by omega) with hb | hb | hb
    · rw [hb, hq, runes_utf8] at hd
      exact ⟨.inr (by rw [hb, hg]; simp), ((ex _ ⟨crlf, hsa.symm⟩).1 hd).2⟩
    · rw [hb, removeFolds_snoc _ _ (by decide), hq, show [13] = utf8 ['\r'] from by decide, ← utf8_append, runes_utf8] at hd
      rcases ((ex _ ⟨['\n'], by rw [hsa]; simp [crlf]⟩).1 hd).1 with h | h
      · rw [hsa] at h
        have := congrArg List.length h
        simp [crlf] at this
      · rw [hsa] at h
        have := congrArg List.length h
        simp [crlf] at this
    · rw [hb, ← hg, hr, runes_utf8] at hd
      exact ⟨.inl (by rw [hb, hg]), hd⟩
  · rintro ⟨hb | hb, hd⟩
    · rw [hb, hr, runes_utf8]
      exact hd
    · have hb : b = utf8 (foldStr 0 (a ++ ['R'])) := by
        rw [hg, List.append_assoc] at hb
        exact List.append_cancel_right hb
      rw [hb, hq, runes_utf8]
      exact (ex _ ⟨crlf, hsa.symm⟩).2 ⟨.inr hsa.symm, hd⟩

/-- C113: a connection delivers the file that `Encode` has written in pieces which do not cut fold markers, and may break off anywhere.  If `Decode` returns a calendar, whatever the library makes of the
failure, it has been given the whole file, or all but the line end at the very end, and the calendar is that of the whole file. -/
theorem C113_complete (E E' : Env) (P : OnFail) (c : Cal) (ht : c.typed = true) (hv : c.valid = .ok ()) (hu : Unbroken E c) (s : Str) (hs : encodeDoc E c = some s) (R : Reader) (hR : WellCut R)
    (ks : List Nat) (fuel : Nat) (hf : ∀ k ∈ ks, k + 3 ≤ fuel) (c' : Cal) (u : Unfolder) (h : decodeFailing E' P R fuel ks {} [] = .done (.ok c', u)) (hd : delivered R u.hist <+: utf8 (foldStr 0 s)) :
    (delivered R u.hist = utf8 (foldStr 0 s) ∨ delivered R u.hist ++ [13, 10] = utf8 (foldStr 0 s)) ∧ decodeDoc E' s = .ok c' := by
  obtain ⟨ks1, ks2, out, e, h1, h2, h3, _⟩ := C113_returned E' P R fuel ks c' u h
  obtain ⟨out', e', u', g1, g2, _⟩ := C07_unfolding_partial R hR ks1 fuel (fun k hk => hf k (by rw [h1]; exact List.mem_append_left _ hk))
  rw [h2] at g1
  cases g1
  rw [g2] at h3
  exact (C15_octets_exactly_partial E E' c c' ht hv hu s hs _ hd).1 h3

/-- C119, for what is in the file once its folds are removed: it is read as a calendar exactly if it is all that `Encode` would have written, or lacks the line end at the very end, and if the whole is
read; and then the calendar is the same. -/
theorem C119_text_partial (E E' : Env) (w : Writer) (hw : KeepsContract w) (c c' : Cal) (ht : c.typed = true) (hu : Unbroken E c) (e : Option EncErr) (f : WFolder)
    (h : encodeCalls E w c = .returned e f) : decodeDoc E' (runes (removeFolds f.out)) = .ok c' ↔
    ∃ s, c.valid = .ok () ∧ encodeDoc E c = some s ∧ (f.out = utf8 (foldStr 0 s) ∨ f.out ++ [13, 10] = utf8 (foldStr 0 s)) ∧ decodeDoc E' s = .ok c' := by
  rcases C119_first_part E w hw c e f h with ⟨x, hx, h1⟩ | ⟨s, hv, hs, h1, _⟩
  · rw [h1]
    refine ⟨fun h => (by cases h), ?_⟩
    rintro ⟨s, hv, _⟩
    unfold encodeCalls at h
    rw [hv, hx] at h
    dsimp only at h
    split at h
    · simp only [Encoding.returned.injEq] at h
      have := h.1
      cases hf : (({} : WFolder).writes w ((c.said E).calls.map utf8)).err <;> rw [hf] at this <;> cases this
    · cases h
  · rw [C15_octets_exactly_partial E E' c c' ht hv hu s hs f.out h1]
    constructor
    · rintro ⟨hb, hd⟩
      exact ⟨s, hv, hs, hb, hd⟩
    · rintro ⟨s', _, hs', hb, hd⟩
      rw [hs] at hs'
      cases hs'
      exact ⟨hb, hd⟩

/-- C119: what is in the file, read at once. -/
theorem C119_file_partial (E E' : Env) (w : Writer) (hw : KeepsContract w) (c c' : Cal) (ht : c.typed = true) (hu : Unbroken E c) (e : Option EncErr) (f : WFolder)
    (h : encodeCalls E w c = .returned e f) (fin k : Nat) (hk : f.out.length ≤ k) (hk0 : 0 < k) (fuel : Nat) (hf : k + 4 ≤ fuel)
    (hd : decodeReader E' (onceReader f.out fin) fuel [k, k] = .done (.ok c')) :
    ∃ s, c.valid = .ok () ∧ encodeDoc E c = some s ∧ (f.out = utf8 (foldStr 0 s) ∨ f.out ++ [13, 10] = utf8 (foldStr 0 s)) ∧ decodeDoc E' s = .ok c' := by
  apply (C119_text_partial E E' w hw c c' ht hu e f h).1
  by_cases hb : hasFold f.out ∧ badEnd f.out
  · have e : onceReader f.out fin [k] = (f.out, none) := by simp [onceReader, hk]
    have := read_hangs (R := onceReader f.out fin) fuel k hk0 (by rw [e]; exact hb.1) (by rw [e]; exact hb.2)
    unfold decodeReader at hd
    rw [readAll, this] at hd
    cases hd
  · obtain ⟨u, hu'⟩ := C07_single_delivery_partial f.out fin k (fun h1 h2 => hb ⟨h1, h2⟩) hk hk0 fuel hf
    unfold decodeReader at hd
    rw [hu'] at hd
    injection hd

/-- C119: the same for readers that deliver what is in the file in pieces, not cutting fold markers. -/
theorem C119_pieces_partial (E E' : Env) (w : Writer) (hw : KeepsContract w) (c c' : Cal) (ht : c.typed = true) (hu : Unbroken E c) (e : Option EncErr) (f : WFolder)
    (h : encodeCalls E w c = .returned e f) (R : Reader) (hR : WellCut R) (ks : List Nat) (fuel : Nat) (hf : ∀ k ∈ ks, k + 3 ≤ fuel)
    (out : Bytes) (x : Option Nat) (u : Unfolder) (hr : readAll R fuel ks {} [] = .done (out, x, u)) (hall : delivered R u.hist = f.out)
    (hd : decodeReader E' R fuel ks = .done (.ok c')) :
    ∃ s, c.valid = .ok () ∧ encodeDoc E c = some s ∧ (f.out = utf8 (foldStr 0 s) ∨ f.out ++ [13, 10] = utf8 (foldStr 0 s)) ∧ decodeDoc E' s = .ok c' := by
  apply (C119_text_partial E E' w hw c c' ht hu e f h).1
  obtain ⟨out', x', u', h1, h2, _⟩ := C07_unfolding_partial R hR ks fuel hf
  rw [hr] at h1
  cases h1
  unfold decodeReader at hd
  rw [hr] at hd
  rw [← hall, ← h2]
  injection hd

/-- C119.  If something is missing of what `Encode` would have written, and not just the line end at the very end, what is in the file is not read as a calendar. -/
theorem C119_not_read_partial (E E' : Env) (w : Writer) (hw : KeepsContract w) (c c' : Cal) (ht : c.typed = true) (hu : Unbroken E c) (e : Option EncErr) (f : WFolder)
    (h : encodeCalls E w c = .returned e f) (s : Str) (hs : encodeDoc E c = some s) (h1 : f.out ≠ utf8 (foldStr 0 s)) (h2 : f.out ++ [13, 10] ≠ utf8 (foldStr 0 s)) (fin k : Nat)
    (hk : f.out.length ≤ k) (hk0 : 0 < k) (fuel : Nat) (hf : k + 4 ≤ fuel) : decodeReader E' (onceReader f.out fin) fuel [k, k] ≠ .done (.ok c') := by
  intro hd
  obtain ⟨s', _, hs', h3, _⟩ := C119_file_partial E E' w hw c c' ht hu e f h fin k hk hk0 fuel hf hd
  rw [hs] at hs'
  cases hs'
  exact h3.elim h1 h2

/-! ## Concrete cases -/

/-- Accepts `n` calls, and of the next one what `m` says; with it an error. -/
def fullAfter (n m : Nat) : Writer := fun log p => if log.length < n then (p.length, none) else (min m p.length, some 28)

theorem fullAfter_keeps (n m : Nat) : KeepsContract (fullAfter n m) := by
  intro log p h
  unfold fullAfter at h ⊢
  split
  · rename_i hn
    rw [if_pos hn] at h
    exact absurd h (Nat.lt_irrefl _)
  · simp

theorem full_returns (n m : Nat) : encodeCalls sampleEnv (fullAfter n m) longCal =
    .returned ((({} : WFolder).writes (fullAfter n m) ((longCal.said sampleEnv).calls.map utf8)).err.map .write) (({} : WFolder).writes (fullAfter n m) ((longCal.said sampleEnv).calls.map utf8)) := by
  unfold encodeCalls
  rw [(longCal_good sampleEnv).valid]
  dsimp only
  rw [if_pos (by decide +kernel)]

/-- Without the line end at the very end the text is read, whatever reads it, as the calendar that it reads from the whole. -/
example (E' : Env) (c' : Cal) : ∃ s, encodeDoc sampleEnv longCal = some s ∧ s.length = 134 ∧ (decodeDoc E' (s.take 132) = .ok c' ↔ decodeDoc E' s = .ok c') ∧ decodeDoc E' (s.take 133) ≠ .ok c' := by
  refine ⟨_, rfl, by decide +kernel, ?_, fun h => ?_⟩
  · rw [C15_exactly_partial sampleEnv E' longCal c' (longCal_good sampleEnv).typed (longCal_good sampleEnv).valid longCal_unbroken _ _ rfl (List.take_prefix _ _)]
    exact and_iff_right (.inr (by decide +kernel))
  · have h1 := ((C15_exactly_partial sampleEnv E' longCal c' (longCal_good sampleEnv).typed (longCal_good sampleEnv).valid longCal_unbroken _ _ rfl (List.take_prefix _ _)).1 h).1
    revert h1
    decide +kernel

/-- The claim in full: what is left when `Encode` has returned an error is not read as a calendar. -/
def C119_claim : Prop := ∀ (E : Env) (w : Writer) (c c' : Cal) (x : EncErr) (f : WFolder), KeepsContract w → c.typed = true → Unbroken E c →
  encodeCalls E w c = .returned (some x) f → decodeDoc E (runes (removeFolds f.out)) ≠ .ok c'

/-- A full disk in the last call, which has 15 octets: with 13 of them accepted the file is read. -/
theorem C119_last_octets : ∃ f, encodeCalls sampleEnv (fullAfter 11 13) longCal = .returned (some (.write 28)) f ∧ decodeDoc sampleEnv (runes (removeFolds f.out)) = .ok longCal := by
  refine ⟨({} : WFolder).writes (fullAfter 11 13) ((longCal.said sampleEnv).calls.map utf8), ?_, ?_⟩
  · rw [full_returns]
    rw [show (({} : WFolder).writes (fullAfter 11 13) ((longCal.said sampleEnv).calls.map utf8)).err = some 28 from by decide +kernel]
    rfl
  · decide +kernel

/-- C119.  The claim in full is false, as the line end behind the last line may be missing. -/
theorem C119_full_claim_is_false : ¬ C119_claim := by
  intro h
  obtain ⟨f, h1, h2⟩ := C119_last_octets
  exact h _ _ _ _ _ _ (fullAfter_keeps _ _) (longCal_good sampleEnv).typed longCal_unbroken h1 h2

/-- With the fold still to come, and with one octet more than above: half of the line end. -/
example (E' : Env) (c' : Cal) : decodeReader E' (onceReader (({} : WFolder).writes (fullAfter 8 1) ((longCal.said sampleEnv).calls.map utf8)).out 0) 5000 [4000, 4000] ≠ .done (.ok c') :=
  C119_not_read_partial sampleEnv E' (fullAfter 8 1) (fullAfter_keeps _ _) longCal c' (longCal_good sampleEnv).typed longCal_unbroken _ _ (full_returns 8 1) _ rfl (by decide +kernel) (by decide +kernel) 0 4000
    (by decide +kernel) (by decide) 5000 (by decide)

example (E' : Env) (c' : Cal) : decodeReader E' (onceReader (({} : WFolder).writes (fullAfter 11 14) ((longCal.said sampleEnv).calls.map utf8)).out 0) 5000 [4000, 4000] ≠ .done (.ok c') :=
  C119_not_read_partial sampleEnv E' (fullAfter 11 14) (fullAfter_keeps _ _) longCal c' (longCal_good sampleEnv).typed longCal_unbroken _ _ (full_returns 11 14) _ rfl (by decide +kernel) (by decide +kernel) 0 4000
    (by decide +kernel) (by decide) 5000 (by decide)

/-- What is in the file after a failure in the last call, without the line end, in two pieces. -/
def leftPieces : List Bytes := [(utf8 (c!"BEGIN:VCALENDAR\r\nVERSION:2.0\r\nPRODID:")), List.replicate 68 97 ++ [13, 10, 32] ++ List.replicate 12 97 ++ utf8 c!"\r\nEND:VCALENDAR"]

theorem leftPieces_out : (({} : WFolder).writes (fullAfter 11 13) ((longCal.said sampleEnv).calls.map utf8)).out = leftPieces.flatten := by decide +kernel

theorem leftPieces_wellCut : WellCut (listReader leftPieces) := by
  apply listReader_wellCut
  · intro i b hb hi
    have : i = 0 := by simp [leftPieces] at hi; omega
    subst this
    simp only [leftPieces, List.getElem?_cons_zero, Option.some.injEq] at hb
    subst hb
    exact ⟨by decide +kernel, by decide +kernel, by decide +kernel⟩
  · intro b hb _
    have hb : (List.replicate 68 97 ++ [13, 10, 32] ++ List.replicate 12 97 ++ utf8 c!"\r\nEND:VCALENDAR" : Bytes) = b := by
      simpa only [leftPieces, List.length_cons, List.length_nil, Nat.zero_add, Nat.add_one_sub_one, List.getElem?_cons_succ, List.getElem?_cons_zero, Option.some.injEq] using hb
    have h1 : b.getLast? = some 82 := by rw [← hb]; decide +kernel
    rintro ⟨X, t, h2, h3⟩
    rw [h2, List.getLast?_append] at h1
    rcases h3 with rfl | rfl | rfl <;> simp at h1

theorem leftPieces_read : ∃ u, readAll (listReader leftPieces) 400 [200, 200, 200] {} [] = .done (removeFolds leftPieces.flatten, some 0, u) ∧ delivered (listReader leftPieces) u.hist = leftPieces.flatten ∧
    decodeReader sampleEnv (listReader leftPieces) 400 [200, 200, 200] = .done (.ok longCal) := ⟨⟨[], [3, 200, 200]⟩, by decide +kernel, by decide +kernel, by decide +kernel⟩

example : ∃ s, longCal.valid = .ok () ∧ encodeDoc sampleEnv longCal = some s ∧ (leftPieces.flatten = utf8 (foldStr 0 s) ∨ leftPieces.flatten ++ [13, 10] = utf8 (foldStr 0 s)) ∧
    decodeDoc sampleEnv s = .ok longCal := by
  obtain ⟨u, h1, h2, h3⟩ := leftPieces_read
  have := C119_pieces_partial sampleEnv sampleEnv (fullAfter 11 13) (fullAfter_keeps _ _) longCal longCal (longCal_good sampleEnv).typed longCal_unbroken _ _ (full_returns 11 13)
    (listReader leftPieces) leftPieces_wellCut [200, 200, 200] 400 (by decide) _ _ u h1 (by rw [h2, leftPieces_out]) h3
  rwa [leftPieces_out] at this

/-- The same file over a connection that fails behind it with an error that is taken for the end of the text. -/
theorem leftPieces_failing : decodeFailing sampleEnv (fun _ => none) (listReader leftPieces) 400 [200, 200, 200] {} [] = .done (.ok longCal, ⟨[], [3, 200, 200]⟩) := by decide +kernel

example (s : Str) (hs : encodeDoc sampleEnv longCal = some s) : leftPieces.flatten ++ [13, 10] = utf8 (foldStr 0 s) ∧ decodeDoc sampleEnv s = .ok longCal := by
  have hd : delivered (listReader leftPieces) [3, 200, 200] = leftPieces.flatten := by decide +kernel
  have hw : utf8 (foldStr 0 s) = leftPieces.flatten ++ [13, 10] := by
    have : encodeDoc sampleEnv longCal = some s → utf8 (foldStr 0 s) = leftPieces.flatten ++ [13, 10] := by
      rw [show encodeDoc sampleEnv longCal = some (encodeDoc sampleEnv longCal).get! from rfl]
      intro h
      cases h
      decide +kernel
    exact this hs
  have := C113_complete sampleEnv sampleEnv (fun _ => none) longCal (longCal_good sampleEnv).typed (longCal_good sampleEnv).valid longCal_unbroken s hs (listReader leftPieces) leftPieces_wellCut
    [200, 200, 200] 400 (by decide) longCal _ leftPieces_failing (by rw [hd, hw]; exact List.prefix_append _ _)
  exact ⟨hw.symm, this.2⟩

end Ics.Props
