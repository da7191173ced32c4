import Verif.RawEmitLemmas
import Verif.Props.Raw
import Verif.Props.Writer
/-!
# Properties C105 and C106, for the calls of Write and WriteString as the `encode` methods make them

`encodeCallsB E O w c` is `Encode` for any Go strings and any writer, with the calls of the folder one by one.
-/

namespace Ics.Props

open Ics Spec

/-! ## C105 -/

/-- C105.  `encodeRaw`, where the way the octets are cut into calls was left open, is this one. -/
theorem C105_calls_same (E : Env) (O : Octets) (c : RawCal) : ∃ cut : Bytes → List Bytes, (∀ b, (cut b).flatten = b) ∧ ∀ W, encodeRaw E O W cut c =
    match encodeCallsB E O (byCount W) c with
    | .panic => .panic
    | .returned e f => .done ⟨e, counted f⟩
    | .never _ => .running := by
  have h := RawCal.saidB_text E O c
  unfold SaidB.text at h
  by_cases he : (RawCal.saidB E O c).ends = true
  · rw [if_pos he] at h
    refine ⟨fun b => if b = (RawCal.saidB E O c).calls.flatten then (RawCal.saidB E O c).calls else [b], fun b => ?_, fun W => ?_⟩
    · dsimp only
      split
      · rename_i h; exact h.symm
      · simp
    · have e := C101_same_folder W (RawCal.saidB E O c).calls
      unfold encodeRaw encodeCallsB
      cases c.valid with
      | err e => rfl
      | panic => rfl
      | ok u =>
        simp only [← h, if_pos, he]
        rw [← e]
        rfl
  · rw [if_neg he] at h
    refine ⟨fun b => [b], fun b => by simp, fun W => ?_⟩
    unfold encodeRaw encodeCallsB
    cases c.valid with
    | err e => rfl
    | panic => rfl
    | ok u => simp only [← h, if_neg he]

/-- C105.  Where all is UTF-8 it makes the calls of `encodeCalls`, which C103 and C104 are about, with whatever writer. -/
theorem C105_calls_utf8 (E : Env) (O : Octets) (hO : OctetsUtf8 E O) (w : Writer) (c : Cal) : encodeCallsB E O w (hardCal c) = encodeCalls E w c := by
  unfold encodeCallsB encodeCalls
  rw [C105_validation, softCal_hard, RawCal.saidB_hard hO]
  rfl

/-- C105.  What `encode6868` has in memory after any number of rounds, for any octets: those in front of the first line feed, caret or quote as they are, and the escape of that octet
again and again. -/
theorem C105_encoder_rounds (a r : Bytes) (c : UInt8) (ha : ∀ x ∈ a, ¬ (x = 0x0a ∨ x = 0x5e ∨ x = 0x22)) (e : Bytes) (he : (c, e) ∈ [(0x0a, utf8 c!"^n"), (0x5e, utf8 c!"^^"), (0x22, utf8 c!"^'")])
    (n : Nat) : (Enc6868B.run (a ++ c :: r) []).rounds (n + 1) = .run (c :: r) (a ++ (List.replicate (n + 1) e).flatten) := by
  have hc : isEsc6868B c = true := by
    simp only [List.mem_cons, List.not_mem_nil, or_false, Prod.mk.injEq] at he
    rcases he with ⟨rfl, _⟩ | ⟨rfl, _⟩ | ⟨rfl, _⟩ <;> decide
  have hrun : ∀ (a d : Bytes), (∀ x ∈ a, isEsc6868B x = false) → (Enc6868B.run (a ++ c :: r) d).step = .run (c :: r) (d ++ a ++ e) := by
    intro a d ha
    have h1 : (a ++ c :: r).takeWhile (fun c => !isEsc6868B c) = a := by
      rw [List.takeWhile_append_of_pos (fun x hx => by simp [ha x hx]), List.takeWhile_cons_of_neg (by simp [hc]), List.append_nil]
    have h2 : (a ++ c :: r).dropWhile (fun c => !isEsc6868B c) = c :: r := by
      rw [List.dropWhile_append_of_pos (fun x hx => by simp [ha x hx]), List.dropWhile_cons_of_neg (by simp [hc])]
    unfold Enc6868B.step
    simp only [h1, h2]
    simp only [List.mem_cons, List.not_mem_nil, or_false, Prod.mk.injEq] at he
    rcases he with ⟨rfl, rfl⟩ | ⟨rfl, rfl⟩ | ⟨rfl, rfl⟩ <;> rfl
  have hloop : ∀ (n : Nat) (d : Bytes), (Enc6868B.run (c :: r) d).rounds n = .run (c :: r) (d ++ (List.replicate n e).flatten) := by
    intro n
    induction n with
    | zero => intro d; simp [Enc6868B.rounds]
    | succ n ih =>
      intro d
      have := hrun [] d (by simp)
      rw [Enc6868B.rounds, show c :: r = [] ++ c :: r from rfl, this, ih]
      simp [List.replicate_succ]
  have ha' : ∀ x ∈ a, isEsc6868B x = false := fun x hx => by
    have := ha x hx
    cases h : isEsc6868B x with
    | false => rfl
    | true =>
      simp only [isEsc6868B, Bool.or_eq_true, beq_iff_eq] at h
      refine absurd ?_ this
      rcases h with (h | h) | h
      · exact .inl (UInt8.toNat_inj.1 h)
      · exact .inr (.inl (UInt8.toNat_inj.1 h))
      · exact .inr (.inr (UInt8.toNat_inj.1 h))
  rw [Enc6868B.rounds, hrun a [] ha', hloop]
  simp [List.replicate_succ]

example : (Enc6868B.run [0xff, 0x5e, 0x62] []).rounds 3 = .run [0x5e, 0x62] [0xff, 0x5e, 0x5e, 0x5e, 0x5e, 0x5e, 0x5e] :=
  C105_encoder_rounds [0xff] [0x62] 0x5e (by decide) (utf8 c!"^^") (by decide) 2

/-- C105.  `encode6868` returns exactly for the octets without a line feed, a caret or a quote: those octets as they are, after one round. -/
theorem C105_encoder_returns (t e : Bytes) : (∃ n, (Enc6868B.run t []).rounds n = .ret e) ↔ e = t ∧ ∀ x ∈ t, ¬ (x = 0x0a ∨ x = 0x5e ∨ x = 0x22) := by
  have hesc : ∀ x : UInt8, isEsc6868B x = true ↔ x = 0x0a ∨ x = 0x5e ∨ x = 0x22 := fun x => by
    simp only [isEsc6868B, Bool.or_eq_true, beq_iff_eq, ← UInt8.toNat_inj, or_assoc]
    rfl
  by_cases h : ∀ x ∈ t, ¬ (x = 0x0a ∨ x = 0x5e ∨ x = 0x22)
  · have h0 : t.any isEsc6868B = false := by
      rw [List.any_eq_false]
      exact fun x hx hx2 => h x hx ((hesc x).1 hx2)
    have h1 : (Enc6868B.run t []).step = .ret t := by
      have := takeWhile_every (fun c => !isEsc6868B c) t (by simpa using h0)
      unfold Enc6868B.step
      simp [this.1, this.2]
    have h2 : ∀ n, Enc6868B.rounds n (.ret t) = .ret t := by
      intro n
      induction n with
      | zero => rfl
      | succ n ih => exact ih
    constructor
    · rintro ⟨n, hn⟩
      refine ⟨?_, h⟩
      cases n with
      | zero => cases hn
      | succ n =>
        rw [Enc6868B.rounds, h1, h2] at hn
        cases hn
        rfl
    · rintro ⟨rfl, _⟩
      exact ⟨1, h1⟩
  · refine ⟨fun ⟨n, hn⟩ => ?_, fun hx => absurd hx.2 h⟩
    have h0 : encode6868B t = none := by
      rw [encode6868B_eq, if_pos]
      rw [List.any_eq_true]
      exact Classical.byContradiction fun hc => h fun x hx hx2 => hc ⟨x, hx, (hesc x).2 hx2⟩
    obtain ⟨s, d, hs⟩ := encode6868B_rounds t h0 n
    rw [hs] at hn
    cases hn

example : (Enc6868B.run [0xff, 0x62] []).rounds 1 = .ret [0xff, 0x62] ∧ ¬ ∃ n, (Enc6868B.run [0xff, 0x22] []).rounds n = .ret [0xff, 0x22] :=
  ⟨rfl, fun h => absurd ((C105_encoder_returns _ _).1 h).2 (by decide)⟩

/-! ## C106 -/

/-- C106.  Parameters, URLs and names of zones are written octet by octet as they are, in the order in which they are in the calendar; all else is UTF-8. -/
theorem C106_as_they_are (E : Env) (O : Octets) (c : RawCal) (ht : c.typed = true) (b : Bytes) (hb : encodeOctets E O c = some b) : Put (calAsIs O c) b := encodeOctets_put ht hb

/-- C106.  If all these are UTF-8, then each call of the caller's writer is given UTF-8, whatever the writer does and even if `Encode` never returns. -/
theorem C106_each_call (E : Env) (O : Octets) (w : Writer) (c : RawCal) (hc : ∀ s ∈ calAsIs O c, IsUtf8 s) (f : WFolder)
    (h : (∃ e, encodeCallsB E O w c = .returned e f) ∨ encodeCallsB E O w c = .never f) : ∀ p ∈ f.log, p ≠ [] ∧ IsUtf8 p := by
  have hq : ∃ ss : List Str, (RawCal.saidB E O c).calls = ss.map utf8 := by
    have h1 := RawCal.saidB_among E O c
    unfold Among at h1
    generalize (RawCal.saidB E O c).calls = qs at h1
    induction qs with
    | nil => exact ⟨[], rfl⟩
    | cons q qs ih =>
      obtain ⟨ss, hs⟩ := ih (fun q hq' => h1 q (by simp [hq']))
      obtain ⟨s, rfl⟩ : IsUtf8 q := (h1 q (by simp)).elim id (hc q)
      exact ⟨s :: ss, by rw [hs]; rfl⟩
  obtain ⟨ss, hs⟩ := hq
  have key : f = {} ∨ f = ({} : WFolder).writes w (ss.map utf8) := by
    unfold encodeCallsB at h
    rw [hs] at h
    cases hv : c.valid with
    | panic =>
      rw [hv] at h
      rcases h with ⟨e, h⟩ | h <;> cases h
    | err e =>
      rw [hv] at h
      rcases h with ⟨e, h⟩ | h <;> cases h
      exact .inl rfl
    | ok u =>
      rw [hv] at h
      dsimp only at h
      split at h
      · rcases h with ⟨e, h⟩ | h <;> cases h
        exact .inr rfl
      · rcases h with ⟨e, h⟩ | h <;> cases h
        exact .inr rfl
  intro p hp
  rcases key with rfl | rfl
  · cases hp
  · obtain ⟨s, h1, rfl⟩ := C101_whole_characters w ss p hp
    exact ⟨fun h => h1 (utf8_eq_nil.1 h), s, rfl⟩

/-- C106.  What is sent, with its folds, is UTF-8 if and only if they are. -/
theorem C106_sent (E : Env) (O : Octets) (hO : OctetsOf E O) (w : Writer) (c : RawCal) (ht : c.typed = true) (f : WFolder) (h : encodeCallsB E O w c = .returned none f) :
    IsUtf8 f.log.flatten ↔ ∀ s ∈ calAsIs O c, IsUtf8 s := by
  constructor
  · intro hu
    have hv : c.valid = .ok () := by
      unfold encodeCallsB at h
      cases hv : c.valid with
      | ok u => rfl
      | panic => rw [hv] at h; cases h
      | err e => rw [hv] at h; cases h
    unfold encodeCallsB at h
    rw [hv] at h
    dsimp only at h
    split at h
    · next he =>
      injection h with h1 h2
      subst h2
      have hn : (({} : WFolder).writes w (RawCal.saidB E O c).calls).err = none := by
        cases hx : (({} : WFolder).writes w (RawCal.saidB E O c).calls).err with
        | none => rfl
        | some x => rw [hx] at h1; cases h1
      have ho := (C101_together w (RawCal.saidB E O c).calls).2 hn
      rw [ho] at hu
      obtain ⟨us, hp⟩ := allPieces_exist (RawCal.saidB E O c).calls
      have h3 := foldedAt_utf8 (C96_broken_between_pieces _ us hp) [] hu
      rw [List.nil_append, hp.flatten] at h3
      have h4 := RawCal.saidB_text E O c
      unfold SaidB.text at h4
      rw [if_pos he] at h4
      exact (C106_exactly E O hO c ht _ h4.symm).1 h3
    · cases h
  · intro hc
    have h1 := C106_each_call E O w c hc f (.inl ⟨none, h⟩)
    generalize f.log = ps at h1
    induction ps with
    | nil => exact ⟨[], rfl⟩
    | cons p ps ih =>
      obtain ⟨s, hs⟩ := (h1 p (by simp)).2
      obtain ⟨t, ht⟩ := ih fun q hq => h1 q (by simp [hq])
      exact ⟨s ++ t, by rw [List.flatten_cons, hs, ht, utf8_append]⟩

/-! ## Concrete cases -/

/-- A calendar whose parameter and text are not UTF-8, and one where only the text is not. -/
theorem octetCal_sent : (∃ f, encodeCallsB sampleEnv sampleOctets taker (octetCal [0x65, 0xff] [0x5a, 0xfc, 0x72]) = .returned none f ∧ ¬ IsUtf8 f.log.flatten) ∧
    ∃ f, encodeCallsB sampleEnv sampleOctets taker (octetCal (utf8 c!"en") [0xff]) = .returned none f ∧ IsUtf8 f.log.flatten := by
  have h1 : ∃ f, encodeCallsB sampleEnv sampleOctets taker (octetCal [0x65, 0xff] [0x5a, 0xfc, 0x72]) = .returned none f := by
    refine ⟨({} : WFolder).writes taker (RawCal.saidB sampleEnv sampleOctets (octetCal [0x65, 0xff] [0x5a, 0xfc, 0x72])).calls, ?_⟩
    unfold encodeCallsB
    rw [octetCal_typed.2.2.2]
    dsimp only
    rw [if_pos (by decide +kernel), show (({} : WFolder).writes taker (RawCal.saidB sampleEnv sampleOctets (octetCal [0x65, 0xff] [0x5a, 0xfc, 0x72])).calls).err = none by decide +kernel]
    rfl
  have h2 : ∃ f, encodeCallsB sampleEnv sampleOctets taker (octetCal (utf8 c!"en") [0xff]) = .returned none f := by
    refine ⟨({} : WFolder).writes taker (RawCal.saidB sampleEnv sampleOctets (octetCal (utf8 c!"en") [0xff])).calls, ?_⟩
    unfold encodeCallsB
    rw [show (octetCal (utf8 c!"en") [0xff]).valid = .ok () by decide +kernel]
    dsimp only
    rw [if_pos (by decide +kernel), show (({} : WFolder).writes taker (RawCal.saidB sampleEnv sampleOctets (octetCal (utf8 c!"en") [0xff])).calls).err = none by decide +kernel]
    rfl
  obtain ⟨f, h1⟩ := h1
  obtain ⟨g, h2⟩ := h2
  refine ⟨⟨f, h1, fun h => ?_⟩, g, h2, ?_⟩
  · have := (C106_sent _ _ sampleOctets_utf8.of taker _ octetCal_typed.2.1 f h1).1 h
    have h3 : ¬ ∀ s ∈ calAsIs sampleOctets (octetCal [0x65, 0xff] [0x5a, 0xfc, 0x72]), utf8 (runes s) = s := by decide +kernel
    exact h3 fun s hs => (isUtf8_iff s).1 (this s hs)
  · have h3 : ∀ s ∈ calAsIs sampleOctets (octetCal (utf8 c!"en") [0xff]), utf8 (runes s) = s := by decide +kernel
    exact (C106_sent _ _ sampleOctets_utf8.of taker _ (by decide +kernel) g h2).2 fun s hs => (isUtf8_iff s).2 (h3 s hs)

/-- The strings of the first one that are written as they are. -/
example : calAsIs sampleOctets (octetCal [0x65, 0xff] [0x5a, 0xfc, 0x72]) = [[0x65, 0xff]] := by decide +kernel

/-- With a caret in the parameter: all before it is written, in calls that are UTF-8, for ever no more. -/
example : ∃ f, encodeCallsB sampleEnv sampleOctets taker (octetCal (utf8 c!"e^") [0xff]) = .never f ∧ f.log.flatten ≠ [] ∧ ∀ p ∈ f.log, p ≠ [] ∧ IsUtf8 p := by
  have h : encodeCallsB sampleEnv sampleOctets taker (octetCal (utf8 c!"e^") [0xff]) =
      .never (({} : WFolder).writes taker (RawCal.saidB sampleEnv sampleOctets (octetCal (utf8 c!"e^") [0xff])).calls) := by
    unfold encodeCallsB
    rw [show (octetCal (utf8 c!"e^") [0xff]).valid = .ok () by decide +kernel]
    dsimp only
    rw [if_neg (by decide +kernel)]
  refine ⟨_, h, by decide +kernel, C106_each_call _ _ taker _ ?_ _ (.inr h)⟩
  have h3 : ∀ s ∈ calAsIs sampleOctets (octetCal (utf8 c!"e^") [0xff]), utf8 (runes s) = s := by decide +kernel
  exact fun s hs => (isUtf8_iff s).2 (h3 s hs)

end Ics.Props
