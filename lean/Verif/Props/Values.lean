import Verif.ValueLemmas
import Verif.Props.Time
/-!
# C27 periods, C28 geographic positions (values)
-/

namespace Ics.Props

open Spec

/-! ## C27 -/

/-- The full claim: periods accepted by validation come back (up to the identity of loaded locations), and decoded periods that are
well ordered are accepted again. -/
def C27_claim : Prop :=
  (∀ (E : Env) (p : Period), p.valid = .ok () → p.dur.WF → TimeOk E p.start → TimeOk E p.stop →
    Period.decode E 0 (tzidOf p.start.loc) (Period.encode E p) = .ok p.norm) ∧
  (∀ (E : Env) (tzid : Option Str) (s : Str) (p : Period), Period.decode E 0 tzid s = .ok p → p.start.isZero = false →
    (p.stop.isZero = false → p.stop.after p.start = true) → p.valid = .ok ())

/-- C27.  A period given by start and end (in one location), or by start and a duration using weeks only or no weeks, comes back. -/
theorem C27_period_round_trip_partial (E : Env) (q : Nat) (p : Period) (hs : TimeOk E p.start)
    (hd : p.stop.isZero = true → p.stop = {} ∧ p.dur.WF ∧ p.dur.neg = false ∧
      (p.dur.weeks = 0 ∨ (p.dur.days = 0 ∧ p.dur.hours = 0 ∧ p.dur.minutes = 0 ∧ p.dur.seconds = 0)))
    (he : p.stop.isZero = false → p.dur = {} ∧ TimeOk E p.stop ∧ p.stop.loc = p.start.loc) :
    Period.decode E q (tzidOf p.start.loc) (Period.encode E p) =
      .ok { start := { p.start with loc := p.start.loc.withPtr q },
            stop := { p.stop with loc := p.stop.loc.withPtr (q + 1) }, dur := p.dur } := by
  apply Period.decode_encode E q p
  refine ⟨hs, ?_, ?_⟩
  · intro h
    obtain ⟨h1, h2, h3, h4⟩ := hd h
    refine ⟨h1, h2, ?_, h3⟩
    unfold Duration.kept
    split
    · next hw =>
      rcases h4 with h4 | ⟨a, b, c, d⟩
      · exact absurd h4 hw
      · revert a b c d
        generalize p.dur = u
        obtain ⟨_, _, _, _, _, _⟩ := u
        simp only
        rintro rfl rfl rfl rfl
        rfl
    · rfl
  · intro h
    obtain ⟨h1, h2, h3⟩ := he h
    exact ⟨h1, h2, by rw [h3]⟩

/-- C27.  In UTC or local time the period that comes back is equal to the one encoded. -/
theorem C27_unzoned_period_round_trip_partial (E : Env) (p : Period) (hv : p.valid = .ok ()) (hw : p.dur.WF)
    (hz : p.start.loc = .utc ∨ p.start.loc = .local) (hs : TimeOk E p.start)
    (hd : p.stop.isZero = true → p.stop = {} ∧
      (p.dur.weeks = 0 ∨ (p.dur.days = 0 ∧ p.dur.hours = 0 ∧ p.dur.minutes = 0 ∧ p.dur.seconds = 0)))
    (he : p.stop.isZero = false → p.dur = {} ∧ TimeOk E p.stop) : Period.decode E 0 none (Period.encode E p) = .ok p := by
  have hn : p.start.isZero = false := by
    cases h : p.start.isZero
    · rfl
    · simp [Period.valid, h] at hv
  have hloc : p.stop.isZero = false → p.stop.loc = p.start.loc := by
    intro h
    simp [Period.valid, h, hn, Res.guard_eq_ok] at hv
    exact hv.2.symm
  have hneg : p.stop.isZero = true → p.dur.neg = false := by
    intro h
    simpa [Period.valid, h, hn, Res.guard_eq_ok] using hv
  have := C27_period_round_trip_partial E 0 p hs
    (fun h => ⟨(hd h).1, hw, hneg h, (hd h).2⟩) (fun h => ⟨(he h).1, (he h).2, hloc h⟩)
  have ht : tzidOf p.start.loc = none := by rcases hz with h | h <;> rw [h] <;> rfl
  rw [ht] at this
  rw [this]
  have h1 : p.start.loc.withPtr 0 = p.start.loc := by rcases hz with h | h <;> rw [h] <;> rfl
  have h2 : p.stop.loc.withPtr (0 + 1) = p.stop.loc := by
    cases h : p.stop.isZero with
    | false => rw [hloc h]; rcases hz with h | h <;> rw [h] <;> rfl
    | true => rw [(hd h).1]; rfl
  rw [h1, h2]

theorem parseDateTime_loc {E : Env} {z : Bool} {l : Loc} {s : Str} {t : GoTime} (h : parseDateTime E z l s = some t) : t.loc = l := by
  obtain ⟨_, _, _, _, _, _, _, _, _, _, _, _, _, _, rfl⟩ := (parseDateTime_iff E z l s t).1 h
  rfl

theorem Duration.decode_neg {s : Str} {d : Duration} (h : Duration.decode s = .ok d) (hs : s.head? ≠ some '-') : d.neg = false := by
  have loop : ∀ (f st : Nat) (d d' : Duration) (s : Str), Duration.loop f st d s = .ok d' → d'.neg = d.neg := by
    intro f
    induction f with
    | zero => intro st d d' s h; simp [Duration.loop] at h
    | succ f ih =>
      intro st d d' s h
      unfold Duration.loop at h
      repeat' (first | split at h | (obtain ⟨_, _, h⟩ := Res.bind_eq_ok.1 h) | dsimp only at h)
      all_goals first
        | (cases h; done)
        | (injection h with h; rw [← h]; done)
        | (have := ih _ _ _ _ h; simpa using this)
  unfold Duration.decode at h
  dsimp only at h
  split at h
  · have := loop _ _ _ _ _ h
    rw [this]
    simp [hs]
  · cases h

/-- C27.  A decoded period without TZID whose start is not the zero time, and whose end, if there is one, is later and in the same
form (both UTC or both local), is accepted by validation. -/
theorem C27_decoded_accepted_partial (E : Env) (q : Nat) (s : Str) (p : Period) (h : Period.decode E q none s = .ok p)
    (h0 : p.start.isZero = false) (ho : p.stop.isZero = false → p.stop.after p.start = true ∧ p.start.loc = p.stop.loc) :
    p.valid = .ok () := by
  unfold Period.valid
  simp only [h0, Bool.false_eq_true, if_false]
  split
  · next hz =>
    rw [Res.guard_eq_ok]
    unfold Period.decode at h
    split at h
    · cases h
    · cases h
    · obtain ⟨st, _, h⟩ := Res.bind_eq_ok.1 h
      split at h
      · next hc =>
        obtain ⟨d, hd, h⟩ := Res.bind_eq_ok.1 h
        injection h with h
        subst h
        simp only
        rw [Duration.decode_neg hd]
        · rfl
        · rcases hc with rfl | rfl <;> simp
      · obtain ⟨d, hd, h⟩ := Res.bind_eq_ok.1 h
        injection h with h
        subst h
        rfl
  · next hz =>
    have := ho (by simpa using hz)
    rw [Res.guard_eq_ok]
    simp [this.1, this.2]

/-- C27.  No decoded period with a TZID naming a time zone and an end is ever accepted by validation: its start and end hold two
different copies of the location. -/
theorem C27_zoned_periods_rejected (E : Env) (q : Nat) (name : Str) (s : Str) (p : Period)
    (hn : name ≠ [] ∧ name ≠ c!"UTC" ∧ name ≠ c!"Local") (h : Period.decode E q (some name) s = .ok p)
    (he : p.stop.isZero = false) (hs : p.start.isZero = false) : p.valid = .err .invalidPeriodEnd := by
  have hl : ∀ (q : Nat) (s : Str) (t : GoTime), DateTime.decode E q (some name) s = .ok t → ∃ r, t.loc = .zone name q r := by
    intro q s t h
    obtain ⟨l, hl, h⟩ := Res.bind_eq_ok.1 h
    rw [Res.ofOption_eq_ok] at hl h
    simp only [loadLocation] at hl
    rw [if_neg (by simp [hn.1, hn.2.1]), if_neg hn.2.2] at hl
    obtain ⟨r, _, rfl⟩ := Option.map_eq_some_iff.1 hl
    exact ⟨r, parseDateTime_loc h⟩
  unfold Period.decode at h
  split at h
  · cases h
  · cases h
  · obtain ⟨st, hst, h⟩ := Res.bind_eq_ok.1 h
    split at h
    · obtain ⟨d, _, h⟩ := Res.bind_eq_ok.1 h
      injection h with h
      subst h
      simp [GoTime.isZero] at he
    · obtain ⟨en, hen, h⟩ := Res.bind_eq_ok.1 h
      injection h with h
      subst h
      obtain ⟨r1, l1⟩ := hl _ _ _ hst
      obtain ⟨r2, l2⟩ := hl _ _ _ hen
      unfold Period.valid
      simp only at he hs
      simp [he, hs, l1, l2, Res.guard]

def samplePeriod : Period := ⟨⟨63763119600, 0, .utc⟩, ⟨63763123200, 0, .utc⟩, {}⟩

example : Period.encode sampleEnv samplePeriod = c!"20210729T014000Z/20210729T024000Z" := by decide +kernel
example : Period.decode sampleEnv 0 none c!"20210729T014000Z/20210729T024000Z" = .ok samplePeriod := by decide +kernel
example : Period.decode sampleEnv 0 none c!"20210729T014000Z/PT1H30M" =
    .ok ⟨⟨63763119600, 0, .utc⟩, {}, { hours := 1, minutes := 30 }⟩ := by decide +kernel

/-- The hypotheses of the round trip are met. -/
example : samplePeriod.valid = .ok () ∧ TimeOk sampleEnv samplePeriod.start ∧ TimeOk sampleEnv samplePeriod.stop :=
  ⟨by decide, ⟨rfl, by decide +kernel, by decide +kernel, trivial, by decide⟩, ⟨rfl, by decide +kernel, by decide +kernel, trivial, by decide⟩⟩

def sampleZonedPeriod : Period := ⟨⟨63763119600, 0, .zone c!"Europe/Paris" 0 0⟩, ⟨63763123200, 0, .zone c!"Europe/Paris" 1 0⟩, {}⟩

/-- An ordinary zoned period, as decoded. -/
theorem sampleZonedPeriod_decoded :
    Period.decode sampleEnv 0 (some c!"Europe/Paris") c!"20210729T024000/20210729T034000" = .ok sampleZonedPeriod := by decide +kernel

/-- C27.  The claim as stated in full is false: a counterexample. -/
theorem C27_full_claim_is_false : ¬ C27_claim := by
  intro h
  have := h.2 _ _ _ _ sampleZonedPeriod_decoded (by decide) (by decide)
  exact absurd this (by decide)

/-- C27.  The first half fails too: an end makes the duration disappear. -/
theorem C27_duration_lost : (⟨samplePeriod.start, samplePeriod.stop, { hours := 1 }⟩ : Period).valid = .ok () ∧
    Period.decode sampleEnv 0 none (Period.encode sampleEnv ⟨samplePeriod.start, samplePeriod.stop, { hours := 1 }⟩) = .ok samplePeriod := by
  constructor <;> decide +kernel

/-! ## C28 -/

/-- The biased exponent of an IEEE 754 double with the given bits; 2047 for infinities and NaNs. -/
def exponent (bits : Nat) : Nat := bits / 2 ^ 52 % 2 ^ 11

/-- The full claim at the level of values: validation accepts exactly the pairs of finite floats. -/
def C28_value_claim : Prop :=
  ∀ a b : UInt64, TFloat.valid (a, b) = .ok () ↔ exponent a.toNat ≠ 2047 ∧ exponent b.toNat ≠ 2047

theorem floatSpecial_iff (b : UInt64) : floatSpecial b = true ↔ exponent b.toNat = 2047 := by
  unfold floatSpecial exponent
  rw [beq_iff_eq, ← UInt64.toNat_inj, UInt64.toNat_and, UInt64.toNat_shiftRight]
  have h1 : (0x7ff : UInt64).toNat = 2 ^ 11 - 1 := rfl
  rw [h1, Nat.and_two_pow_sub_one_eq_mod, Nat.shiftRight_eq_div_pow]
  exact Iff.rfl

/-- C28.  What validation does accept: pairs of infinities or NaNs, and nothing else. -/
theorem C28_validation_is_inverted (a b : UInt64) :
    TFloat.valid (a, b) = .ok () ↔ exponent a.toNat = 2047 ∧ exponent b.toNat = 2047 := by
  unfold TFloat.valid
  rw [unit_bind_ok, Res.guard_eq_ok, Res.guard_eq_ok, floatSpecial_iff, floatSpecial_iff]

/-- C28.  Every pair of finite floats is rejected. -/
theorem C28_finite_rejected (a b : UInt64) (h : exponent a.toNat ≠ 2047 ∨ exponent b.toNat ≠ 2047) :
    TFloat.valid (a, b) = .err .invalidFloat := by
  unfold TFloat.valid Res.guard
  have ha := floatSpecial_iff a
  have hb := floatSpecial_iff b
  cases h1 : floatSpecial a <;> cases h2 : floatSpecial b <;> simp_all

/-- C28.  The claim is false already for the value alone. -/
theorem C28_value_claim_is_false : ¬ C28_value_claim := by
  intro h
  have := (h 0 0).2 ⟨by decide, by decide⟩
  exact absurd this (by decide)

/-- 48.85 and 2.35, as float64 bits, are finite; +Inf and NaN are not. -/
example : exponent 0x40486ccccccccccd ≠ 2047 ∧ exponent 0x4002cccccccccccd ≠ 2047 ∧ exponent 0x7ff0000000000000 = 2047 ∧
    exponent 0x7ff8000000000001 = 2047 := by decide

end Ics.Props
