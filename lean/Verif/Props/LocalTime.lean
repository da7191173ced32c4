import Verif.LocalTimeLemmas
import Verif.Props.Again
/-!
# Properties: local times in a time zone (C62)
-/

namespace Ics.Props

open Ics Spec

/-- A name (not one of the special ones) that is in the time zone database, of a zone with offsets that do not change all the time. -/
structure NamedZone (E : Env) (n : Str) (r : Nat) : Prop where
  name : n ≠ [] ∧ n ≠ c!"UTC" ∧ n ≠ c!"Local"
  load : E.loadZone n = some r
  sane : SaneZone (E.zoneOff r)

/-- C62.  Full claim: a DATE-TIME with TZID is the instant that RFC 5545 says. -/
def C62_claim : Prop := ∀ (E : Env) (p : Nat) (n s : Str) (r : Nat) (w : Int) (t : GoTime), NamedZone E n r → Reading s w → DateTime.decode E p (some n) s = .ok t →
  RfcLocal (E.zoneOff r) w t.sec

/-- C62.  The reading of a text and the instant that the RFC gives to it are unique, so the claim says which instant the result is. -/
theorem C62_rfc_unique (E : Env) (n s : Str) (r : Nat) (v w x y : Int) (hz : NamedZone E n r) (hv : Reading s v) (hw : Reading s w)
    (hx : RfcLocal (E.zoneOff r) v x) (hy : RfcLocal (E.zoneOff r) w y) : v = w ∧ x = y := by
  have e : v = w := reading_unique E hv hw
  subst e
  exact ⟨rfl, rfcLocal_unique hz.sane hx hy⟩

private theorem sec_of {E : Env} {p : Nat} {n s : Str} {r : Nat} {w : Int} {t : GoTime} (hz : NamedZone E n r) (hr : Reading s w)
    (h : DateTime.decode E p (some n) s = .ok t) : t.sec = instant E (.zone n p r) w ∧ t.loc = .zone n p r := by
  obtain ⟨ns, h'⟩ := decode_reading (p := p) hz.name.1 hz.name.2.1 hz.name.2.2 hz.load hr
  rw [h] at h'
  cases h'
  exact ⟨rfl, rfl⟩

/-- C62.  Whatever is accepted is a reading, and each reading is accepted. -/
theorem C62_accepts (E : Env) (p : Nat) (n s : Str) (r : Nat) (hz : NamedZone E n r) :
    (∃ t, DateTime.decode E p (some n) s = .ok t) ↔ ∃ w, Reading s w := by
  constructor
  · rintro ⟨t, h⟩
    exact decode_is_reading h
  · rintro ⟨w, h⟩
    obtain ⟨ns, h'⟩ := decode_reading (p := p) hz.name.1 hz.name.2.1 hz.name.2.2 hz.load h
    exact ⟨_, h'⟩

/-- C62.  If the clock shows the reading at all, it does at the decoded instant. -/
theorem C62_shown (E : Env) (p : Nat) (n s : Str) (r : Nat) (w x : Int) (t : GoTime) (hz : NamedZone E n r) (hr : Reading s w)
    (h : DateTime.decode E p (some n) s = .ok t) (hx : Shows (E.zoneOff r) x w) : Shows (E.zoneOff r) t.sec w := by
  rw [(sec_of hz hr h).1]
  exact instant_shown E (.zone n p r) hz.sane w x hx

/-- C62.  A reading that the clock shows exactly once is decoded as the RFC says.  Missing for the full claim: readings that occur twice, or never. -/
theorem C62_once_partial (E : Env) (p : Nat) (n s : Str) (r : Nat) (w x : Int) (t : GoTime) (hz : NamedZone E n r) (hr : Reading s w)
    (h : DateTime.decode E p (some n) s = .ok t) (hx : Shows (E.zoneOff r) x w) (ho : ∀ y, Shows (E.zoneOff r) y w → y = x) :
    t.sec = x ∧ RfcLocal (E.zoneOff r) w t.sec := by
  have h1 := C62_shown E p n s r w x t hz hr h hx
  exact ⟨ho _ h1, .first h1 fun y hy => by rw [ho _ h1, ho _ hy]; exact Int.le_refl x⟩

/-- C62.  West of Greenwich a reading that the clock shows, once or twice, is decoded as the RFC says: the first occurrence. -/
theorem C62_west_partial (E : Env) (p : Nat) (n s : Str) (r : Nat) (w x : Int) (t : GoTime) (hz : NamedZone E n r) (hr : Reading s w)
    (h : DateTime.decode E p (some n) s = .ok t) (hw : ∀ y, E.zoneOff r y ≤ 0) (hx : Shows (E.zoneOff r) x w) : RfcLocal (E.zoneOff r) w t.sec := by
  refine .first (C62_shown E p n s r w x t hz hr h hx) fun y hy => ?_
  rw [(sec_of hz hr h).1]
  exact instant_west E (.zone n p r) hz.sane hw w y hy

/-- C62.  East of Greenwich a reading that the clock does not show twice, that is once or never, is decoded as the RFC says: in a gap with the offset before it. -/
theorem C62_east_partial (E : Env) (p : Nat) (n s : Str) (r : Nat) (w : Int) (t : GoTime) (hz : NamedZone E n r) (hr : Reading s w)
    (h : DateTime.decode E p (some n) s = .ok t) (hw : ∀ y, 0 ≤ E.zoneOff r y) (ho : ∀ x y, Shows (E.zoneOff r) x w → Shows (E.zoneOff r) y w → x = y) :
    RfcLocal (E.zoneOff r) w t.sec := by
  by_cases hx : ∃ x, Shows (E.zoneOff r) x w
  · obtain ⟨x, hx⟩ := hx
    exact (C62_once_partial E p n s r w x t hz hr h hx fun y hy => ho y x hy hx).2
  · have hn : ∀ x, ¬ Shows (E.zoneOff r) x w := fun x hs => hx ⟨x, hs⟩
    obtain ⟨g, g1, g2, g3, _⟩ := instant_gap E (.zone n p r) hz.sane w hn
    rw [(sec_of hz hr h).1, g3 (hw _)]
    exact .gap hn g1 g2

/-- C62.  East of Greenwich a reading that the clock shows twice is decoded as the last occurrence, against the RFC. -/
theorem C62_east_twice (E : Env) (p : Nat) (n s : Str) (r : Nat) (w x y : Int) (t : GoTime) (hz : NamedZone E n r) (hr : Reading s w)
    (h : DateTime.decode E p (some n) s = .ok t) (hw : ∀ y, 0 ≤ E.zoneOff r y) (hx : Shows (E.zoneOff r) x w) (hy : Shows (E.zoneOff r) y w) (hxy : x < y) :
    t.sec = y ∧ ¬ RfcLocal (E.zoneOff r) w t.sec := by
  have e := (sec_of hz hr h).1
  have l1 := instant_east E (.zone n p r) hz.sane hw w y hy
  rw [← e] at l1
  refine ⟨?_, fun hl => ?_⟩
  · exact shows_two hz.sane hx hy (C62_shown E p n s r w x t hz hr h hx) hxy l1
  · have h1 := rfcLocal_first hl hx
    omega

/-- C62.  West of Greenwich a reading that the clock skips is decoded with the offset behind the gap, against the RFC: the instant is before the gap. -/
theorem C62_west_gap (E : Env) (p : Nat) (n s : Str) (r : Nat) (w : Int) (t : GoTime) (hz : NamedZone E n r) (hr : Reading s w)
    (h : DateTime.decode E p (some n) s = .ok t) (hw : ∀ y, E.zoneOff r y ≤ 0) (hn : ∀ x, ¬ Shows (E.zoneOff r) x w) :
    (∃ g, g - 1 + E.zoneOff r (g - 1) < w ∧ w < g + E.zoneOff r g ∧ t.sec = w - E.zoneOff r g ∧ t.sec < g) ∧ ¬ RfcLocal (E.zoneOff r) w t.sec := by
  obtain ⟨g, g1, g2, _, g3⟩ := instant_gap E (.zone n p r) hz.sane w hn
  replace g1 : g - 1 + E.zoneOff r (g - 1) < w := g1
  replace g2 : w < g + E.zoneOff r g := g2
  have e : t.sec = w - E.zoneOff r g := (sec_of hz hr h).1.trans (g3 (hw _))
  refine ⟨⟨g, g1, g2, e, by omega⟩, fun hl => ?_⟩
  have := rfcLocal_unique hz.sane hl (.gap hn g1 g2)
  omega

/-- C62.  Exactly when the result is what the RFC says, anywhere: if the reading is there twice, when it is, taken as a time in UTC, before the change of the offset between the
two; if it is not there at all, when it is, taken as a time in UTC, not before the change that skips it; and always if it is there once.  The full claim is false. -/
theorem C62_exactly_partial (E : Env) (p : Nat) (n s : Str) (r : Nat) (w : Int) (t : GoTime) (hz : NamedZone E n r) (hr : Reading s w)
    (h : DateTime.decode E p (some n) s = .ok t) : RfcLocal (E.zoneOff r) w t.sec ↔
      (∀ x g y, Shows (E.zoneOff r) x w → Shows (E.zoneOff r) y w → x < g → g ≤ y → E.zoneOff r (g - 1) ≠ E.zoneOff r g → w < g) ∧
      (∀ g, (∀ x, ¬ Shows (E.zoneOff r) x w) → g - 1 + E.zoneOff r (g - 1) < w → w < g + E.zoneOff r g → g ≤ w) := by
  have e : t.sec = instant E (.zone n p r) w := (sec_of hz hr h).1
  have hs : SaneZone (locOff E (.zone n p r)) := hz.sane
  have change : ∀ {x g y c : Int}, x < g → g ≤ y → (∀ z, x ≤ z → z < c → E.zoneOff r z = E.zoneOff r x) → (∀ z, c ≤ z → z ≤ y → E.zoneOff r z = E.zoneOff r y) →
      E.zoneOff r (g - 1) ≠ E.zoneOff r g → g = c := by
    intro x g y c h1 h2 h3 h4 h5
    rcases Int.lt_trichotomy g c with a | a | a
    · exact absurd ((h3 (g - 1) (by omega) (by omega)).trans (h3 g (by omega) a).symm) h5
    · exact a
    · exact absurd ((h4 (g - 1) (by omega) (by omega)).trans (h4 g (by omega) h2).symm) h5
  constructor
  · intro hl
    refine ⟨fun x g y hx hy h1 h2 h3 => ?_, fun g hn h1 h2 => ?_⟩
    · obtain ⟨c, c1, c2, c3, c4, _, c6⟩ := instant_twice E (.zone n p r) hs w x y hx hy (by omega)
      have hg := change h1 h2 c3 c4 h3
      subst hg
      have := rfcLocal_first hl hx
      by_cases hw : w < g
      · exact hw
      · have := c6 (by omega)
        omega
    · have hg := rfcLocal_unique hz.sane hl (.gap hn h1 h2)
      obtain ⟨_, g2⟩ := instant_never E (.zone n p r) hs w g h1 h2 hn
      by_cases hw : w < g
      · have g2 : instant E (.zone n p r) w = w - E.zoneOff r g := g2 hw
        omega
      · omega
  · rintro ⟨ha, hb⟩
    by_cases hx : ∃ x, Shows (E.zoneOff r) x w
    · obtain ⟨x, hx⟩ := hx
      have ht := C62_shown E p n s r w x t hz hr h hx
      refine .first ht fun y hy => ?_
      by_cases hlt : y < t.sec
      · obtain ⟨c, c1, c2, c3, c4, c5, _⟩ := instant_twice E (.zone n p r) hs w y t.sec hy ht hlt
        have hne : E.zoneOff r (c - 1) ≠ E.zoneOff r c := by
          rw [show E.zoneOff r (c - 1) = E.zoneOff r y from c3 (c - 1) (by omega) (by omega), show E.zoneOff r c = E.zoneOff r t.sec from c4 c (by omega) c2]
          unfold Shows at hy ht
          omega
        have := c5 (ha y c t.sec hy ht c1 c2 hne)
        omega
      · omega
    · have hn : ∀ x, ¬ Shows (E.zoneOff r) x w := fun x hs => hx ⟨x, hs⟩
      obtain ⟨g, g1, g2, _⟩ := instant_gap E (.zone n p r) hs w hn
      have g1 : g - 1 + E.zoneOff r (g - 1) < w := g1
      have g2 : w < g + E.zoneOff r g := g2
      have := (instant_never E (.zone n p r) hs w g g1 g2 hn).1 (hb g hn g1 g2)
      rw [e, this]
      exact .gap hn g1 g2

/-! ## Witnesses -/

/-- A zone like that of New York, with the change of 14 March 2021, 7:00 UTC. -/
def westEnv : Env :=
  { sampleEnv with
    loadZone := fun n => if n = c!"America/New_York" then some 0 else none
    zoneOff := fun _ t => if t < 63751302000 then -18000 else -14400 }

theorem sane_step (t a b : Int) (h1 : -54000 ≤ a ∧ a ≤ 54000) (h2 : -54000 ≤ b ∧ b ≤ 54000) (h3 : 0 < t) (h4 : t < 300000000000) :
    SaneZone fun x => if x < t then a else b := by
  refine ⟨fun x => by show _ ∧ _; split <;> omega, fun w => ⟨t, a, b, fun _ _ _ => rfl⟩, fun x y hx hy => ?_, fun x y hx hy => ?_⟩
  · unfold Near yearZero at hx hy
    show ite _ _ _ = ite _ _ _
    rw [if_pos (by omega), if_pos (by omega)]
  · unfold Near yearTenThousand at hx hy
    show ite _ _ _ = ite _ _ _
    rw [if_neg (by omega), if_neg (by omega)]

theorem paris_zone : NamedZone sampleEnv c!"Europe/Paris" 0 :=
  ⟨by decide, by decide, sane_step 100000000 7200 3600 (by decide) (by decide) (by decide) (by decide)⟩

theorem york_zone : NamedZone westEnv c!"America/New_York" 0 :=
  ⟨by decide, by decide, sane_step 63751302000 (-18000) (-14400) (by decide) (by decide) (by decide) (by decide)⟩

/-- C62.  The hour that is there twice: 3 March of year 4, 10:46:40, is 8:46:40 and 9:46:40 UTC; the RFC asks for the first, the second is taken. -/
theorem C62_full_claim_is_false : ¬ C62_claim := by
  intro h
  have hd : DateTime.decode sampleEnv 0 (some c!"Europe/Paris") c!"00040303T104640" = .ok ⟨100000000, 0, .zone c!"Europe/Paris" 0 0⟩ := by decide +kernel
  have hr : Reading c!"00040303T104640" 100003600 := (reading_iff sampleEnv _ _).2 ⟨0, by decide +kernel⟩
  exact (C62_east_twice _ _ _ _ _ _ 99996400 100000000 _ paris_zone hr hd (fun y => by show 0 ≤ ite _ _ _; split <;> decide) (by unfold Shows; decide) (by unfold Shows; decide) (by decide)).2
    (h _ _ _ _ _ _ _ paris_zone hr hd)

/-- C62.  The hour that is not there: 14 March 2021, 2:30, is read as 1:30 EST, an hour before what the RFC asks for (3:30 EDT). -/
theorem C62_new_york : DateTime.decode westEnv 0 (some c!"America/New_York") c!"20210314T023000" = .ok ⟨63751300200, 0, .zone c!"America/New_York" 0 0⟩ ∧
    DateTime.encode westEnv ⟨63751300200, 0, .zone c!"America/New_York" 0 0⟩ = c!"20210314T013000" := by decide +kernel

/-- C62.  The hypotheses of the theorem on gaps are met there. -/
example : ¬ RfcLocal (westEnv.zoneOff 0) 63751285800 63751300200 :=
  (C62_west_gap westEnv 0 c!"America/New_York" c!"20210314T023000" 0 63751285800 _ york_zone ((reading_iff sampleEnv _ _).2 ⟨0, by decide +kernel⟩) C62_new_york.1
    (fun y => by show ite _ _ _ ≤ _; split <;> decide) (fun x h => by
      have h : x + ite (x < 63751302000) (-18000) (-14400) = 63751285800 := h
      split at h <;> omega)).2

/-- An ordinary time, met by the theorems on times that occur. -/
example : RfcLocal (westEnv.zoneOff 0) 63751289400 63751303800 := by
  have hd : DateTime.decode westEnv 0 (some c!"America/New_York") c!"20210314T033000" = .ok ⟨63751303800, 0, .zone c!"America/New_York" 0 0⟩ := by decide +kernel
  exact C62_west_partial westEnv 0 c!"America/New_York" c!"20210314T033000" 0 63751289400 63751303800 _ york_zone ((reading_iff sampleEnv _ _).2 ⟨0, by decide +kernel⟩) hd
    (fun y => by show ite _ _ _ ≤ _; split <;> decide) (by unfold Shows; decide)

/-- A zone in which the offset changes its sign: half an hour before Greenwich, then half an hour behind it. -/
def bothEnv : Env :=
  { sampleEnv with
    loadZone := fun n => if n = c!"Mid/Way" then some 0 else none
    zoneOff := fun _ t => if t < 63763119600 then 1800 else -1800 }

theorem both_zone : NamedZone bothEnv c!"Mid/Way" 0 :=
  ⟨by decide, by decide, sane_step 63763119600 1800 (-1800) (by decide) (by decide) (by decide) (by decide)⟩

/-- C62.  There the hour that is there twice has one half that is read as the RFC says, and one that is not. -/
theorem C62_half : RfcLocal (bothEnv.zoneOff 0) 63763119000 63763117200 ∧ ¬ RfcLocal (bothEnv.zoneOff 0) 63763120200 63763122000 ∧
    DateTime.decode bothEnv 0 (some c!"Mid/Way") c!"20210729T013000" = .ok ⟨63763117200, 0, .zone c!"Mid/Way" 0 0⟩ ∧
    DateTime.decode bothEnv 0 (some c!"Mid/Way") c!"20210729T015000" = .ok ⟨63763122000, 0, .zone c!"Mid/Way" 0 0⟩ := by
  have h1 : DateTime.decode bothEnv 0 (some c!"Mid/Way") c!"20210729T013000" = .ok ⟨63763117200, 0, .zone c!"Mid/Way" 0 0⟩ := by decide +kernel
  have h2 : DateTime.decode bothEnv 0 (some c!"Mid/Way") c!"20210729T015000" = .ok ⟨63763122000, 0, .zone c!"Mid/Way" 0 0⟩ := by decide +kernel
  have r1 : Reading c!"20210729T013000" 63763119000 := (reading_iff sampleEnv _ _).2 ⟨0, by decide +kernel⟩
  have r2 : Reading c!"20210729T015000" 63763120200 := (reading_iff sampleEnv _ _).2 ⟨0, by decide +kernel⟩
  have hf : ∀ x, bothEnv.zoneOff 0 x = if x < 63763119600 then 1800 else -1800 := fun _ => rfl
  refine ⟨(C62_exactly_partial _ _ _ _ _ _ _ both_zone r1 h1).2 ⟨fun x g y _ _ _ _ hc => ?_, fun g hn _ _ => ?_⟩, fun hl => ?_, h1, h2⟩
  · rw [hf, hf] at hc
    split at hc <;> split at hc <;> omega
  · exact absurd (by unfold Shows; decide) (hn 63763117200)
  · have := ((C62_exactly_partial _ _ _ _ _ _ _ both_zone r2 h2).1 hl).1 63763118400 63763119600 63763122000 (by unfold Shows; decide) (by unfold Shows; decide) (by decide) (by decide) (by decide)
    omega

end Ics.Props
