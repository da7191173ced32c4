import Verif.Spec.LocalTime
import Verif.TimeMeaningLemmas
/-!
# Lemmas: the instant that package time takes for a reading of a clock
-/

namespace Ics

open Spec

theorem instant_shown (E : Env) (l : Loc) (hs : SaneZone (locOff E l)) (w x : Int) (hx : Shows (locOff E l) x w) : Shows (locOff E l) (instant E l w) w := by
  generalize hf : locOff E l = f at *
  unfold Shows instant at *
  simp only [hf]
  obtain ⟨t, a, b, h⟩ := hs.one w
  have b0 := hs.small x
  have fx := h x (by omega) (by omega)
  have b1 := hs.small w
  have f1 := h w (by omega) (by omega)
  split
  · omega
  · have b2 := hs.small (w - f w)
    have f2 := h (w - f w) (by omega) (by omega)
    have f3 := h (w - f (w - f w)) (by omega) (by omega)
    generalize f w = o1 at *
    generalize f (w - o1) = o2 at *
    generalize f (w - o2) = o3 at *
    generalize f x = o4 at *
    split at f1 <;> split at f2 <;> split at f3 <;> split at fx <;> omega

theorem instant_west (E : Env) (l : Loc) (hs : SaneZone (locOff E l)) (hw : ∀ x, locOff E l x ≤ 0) (w x : Int) (hx : Shows (locOff E l) x w) : instant E l w ≤ x := by
  generalize hf : locOff E l = f at *
  unfold Shows instant at *
  simp only [hf]
  obtain ⟨t, a, b, h⟩ := hs.one w
  have b0 := hs.small x
  have fx := h x (by omega) (by omega)
  have b1 := hs.small w
  have f1 := h w (by omega) (by omega)
  have n0 := hw x
  have n1 := hw w
  split
  · split at f1 <;> split at fx <;> omega
  · have b2 := hs.small (w - f w)
    have f2 := h (w - f w) (by omega) (by omega)
    generalize f w = o1 at *
    have n2 := hw (w - o1)
    generalize f (w - o1) = o2 at *
    generalize f x = o4 at *
    split at f1 <;> split at f2 <;> split at fx <;> omega

theorem instant_east (E : Env) (l : Loc) (hs : SaneZone (locOff E l)) (hw : ∀ x, 0 ≤ locOff E l x) (w x : Int) (hx : Shows (locOff E l) x w) : x ≤ instant E l w := by
  generalize hf : locOff E l = f at *
  unfold Shows instant at *
  simp only [hf]
  obtain ⟨t, a, b, h⟩ := hs.one w
  have b0 := hs.small x
  have fx := h x (by omega) (by omega)
  have b1 := hs.small w
  have f1 := h w (by omega) (by omega)
  have n0 := hw x
  have n1 := hw w
  split
  · split at f1 <;> split at fx <;> omega
  · have b2 := hs.small (w - f w)
    have f2 := h (w - f w) (by omega) (by omega)
    generalize f w = o1 at *
    have n2 := hw (w - o1)
    generalize f (w - o1) = o2 at *
    generalize f x = o4 at *
    split at f1 <;> split at f2 <;> split at fx <;> omega

/-- Where a reading is missing, the clock is put forward over it; with offsets of one sign, the offset before or after is taken. -/
theorem instant_gap (E : Env) (l : Loc) (hs : SaneZone (locOff E l)) (w : Int) (hx : ∀ x, ¬ Shows (locOff E l) x w) :
    ∃ t, t - 1 + locOff E l (t - 1) < w ∧ w < t + locOff E l t ∧ (0 ≤ locOff E l (t - 1) → instant E l w = w - locOff E l (t - 1)) ∧
      (locOff E l t ≤ 0 → instant E l w = w - locOff E l t) := by
  generalize hf : locOff E l = f at *
  unfold Shows at hx
  unfold instant
  simp only [hf]
  obtain ⟨t, a, b, h⟩ := hs.one w
  have b1 := hs.small w
  have h1 : t ≤ w + 54000 := by
    by_cases ht : t ≤ w + 54000
    · exact ht
    · have e := h w (by omega) (by omega)
      rw [if_pos (by omega)] at e
      have e' := h (w - f w) (by omega) (by omega)
      rw [if_pos (by omega)] at e'
      exact absurd (by omega) (hx (w - f w))
  have h2 : w - 54000 < t := by
    by_cases ht : w - 54000 < t
    · exact ht
    · have e := h w (by omega) (by omega)
      rw [if_neg (by omega)] at e
      have e' := h (w - f w) (by omega) (by omega)
      rw [if_neg (by omega)] at e'
      exact absurd (by omega) (hx (w - f w))
  have ea := h (t - 1) (by omega) (by omega)
  have eb := h t (by omega) (by omega)
  rw [if_pos (by omega)] at ea
  rw [if_neg (by omega)] at eb
  have ba := hs.small (t - 1)
  have bb := hs.small t
  rw [ea] at ba
  rw [eb] at bb
  have ga : t + a ≤ w := by
    by_cases hg : t + a ≤ w
    · exact hg
    · have e := h (w - a) (by omega) (by omega)
      rw [if_pos (by omega)] at e
      exact absurd (by omega) (hx (w - a))
  have gb : w < t + b := by
    by_cases hg : w < t + b
    · exact hg
    · have e := h (w - b) (by omega) (by omega)
      rw [if_neg (by omega)] at e
      exact absurd (by omega) (hx (w - b))
  refine ⟨t, by omega, by omega, ?_, ?_⟩
  · rw [ea]
    intro hp
    have f1 := h w (by omega) (by omega)
    rw [if_neg (by omega)] at f1
    rw [f1, if_neg (by omega)]
    have f2 := h (w - b) (by omega) (by omega)
    rw [if_pos (by omega)] at f2
    rw [f2]
  · rw [eb]
    intro hp
    have f1 := h w (by omega) (by omega)
    rw [if_pos (by omega)] at f1
    rw [f1, if_neg (by omega)]
    have f2 := h (w - a) (by omega) (by omega)
    rw [if_neg (by omega)] at f2
    rw [f2]

/-- In general: a reading that is there twice, or not at all, belongs to one change of the offset, and the reading taken as a time in UTC is compared with it. -/
theorem instant_twice (E : Env) (l : Loc) (hs : SaneZone (locOff E l)) (w x y : Int) (hx : Shows (locOff E l) x w) (hy : Shows (locOff E l) y w) (hxy : x < y) :
    ∃ g, x < g ∧ g ≤ y ∧ (∀ z, x ≤ z → z < g → locOff E l z = locOff E l x) ∧ (∀ z, g ≤ z → z ≤ y → locOff E l z = locOff E l y) ∧
      (w < g → instant E l w = x) ∧ (g ≤ w → instant E l w = y) := by
  generalize hf : locOff E l = f at *
  unfold Shows at hx hy
  unfold instant
  simp only [hf]
  obtain ⟨t, a, b, h⟩ := hs.one w
  have bx := hs.small x
  have by' := hs.small y
  have fx := h x (by omega) (by omega)
  have fy := h y (by omega) (by omega)
  have hxt : x < t := by
    by_cases c : x < t
    · exact c
    · rw [if_neg c] at fx
      rw [if_neg (by omega)] at fy
      omega
  have hyt : t ≤ y := by
    by_cases c : t ≤ y
    · exact c
    · rw [if_pos hxt] at fx
      rw [if_pos (by omega)] at fy
      omega
  rw [if_pos hxt] at fx
  rw [if_neg (by omega)] at fy
  have bw := hs.small w
  have fw := h w (by omega) (by omega)
  refine ⟨t, hxt, hyt, fun z h1 h2 => ?_, fun z h1 h2 => ?_, fun hw => ?_, fun hw => ?_⟩
  · rw [h z (by omega) (by omega), if_pos h2, fx]
  · rw [h z (by omega) (by omega), if_neg (by omega), fy]
  · rw [if_pos hw] at fw
    have e : w - f w = x := by omega
    rw [e, fx]
    split <;> omega
  · rw [if_neg (by omega)] at fw
    have e : w - f w = y := by omega
    rw [e, fy]
    split <;> omega

/-- The other way: where there is no instant with the reading. -/
theorem instant_never (E : Env) (l : Loc) (hs : SaneZone (locOff E l)) (w g : Int) (h1 : g - 1 + locOff E l (g - 1) < w) (h2 : w < g + locOff E l g) (hn : ∀ x, ¬ Shows (locOff E l) x w) :
    (g ≤ w → instant E l w = w - locOff E l (g - 1)) ∧ (w < g → instant E l w = w - locOff E l g) := by
  generalize hf : locOff E l = f at *
  unfold Shows at hn
  unfold instant
  simp only [hf]
  obtain ⟨t, a, b, h⟩ := hs.one w
  have bw := hs.small w
  have b1 := hs.small (g - 1)
  have b2 := hs.small g
  have f1 := h (g - 1) (by omega) (by omega)
  have f2 := h g (by omega) (by omega)
  have fw := h w (by omega) (by omega)
  have ht : t = g := by
    by_cases c : g - 1 < t
    · by_cases d : g < t
      · rw [if_pos c] at f1
        rw [if_pos d] at f2
        have := hn g
        omega
      · omega
    · rw [if_neg c] at f1
      rw [if_neg (by omega)] at f2
      omega
  subst ht
  rw [if_pos (by omega)] at f1
  rw [if_neg (by omega)] at f2
  have g1 := h (w - a) (by omega) (by omega)
  have g2 := h (w - b) (by omega) (by omega)
  have ha : t ≤ w - a := by
    by_cases c : w - a < t
    · rw [if_pos c] at g1
      exact absurd (by omega) (hn (w - a))
    · omega
  have hb : w - b < t := by
    by_cases c : w - b < t
    · exact c
    · rw [if_neg c] at g2
      exact absurd (by omega) (hn (w - b))
  rw [if_neg (by omega)] at g1
  rw [if_pos hb] at g2
  refine ⟨fun hw => ?_, fun hw => ?_⟩
  · rw [if_neg (by omega)] at fw
    rw [fw, g2, f1]
    split <;> omega
  · rw [if_pos hw] at fw
    rw [fw, g1, f2]
    split <;> omega

/-- There is one gap only that a reading can be in. -/
theorem gap_unique {f : Int → Int} (hs : SaneZone f) {w t u : Int} (h1 : t - 1 + f (t - 1) < w) (h2 : w < t + f t) (h3 : u - 1 + f (u - 1) < w) (h4 : w < u + f u) : t = u := by
  obtain ⟨c, a, b, h⟩ := hs.one w
  have b1 := hs.small (t - 1)
  have b2 := hs.small t
  have b3 := hs.small (u - 1)
  have b4 := hs.small u
  have e1 := h (t - 1) (by omega) (by omega)
  have e2 := h t (by omega) (by omega)
  have e3 := h (u - 1) (by omega) (by omega)
  have e4 := h u (by omega) (by omega)
  split at e1 <;> split at e2 <;> split at e3 <;> split at e4 <;> omega

theorem rfcLocal_first {f : Int → Int} {w x y : Int} (h : RfcLocal f w x) (hy : Shows f y w) : x ≤ y := by
  cases h with
  | first _ h2 => exact h2 y hy
  | gap h2 _ _ => exact absurd hy (h2 y)

theorem rfcLocal_unique {f : Int → Int} (hs : SaneZone f) {w x y : Int} (h1 : RfcLocal f w x) (h2 : RfcLocal f w y) : x = y := by
  cases h1 with
  | first a1 a2 =>
    cases h2 with
    | first b1 b2 => exact Int.le_antisymm (a2 _ b1) (b2 _ a1)
    | gap b1 _ _ => exact absurd a1 (b1 _)
  | gap a1 a2 a3 =>
    cases h2 with
    | first b1 _ => exact absurd b1 (a1 _)
    | gap _ b2 b3 => rw [gap_unique hs a2 a3 b2 b3]

/-- With a time zone, a text that is a reading is decoded to the instant for it. -/
theorem decode_reading {E : Env} {p : Nat} {n s : Str} {r : Nat} {w : Int} (h0 : n ≠ []) (h1 : n ≠ c!"UTC") (h2 : n ≠ c!"Local") (h3 : E.loadZone n = some r)
    (h : Reading s w) : ∃ ns, DateTime.decode E p (some n) s = .ok ⟨instant E (.zone n p r) w, ns, .zone n p r⟩ := by
  obtain ⟨a, c, f, y, m, d, hh, mi, sec, ns, k, g1, g2, g3, g4, rfl, rfl⟩ := h
  exact ⟨ns, (DateTime.decode_iff ..).2 ⟨a, c, f, y, m, d, hh, mi, sec, ns, k, _, g1, g2, g3, g4, rfl, .zone h0 h1 h2 h3, rfl⟩⟩

theorem decode_is_reading {E : Env} {p : Nat} {n s : Str} {t : GoTime} (h : DateTime.decode E p (some n) s = .ok t) : ∃ w, Reading s w := by
  obtain ⟨a, c, f, y, m, d, hh, mi, sec, ns, k, l, g1, g2, g3, g4, rfl, g5, g6⟩ := (DateTime.decode_iff ..).1 h
  exact ⟨_, a, c, f, y, m, d, hh, mi, sec, ns, k, g1, g2, g3, g4, g6, rfl⟩

theorem reading_iff (E : Env) (s : Str) (w : Int) : Reading s w ↔ ∃ ns, DateTime.decode E 0 (some c!"UTC") s = .ok ⟨w, ns, .utc⟩ := by
  have hu : ∀ v, instant E .utc v = v := fun v => by simp [instant, locOff]
  constructor
  · rintro ⟨a, c, f, y, m, d, hh, mi, sec, ns, k, g1, g2, g3, g4, rfl, rfl⟩
    exact ⟨ns, (DateTime.decode_iff ..).2 ⟨a, c, f, y, m, d, hh, mi, sec, ns, k, _, g1, g2, g3, g4, by rw [hu], .utc, rfl⟩⟩
  · rintro ⟨n, h⟩
    obtain ⟨a, c, f, y, m, d, hh, mi, sec, ns, k, l, g1, g2, g3, g4, g7, g5, g6⟩ := (DateTime.decode_iff ..).1 h
    injection g7 with e1 e2 e3
    subst e3
    rw [hu] at e1
    exact ⟨a, c, f, y, m, d, hh, mi, sec, ns, k, g1, g2, g3, g4, g6, e1⟩

theorem reading_unique (E : Env) {s : Str} {v w : Int} (h1 : Reading s v) (h2 : Reading s w) : v = w := by
  obtain ⟨_, h1⟩ := (reading_iff E s v).1 h1
  obtain ⟨_, h2⟩ := (reading_iff E s w).1 h2
  rw [h1] at h2
  cases h2
  rfl

/-- No reading is shown three times. -/
theorem shows_two {f : Int → Int} (hs : SaneZone f) {w x y z : Int} (hx : Shows f x w) (hy : Shows f y w) (hz : Shows f z w) (hxy : x < y) (hyz : y ≤ z) : z = y := by
  unfold Shows at *
  obtain ⟨t, a, b, h⟩ := hs.one w
  have b1 := hs.small x
  have b2 := hs.small y
  have b3 := hs.small z
  have e1 := h x (by omega) (by omega)
  have e2 := h y (by omega) (by omega)
  have e3 := h z (by omega) (by omega)
  split at e1 <;> split at e2 <;> split at e3 <;> omega

end Ics
