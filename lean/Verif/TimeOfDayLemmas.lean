import Verif.TimeMeaningLemmas
/-!
# Lemmas about times of day
-/

namespace Ics

open Spec

theorem parseDate8_zero (s : Str) : parseDate8 (c!"00000101T" ++ s) = some (dayNumber 0 1 1, 'T' :: s) := rfl

/-- A time of day is read like that time on the first day of year 0. -/
theorem Time.decode_date (E : Env) (p : Nat) (tz : Option Str) (s : Str) : Time.decode E p tz s = DateTime.decode E p tz (c!"00000101T" ++ s) := by
  have h : ∀ z l, parseTime E z l s = parseDateTime E z l (c!"00000101T" ++ s) := by
    intro z l
    unfold parseTime parseDateTime
    rw [parseDate8_zero]
    rfl
  have hl : (c!"00000101T" ++ s).getLast? = some 'Z' ↔ s.getLast? = some 'Z' := by
    rw [List.getLast?_append]
    cases s.getLast? <;> simp
  unfold Time.decode DateTime.decode
  cases tz with
  | some n => simp only [h]
  | none => simp only [h, hl]

theorem zeroDay : DateText c!"00000101" 0 1 1 ∧ DayCount 0 0 1 1 ∧ midnight 0 = -366 * 86400 := by
  have h1 : Dec c!"01" 1 := .snoc (s := c!"0") 1 (.one 0)
  have h2 : Dec c!"0000" 0 := .snoc (s := c!"000") 0 (.snoc (s := c!"00") 0 (.snoc (s := c!"0") 0 (.one 0)))
  exact ⟨⟨c!"0000", c!"01", c!"01", rfl, ⟨h2, rfl⟩, ⟨h1, rfl⟩, ⟨h1, rfl⟩, by unfold IsDate; decide⟩, rfl, by decide⟩

theorem Time.decode_iff (E : Env) (p : Nat) (tz : Option Str) (s : Str) (t : GoTime) : Time.decode E p tz s = .ok t ↔ TimeMeans E p tz s t := by
  rw [Time.decode_date, DateTime.decode_iff]
  constructor
  · rintro ⟨a, c, f, y, m, d, h, mi, sec, ns, k, l, h2, hk, h3, h4, rfl, h5⟩
    have key : ∀ r : Str, c!"00000101T" ++ s = a ++ 'T' :: r → a = c!"00000101" ∧ s = r := by
      intro r e
      have hl : a.length = 8 := by
        obtain ⟨u, v, w, rfl, ⟨_, hu⟩, ⟨_, hv⟩, ⟨_, hw⟩, _⟩ := h2
        simp [hu, hv, hw]
      have := List.append_inj (s₁ := c!"00000101") (t₁ := 'T' :: s) (s₂ := a) (t₂ := 'T' :: r) e (by rw [hl]; rfl)
      exact ⟨this.1.symm, by injection this.2⟩
    have hday : a = c!"00000101" → midnight k = -366 * 86400 := by
      rintro rfl
      have e1 := dayCount_sec' h2 hk
      have e2 := dayCount_sec' zeroDay.1 zeroDay.2.1
      have e3 : y = 0 ∧ m = 1 ∧ d = 1 := by
        obtain ⟨u, v, w, e, hu, hv, hw, _⟩ := h2
        obtain ⟨rfl, rfl, rfl⟩ : u = c!"0000" ∧ v = c!"01" ∧ w = c!"01" := by
          rw [List.append_assoc] at e
          have i1 := List.append_inj (s₁ := c!"0000") (t₁ := c!"0101") (s₂ := u) (t₂ := v ++ w) e (by rw [hu.2]; rfl)
          have i2 := List.append_inj (s₁ := c!"01") (t₁ := c!"01") (s₂ := v) (t₂ := w) i1.2 (by rw [hv.2]; rfl)
          exact ⟨i1.1.symm, i2.1.symm, i2.2.symm⟩
        exact ⟨(Dec_facts hu.1).2.2.symm, (Dec_facts hv.1).2.2.symm, (Dec_facts hw.1).2.2.symm⟩
      obtain ⟨rfl, rfl, rfl⟩ := e3
      rw [← e1, e2, zeroDay.2.2]
    cases tz with
    | some n =>
      obtain ⟨h5, h6⟩ := h5
      obtain ⟨ha, hs⟩ := key _ h6
      exact ⟨c, f, h, mi, sec, ns, l, h3, h4, by rw [hday ha], h5, hs⟩
    | none =>
      rcases h5 with ⟨h5, h6⟩ | ⟨h5, h6⟩
      · rw [List.append_assoc, List.cons_append] at h6
        obtain ⟨ha, hs⟩ := key _ h6
        exact ⟨c, f, h, mi, sec, ns, l, h3, h4, by rw [hday ha], .inl ⟨h5, hs⟩⟩
      · obtain ⟨ha, hs⟩ := key _ h6
        exact ⟨c, f, h, mi, sec, ns, l, h3, h4, by rw [hday ha], .inr ⟨h5, hs⟩⟩
  · rintro ⟨c, f, h, mi, sec, ns, l, h3, h4, rfl, h5⟩
    refine ⟨c!"00000101", c, f, 0, 1, 1, h, mi, sec, ns, 0, l, zeroDay.1, zeroDay.2.1, h3, h4, by rw [zeroDay.2.2], ?_⟩
    cases tz with
    | some n => exact ⟨h5.1, by rw [h5.2]; rfl⟩
    | none =>
      rcases h5 with ⟨h5, rfl⟩ | ⟨h5, rfl⟩
      · exact .inl ⟨h5, rfl⟩
      · exact .inr ⟨h5, rfl⟩

/-- What comes back of the time of day. -/
theorem Time.decode_encode (E : Env) (p : Nat) (t : GoTime) (h : LocOk E t.loc) :
    Time.decode E p (tzidOf t.loc) (Time.encode E t) = .ok ⟨instant E t.loc (-366 * 86400 + t.wall E % 86400), 0, t.loc.withPtr p⟩ := by
  have h1 : ∀ z l, parseTime E z l (fmtClock (t.wall E % 86400).toNat ++ (if z then ['Z'] else [])) = some ⟨instant E l (-366 * 86400 + t.wall E % 86400), 0, l⟩ := by
    intro z l
    unfold parseTime
    rw [parseClock_fmt _ (by omega) _ (by cases z <;> simp)]
    simp only [if_true]
    rw [show dayNumber 0 1 1 * 86400 + (((t.wall E % 86400).toNat : Nat) : Int) = -366 * 86400 + t.wall E % 86400 by
      rw [show dayNumber 0 1 1 = -366 by decide]; omega]
  have hl : ∀ c, (fmtClock c).getLast? ≠ some 'Z' := by
    intro c h
    apply fmtClock_last [] c
    rw [List.nil_append, List.getLast?_cons, h]
    rfl
  unfold Time.encode
  obtain ⟨sec, nsec, loc⟩ := t
  cases loc with
  | utc =>
    have := h1 true .utc
    simp only [if_true] at this ⊢
    simp only [tzidOf, Time.decode]
    rw [if_pos (List.getLast?_concat ..), this]
    rfl
  | «local» =>
    have := h1 false .local
    simp only [Bool.false_eq_true, if_false, List.append_nil] at this
    rw [if_neg (by simp), List.append_nil]
    simp only [tzidOf, Time.decode]
    rw [if_neg (hl _), this]
    rfl
  | zone name ptr r =>
    obtain ⟨n1, n2, n3, n4⟩ := h
    have := h1 false (.zone name p r)
    simp only [Bool.false_eq_true, if_false, List.append_nil] at this
    rw [if_neg (by simp), List.append_nil]
    simp only [tzidOf, Time.decode]
    rw [show loadLocation E p name = some (.zone name p r) from (loadLocation_iff ..).2 (.zone n1 n2 n3 n4)]
    show Res.ofOption _ _ = _
    rw [this]
    rfl

end Ics
