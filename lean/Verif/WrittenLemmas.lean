import Verif.Spec.Written
import Verif.Props.Rule
import Verif.Props.Scalars
import Verif.AgainLemmas
/-!
# Lemmas: which values have a text, and which text is written
-/

namespace Ics

open Spec Props

/-! ## Times -/

theorem Four_below {s : Str} {n : Nat} (h : Four s n) : n ≤ 9999 := by
  have := Dec_below h.1
  rw [h.2] at this
  omega

theorem Two_below {s : Str} {n : Nat} (h : Two s n) : n ≤ 99 := by
  have := Dec_below h.1
  rw [h.2] at this
  omega

theorem dayText_encode {E : Env} {t : GoTime} (h : FourDigits E t) : DayText E t (fmtDate8 (t.wall E / 86400)) := by
  obtain ⟨h1, _⟩ := fmtDate8_text _ h.1 h.2
  exact ⟨_, _, _, h1, by rw [Int.toNat_of_nonneg h.1]⟩

theorem dayText_four {E : Env} {t : GoTime} {s : Str} (h : DayText E t s) : FourDigits E t := by
  obtain ⟨y, m, d, ⟨a, _, _, _, ha, _⟩, e⟩ := h
  have := Four_below ha
  unfold FourDigits
  rw [e]
  exact ⟨by simp, by simp only; omega⟩

theorem momentText_encode {E : Env} {t : GoTime} (h : FourDigits E t) : MomentText E t (DateTime.encode E t) := by
  have hc : (t.wall E % 86400).toNat < 86400 := by omega
  refine ⟨_, _, _, _, _, rfl, dayText_encode h, fmtClock_text _ hc, ?_⟩
  omega

theorem momentText_four {E : Env} {t : GoTime} {s : Str} (h : MomentText E t s) : FourDigits E t := by
  obtain ⟨_, _, _, _, _, _, h, _⟩ := h
  exact dayText_four h

/-! ## Durations -/

theorem durBody_units {s : Str} {x : Duration} (h : DurBody s x) : x.weeks = 0 ∨ (x.days = 0 ∧ x.hours = 0 ∧ x.minutes = 0 ∧ x.seconds = 0) := by
  rcases h with ⟨_, h⟩ | ⟨_, h, _⟩ | ⟨_, h⟩
  · exact .inl h
  · exact .inl h
  · exact .inr h

theorem rfcDuration_units {s : Str} {x : Duration} (h : RfcDuration s x) : x.weeks = 0 ∨ (x.days = 0 ∧ x.hours = 0 ∧ x.minutes = 0 ∧ x.seconds = 0) := by
  obtain ⟨_, h, _⟩ := h
  exact durBody_units h

/-! ## Offsets -/

theorem hourMinute_below {s : Str} {n : Nat} (h : HourMinute 23 s n) : n < 86400 := by
  cases h <;> omega

theorem rfcOffset_below {s : Str} {u : Int} (h : RfcOffset s u) : -86400 < u ∧ u < 86400 := by
  obtain ⟨t, v, h, ⟨_, rfl⟩ | ⟨_, rfl, _⟩⟩ := h <;> have := hourMinute_below h <;> omega

/-! ## Floats -/

theorem floatText_free {s : Str} (h : FloatText s) : ';' ∉ s := by
  have hd : ∀ {a : Str} {n : Nat}, Dec a n → ';' ∉ a := by
    intro a n ha hc
    have := List.all_eq_true.1 (Dec_facts ha).2.1 _ hc
    revert this
    decide
  obtain ⟨sign, a, n, hs, ha, rfl | ⟨b, m, hb, rfl⟩⟩ := h
  · rcases hs with rfl | rfl | rfl <;> simpa using hd ha
  · rcases hs with rfl | rfl | rfl <;> simpa using ⟨hd ha, hd hb⟩

theorem semi_unique {a b c d : Str} (h : a ++ ';' :: b = c ++ ';' :: d) (hc : ';' ∉ c) (hd : ';' ∉ d) : a = c ∧ b = d := by
  rcases List.append_eq_append_iff.1 h with ⟨x, rfl, e⟩ | ⟨x, rfl, e⟩
  · cases x with
    | nil => simpa using e
    | cons y x => cases e; simp at hc
  · cases x with
    | nil => simpa using e.symm
    | cons y x => cases e; simp at hd

/-! ## Rules -/

theorem Spec.Pairwise2.of_mem_right {α β : Type} {R : α → β → Prop} {as : List α} {bs : List β} (h : Pairwise2 R as bs) {b : β} (hb : b ∈ bs) : ∃ a ∈ as, R a b := by
  induction h with
  | nil => cases hb
  | cons h _ ih =>
    rcases List.mem_cons.1 hb with rfl | hb
    · exact ⟨_, List.mem_cons_self, h⟩
    · obtain ⟨a, ha, h⟩ := ih hb
      exact ⟨a, List.mem_cons_of_mem _ ha, h⟩


theorem Spec.RuleText.unique {s : Str} {ps qs : List (Str × Str)} (h : RuleText s ps) (h' : RuleText s qs) : ps = qs := by
  have key : ∀ {ps : List (Str × Str)}, RuleText s ps → splitOn ';' s = ps.map ruleLine := by
    intro ps ⟨h1, h2, h3⟩
    rw [h3]
    apply splitOn_join
    · simpa using h1
    · intro w hw
      obtain ⟨x, hx, rfl⟩ := List.mem_map.1 hw
      have := (ruleName_free (h2 x hx).1).2
      simp [this, (h2 x hx).2]
  exact ruleLines_inj (fun x hx => (h.2.1 x hx).1) (fun x hx => (h'.2.1 x hx).1) (by rw [← key h, ← key h'])

theorem ruleText_ruleOf (E : Env) (r : Recur) : RuleText (Recur.encode E r) (ruleOf E r) := by
  refine ⟨by simp [ruleOf], fun x hx => ⟨(ruleOf_mem (n := x.1) (v := x.2) hx).1, ?_⟩, ?_⟩
  · intro hc
    have : partChar ';' := parts_mem (w := ruleLine x) (by rw [parts_ruleOf]; exact List.mem_map_of_mem hx) (by simp [ruleLine, hc])
    revert this
    decide
  · show join [';'] (r.parts E) = _
    rw [parts_ruleOf]
    rfl

theorem partsNamed_listPart {α : Type} {n m : Str} (f : α → Str) (l : List α) (h : n ≠ m) : partsNamed (listPart n f l) m = [] := by
  cases l <;> simp [listPart, partsNamed, h]

theorem partsNamed_until (E : Env) (r : Recur) : partsNamed (ruleOf E r) c!"UNTIL" =
    if r.count ≠ 0 then [] else if !r.until_.isZero then [if r.untilTime then DateTime.encode E r.until_ else Date.encode E r.until_] else [] := by
  unfold ruleOf
  simp only [partsNamed_append]
  repeat rw [partsNamed_listPart _ _ (by decide)]
  have a : partsNamed [(c!"FREQ", fmtFreq r.freq)] c!"UNTIL" = [] := by simp [partsNamed]
  have b : partsNamed (if r.interval ≠ 0 then [(c!"INTERVAL", fmtNat r.interval)] else []) c!"UNTIL" = [] := by split <;> simp [partsNamed]
  have c : partsNamed (if r.weekStart ≠ 0 then [(c!"WKST", fmtDay r.weekStart)] else []) c!"UNTIL" = [] := by split <;> simp [partsNamed]
  rw [a, b, c]
  simp only [List.nil_append, List.append_nil]
  split
  · simp [partsNamed]
  · split <;> simp [partsNamed]

theorem partsNamed_dropUntil (E : Env) (r : Recur) (n : Str) (h : n ≠ c!"UNTIL") : partsNamed (ruleOf E { r with until_ := {}, untilTime := false }) n = partsNamed (ruleOf E r) n := by
  unfold ruleOf
  simp only [partsNamed_append]
  congr 12
  split
  · rfl
  · have : (GoTime.isZero {}) = true := by decide
    rw [this]
    simp only [Bool.not_true, Bool.false_eq_true, if_false]
    split
    · simp [partsNamed, Ne.symm h]
    · rfl

theorem listsRead_congr {W : Str → DayRecur → Prop} {ps qs : List (Str × Str)} {r r' : Recur} (hp : ∀ n, n ≠ c!"UNTIL" → partsNamed ps n = partsNamed qs n)
    (hr : { r with until_ := {}, untilTime := false } = r') (h : ListsRead W ps r') : ListsRead W qs r := by
  subst hr
  obtain ⟨h1, h2, h3, h4, h5, h6, h7, h8, h9, h10⟩ := h
  rw [hp _ (by decide)] at h1 h2 h3 h4 h5 h6 h7 h8 h9 h10
  exact ⟨h1, h2, h3, h4, h5, h6, h7, h8, h9, h10⟩

theorem recurText_encode {E : Env} {r : Recur} (hw : r.WF) (hv : r.valid = .ok ()) (h1 : r.count = 0 ∨ r.until_.isZero = true)
    (h2 : ∀ x ∈ r.byDay, x.occ = 0 ∨ Ordinal 53 x.occ) (h3 : r.until_.isZero = false → FourDigits E r.until_) : RecurText E r (Recur.encode E r) := by
  obtain ⟨v1, v2, v3, v4, v5, v6, v7, v8, v9, v10, v11⟩ := (Recur.valid_iff r).1 hv
  have hz : (GoTime.isZero {}) = true := by decide
  have hr : RecurInRange { r with until_ := {}, untilTime := false } :=
    ⟨v1, v11, .inr hz, hw.count, hw.interval, v2, v3, v4, fun x hx => ⟨v5 x hx, h2 x hx⟩, v6, v7, v8, v9, v10⟩
  obtain ⟨ps, a1, a2, a3, _, a4, _, a5⟩ := C56_written_rules_partial E 0 { r with until_ := {}, untilTime := false } hr
    ⟨fun _ => ⟨rfl, rfl⟩, fun h => absurd h (by rw [hz]; decide), fun h => absurd h (by rw [hz]; decide)⟩
  cases a1.unique (ruleText_ruleOf E _)
  have hp := partsNamed_dropUntil E r
  rw [hp _ (by decide)] at a2 a3 a4
  refine ⟨_, ruleText_ruleOf E r, a2, a3, a4, ?_, ?_, listsRead_congr hp rfl a5⟩
  · rw [partsNamed_until]
    by_cases hc : r.count = 0
    · rw [if_neg (by simp [hc])]
      cases hu : r.until_.isZero with
      | true => exact .inl ⟨rfl, by simp⟩
      | false =>
        refine .inr ⟨_, rfl, rfl, ?_⟩
        split
        · exact momentText_encode (h3 hu)
        · exact dayText_encode (h3 hu)
    · rw [if_pos hc]
      exact .inl ⟨h1.resolve_left hc, rfl⟩
  · rw [partsNamed_until]
    by_cases hc : r.count = 0
    · left
      rw [List.eq_nil_iff_forall_not_mem]
      intro v hv
      exact (ruleOf_mem (partsNamed_mem.1 hv)).2.2.1 rfl hc
    · exact .inr (if_pos hc)

theorem weekdayNum_range {s : Str} {x : DayRecur} (h : WeekdayNum s x) : x.occ = 0 ∨ Ordinal 53 x.occ := by
  unfold Ordinal
  cases h with
  | every _ => exact .inl rfl
  | plain h _ => obtain ⟨_, _, _, _⟩ := h; right; simp only; omega
  | plus h _ => obtain ⟨_, _, _, _⟩ := h; right; simp only; omega
  | minus h _ => obtain ⟨_, _, _, _⟩ := h; right; simp only; omega

theorem recurText_range {E : Env} {r : Recur} {s : Str} (h : RecurText E r s) :
    (r.count = 0 ∨ r.until_.isZero = true) ∧ (∀ x ∈ r.byDay, x.occ = 0 ∨ Ordinal 53 x.occ) ∧ (r.until_.isZero = false → FourDigits E r.until_) := by
  obtain ⟨ps, _, _, h1, _, h2, h3, h4⟩ := h
  refine ⟨?_, ?_, ?_⟩
  · rcases h3 with h3 | h3
    · rw [h3] at h1
      exact .inl h1
    · rcases h2 with ⟨h2, _⟩ | ⟨u, _, h2, _⟩
      · exact .inr h2
      · rw [h3] at h2; cases h2
  · have := h4.byDay
    revert this
    unfold Once
    split
    · intro e x hx; rw [e] at hx; cases hx
    · rintro ⟨ws, _, _, _, hp⟩ x hx
      obtain ⟨w, _, hw⟩ := hp.of_mem_right hx
      exact weekdayNum_range hw
    · exact False.elim
  · intro hz
    rcases h2 with ⟨h2, _⟩ | ⟨u, _, _, h2⟩
    · rw [hz] at h2; cases h2
    · split at h2
      · exact momentText_four h2
      · exact dayText_four h2

end Ics
