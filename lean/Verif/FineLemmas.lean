import Verif.MeaningLemmas
import Verif.Props.Valid
/-!
# What validation accepts; that it does not panic
-/

namespace Ics

open Spec Props

/-! ## No panic -/

theorem Res.bind_ne_panic {α β : Type} {x : Res α} {f : α → Res β} (h1 : x ≠ .panic) (h2 : ∀ a, f a ≠ .panic) : (x >>= f) ≠ .panic := by
  cases x with
  | ok a => exact h2 a
  | err e => intro h; cases h
  | panic => exact absurd rfl h1

theorem checks_ne_panic {α : Type} {f : α → Res Unit} (h : ∀ a, f a ≠ .panic) : ∀ l : List α, checks f l ≠ .panic := by
  intro l
  induction l with
  | nil => simp [checks]
  | cons a l ih => exact Res.bind_ne_panic (h a) fun _ => ih

theorem validFields_ne_panic : ∀ (fs : List SField) (vs : List (List PropVal)), (∀ f ∈ fs, ∀ v, f.spec.valid v ≠ .panic) → validFields fs vs ≠ .panic := by
  intro fs
  induction fs with
  | nil => intro vs _; cases vs <;> simp [validFields]
  | cons f fs ih =>
    intro vs h
    cases vs with
    | nil => simp [validFields]
    | cons v vs => exact Res.bind_ne_panic (checks_ne_panic (h f (by simp)) v) fun _ => ih vs fun g hg => h g (by simp [hg])

theorem validSubs_ne_panic {κ σ : Type} {val : κ → σ → Res Unit} (h : ∀ k s, val k s ≠ .panic) : ∀ (ks : List (Str × κ)) (vs : List (List σ)),
    validSubs val ks vs ≠ .panic := by
  intro ks
  induction ks with
  | nil => intro vs; cases vs <;> simp [validSubs]
  | cons k ks ih =>
    intro vs
    cases vs with
    | nil => simp [validSubs]
    | cons v vs => exact Res.bind_ne_panic (checks_ne_panic (h _) v) fun _ => ih vs

theorem checkAll_ne_panic {α : Type} (e : Err) (p : α → Bool) (l : List α) : checkAll e p l ≠ .panic := Res.guard_ne_panic

theorem Recur.valid_ne_panic (r : Recur) : r.valid ≠ .panic := by
  unfold Recur.valid
  repeat (first | exact Res.guard_ne_panic | refine Res.bind_ne_panic ?_ fun _ => ?_ | exact checkAll_ne_panic _ _ _)

theorem Val.valid_ne_panic (v : Val) : v.valid ≠ .panic := by
  cases v <;> simp only [Val.valid] <;> try simp
  · exact Res.guard_ne_panic
  · exact Res.guard_ne_panic
  · next ts =>
    induction ts with
    | nil => simp [MText.valid]
    | cons t ts ih => exact Res.bind_ne_panic Res.guard_ne_panic fun _ => ih
  · unfold Period.valid
    split
    · simp
    · split <;> exact Res.guard_ne_panic
  · exact Recur.valid_ne_panic _
  · exact Res.guard_ne_panic
  · exact Res.bind_ne_panic Res.guard_ne_panic fun _ => Res.guard_ne_panic

theorem PKind.valid_ne_panic (k : PKind) (v : ParamVal) : k.valid v ≠ .panic := by
  unfold PKind.valid
  split
  · exact Res.guard_ne_panic
  · exact Res.guard_ne_panic
  · exact checkAll_ne_panic _ _ _
  · simp

theorem validParams_ne_panic : ∀ (ds : List PDef) (ps : List (Option ParamVal)), validParams ds ps ≠ .panic := by
  intro ds
  induction ds with
  | nil => intro ps; simp [validParams]
  | cons d ds ih =>
    intro ps
    match ps with
    | [] => simp [validParams]
    | none :: ps => exact ih ps
    | some v :: ps => exact Res.bind_ne_panic (PKind.valid_ne_panic d.kind v) fun _ => ih ps

theorem validVals_ne_panic : ∀ vs : List (Option Val), validVals vs ≠ .panic
  | [] => by simp [validVals]
  | none :: vs => validVals_ne_panic vs
  | some v :: vs => Res.bind_ne_panic (Val.valid_ne_panic v) fun _ => validVals_ne_panic vs

theorem PSpec.valid_ne_panic (sp : PSpec) (v : PropVal) : sp.valid v ≠ .panic := by
  unfold PSpec.valid
  split
  · exact Res.guard_ne_panic
  · refine Res.bind_ne_panic (validParams_ne_panic _ _) fun _ => Res.bind_ne_panic (validVals_ne_panic _) fun _ => ?_
    split
    · simp
    · exact Res.guard_ne_panic
  · simp

theorem Tab.valid_ne_panic {κ σ : Type} (T : Tab κ) {val : κ → σ → Res Unit} (h : ∀ k s, val k s ≠ .panic) (s : Sect σ) : T.valid val s ≠ .panic :=
  Res.bind_ne_panic (validFields_ne_panic _ _ fun _ _ => PSpec.valid_ne_panic _) fun _ => validSubs_ne_panic h _ _

theorem Cal.valid_ne_panic (c : Cal) : c.valid ≠ .panic := by
  refine Tab.valid_ne_panic _ (fun T s => Tab.valid_ne_panic _ (fun k s => ?_) _) _
  unfold subValid
  split
  · simp
  · exact Tab.valid_ne_panic _ (fun k _ => nomatch k) _
  · exact Tab.valid_ne_panic _ (fun k _ => nomatch k) _
  · simp

/-! ## What is accepted -/

theorem noControl_iff (s : Str) : NoControl s ↔ ∀ c ∈ s, isCtl31 c = false := by
  have : ∀ c : Char, isCtl31 c = false ↔ ¬ (c.toNat ≤ 8 ∨ (11 ≤ c.toNat ∧ c.toNat ≤ 31) ∨ c.toNat = 127) := by
    intro c
    unfold isCtl31
    rw [Bool.eq_false_iff, ne_eq]
    simp only [Bool.or_eq_true, Bool.and_eq_true, decide_eq_true_eq, beq_iff_eq]
    omega
  simp only [NoControl, this]

theorem rule_fine_iff (r : Recur) : r.valid = .ok () ↔ RuleFine r := by
  unfold Recur.valid
  simp only [unit_bind_ok, checkAll_ok, Res.guard_eq_ok, decide_eq_true_eq, Bool.and_eq_true, Bool.not_eq_true', decide_eq_false_iff_not, Bool.or_eq_false_iff,
    beq_eq_false_iff_ne]
  constructor
  · rintro ⟨h1, h2, h3, h4, h5, h6, h7, h8, h9, h10, h11⟩
    exact ⟨h1, fun x hx => by have := h2 x hx; omega, fun x hx => by have := h3 x hx; omega, fun x hx => by have := h4 x hx; omega, h5,
      fun x hx => (inBound_iff _ _).1 (h6 x hx), fun x hx => (inBound_iff _ _).1 (h7 x hx),
      fun x hx => (inBound_iff _ _).1 (h8 x hx), fun x hx => by have := h9 x hx; omega, fun x hx => (inBound_iff _ _).1 (h10 x hx), h11⟩
  · rintro ⟨h1, h2, h3, h4, h5, h6, h7, h8, h9, h10, h11⟩
    exact ⟨h1, fun x hx => by have := h2 x hx; omega, fun x hx => by have := h3 x hx; omega, fun x hx => by have := h4 x hx; omega, h5,
      fun x hx => (inBound_iff _ _).2 (h6 x hx), fun x hx => (inBound_iff _ _).2 (h7 x hx),
      fun x hx => (inBound_iff _ _).2 (h8 x hx), fun x hx => by have := h9 x hx; omega, fun x hx => (inBound_iff _ _).2 (h10 x hx), h11⟩

theorem val_fine_iff (v : Val) : v.valid = .ok () ↔ ValFine v := by
  cases v <;> simp only [Val.valid, ValFine, Accepted]
  · exact time_valid_iff _
  · exact time_valid_iff _
  · rw [MText.valid_iff]
    simp only [Text.valid_iff, noControl_iff]
  · unfold Period.valid Res.guard
    rw [← zero_iff, ← zero_iff, ← after_iff]
    next x => cases x.start.isZero <;> cases x.stop.isZero <;> simp
  · exact rule_fine_iff _
  · rw [Text.valid_iff, noControl_iff]
  · unfold TFloat.valid
    rw [unit_bind_ok, Res.guard_eq_ok, Res.guard_eq_ok, special_iff, special_iff]

theorem param_fine_iff (k : PKind) (v : ParamVal) : k.valid v = .ok () ↔ ParamFine k v := by
  unfold PKind.valid ParamFine
  split
  · dsimp only
    rw [validText, Res.guard_eq_ok, noControl_iff]
    simp [containsAny]
  · rw [Res.guard_eq_ok, fmtMatch_iff]
  · dsimp only
    rw [checkAll_ok]
    simp only [noControl_iff]
    simp [containsAny]
  · next h1 h2 h3 => split <;> simp_all

theorem validParams_iff : ∀ (ds : List PDef) (ps : List (Option ParamVal)), validParams ds ps = .ok () ↔
    ∀ x ∈ (ds.zip ps).filterMap (fun x => x.2.map fun v => (x.1, v)), x.1.kind.valid x.2 = .ok () := by
  intro ds
  induction ds with
  | nil => intro ps; simp [validParams]
  | cons d ds ih =>
    intro ps
    cases ps with
    | nil => simp [validParams]
    | cons p ps =>
      cases p with
      | none =>
        have h : validParams (d :: ds) (none :: ps) = validParams ds ps := rfl
        rw [h, ih]
        simp
      | some v =>
        have h : validParams (d :: ds) (some v :: ps) = (d.kind.valid v >>= fun _ => validParams ds ps) := rfl
        rw [h, unit_bind_ok, ih]
        simp

theorem prop_fine_iff {sp : PSpec} {p : PropVal} (ht : sp.typed p = true) : sp.valid p = .ok () ↔ PropFine sp p := by
  obtain ⟨n, sh⟩ := sp
  cases sh with
  | enum names =>
    cases p with
    | enum k => simp [PSpec.valid, PropFine, Res.guard_eq_ok]
    | fields ps vs => simp [PSpec.typed] at ht
  | fields params vals =>
    cases p with
    | enum k => simp [PSpec.typed] at ht
    | fields ps vs =>
      simp only [PSpec.typed, Bool.and_eq_true] at ht
      obtain ⟨⟨_, h2⟩, h3⟩ := ht
      have hlen : ∀ {ks : List (Str × Kind)} {vs : List (Option Val)}, typedVals ks vs = true → ks.length = vs.length := by
        intro ks
        induction ks with
        | nil => intro vs h; cases vs with
          | nil => rfl
          | cons => cases h
        | cons k ks ih => intro vs h; cases vs with
          | nil => cases h
          | cons v vs =>
            simp only [typedVals, Bool.and_eq_true] at h
            simp [ih h.2]
      have hcount : (vs.filter (·.isSome)).length = (vs.filterMap id).length := by
        clear h2 h3
        induction vs with
        | nil => rfl
        | cons v vs ih => cases v <;> simpa using ih
      simp only [PSpec.valid, PropFine, unit_bind_ok, validParams_iff, validVals_iff, param_fine_iff, val_fine_iff, propParams, propVals]
      have hone : (if vals.length = 1 then Res.ok () else Res.guard .invalidValue (decide ((vs.filter (·.isSome)).length = 1))) = .ok () ↔ (vs.filterMap id).length = 1 := by
        by_cases h1 : vals.length = 1
        · rw [if_pos h1]
          simp only [true_iff]
          have := hlen h2
          match vs, this, h3 with
          | [some v], _, _ => rfl
          | [none], h, h3 => simp [h1] at h3
          | [], h, _ => simp [h1] at h
          | _ :: _ :: _, h, _ => simp [h1] at h
        · rw [if_neg h1, Res.guard_eq_ok, decide_eq_true_eq, hcount]
      rw [hone]
      constructor
      · rintro ⟨h1, h2, h3⟩
        refine ⟨h3, fun v hv => h2 v ?_, h1⟩
        simpa using hv
      · rintro ⟨h1, h2, h3⟩
        refine ⟨h3, fun v hv => h2 v ?_, h1⟩
        simpa using hv

end Ics
