import Verif.Spec.GoTypes
/-!
# Lemmas about the Go types
-/

namespace Ics
open Spec

theorem beside_nil {α β : Type} {bs : List β} {x : α} {y : β} : ¬ Beside [] bs x y := by rintro ⟨i, h, _⟩; simp at h

theorem beside_cons {α β : Type} {a : α} {b : β} {as : List α} {bs : List β} {x : α} {y : β} :
    Beside (a :: as) (b :: bs) x y ↔ (x = a ∧ y = b) ∨ Beside as bs x y := by
  constructor
  · rintro ⟨i, h1, h2⟩
    cases i with
    | zero => simp at h1 h2; exact .inl ⟨h1.symm, h2.symm⟩
    | succ i => exact .inr ⟨i, by simpa using h1, by simpa using h2⟩
  · rintro (⟨rfl, rfl⟩ | ⟨i, h1, h2⟩)
    · exact ⟨0, rfl, rfl⟩
    · exact ⟨i + 1, by simpa using h1, by simpa using h2⟩

theorem param_of_type (k : PKind) (p : ParamVal) : k.typed p = true ↔ ParamOfType k p := by
  cases k <;> cases p <;> simp [PKind.typed, ParamOfType]
  omega

theorem params_of_type : ∀ (ds : List PDef) (ps : List (Option ParamVal)), typedParams ds ps = true ↔
    ps.length = ds.length ∧ ∀ d v, Beside ds ps d (some v) → ParamOfType d.kind v
  | [], [] => by simp [typedParams, beside_nil]
  | _ :: _, [] => by simp [typedParams]
  | [], _ :: _ => by simp [typedParams]
  | d :: ds, p :: ps => by
    have ih := params_of_type ds ps
    simp only [typedParams, Bool.and_eq_true, ih, List.length_cons, Nat.add_right_cancel_iff, beside_cons]
    constructor
    · rintro ⟨h1, h2, h3⟩
      refine ⟨h2, fun d' v h => ?_⟩
      rcases h with ⟨rfl, h⟩ | h
      · subst h
        exact (param_of_type _ _).1 (by simpa using h1)
      · exact h3 d' v h
    · rintro ⟨h1, h2⟩
      refine ⟨?_, h1, fun d' v h => h2 d' v (.inr h)⟩
      cases p with
      | none => rfl
      | some v => exact (param_of_type _ _).2 (h2 d v (.inl ⟨rfl, rfl⟩))

theorem vals_of_type : ∀ (ks : List (Str × Kind)) (vs : List (Option Val)), typedVals ks vs = true ↔
    vs.length = ks.length ∧ ∀ n k v, Beside ks vs (n, k) (some v) → v.kind = k
  | [], [] => by simp [typedVals, beside_nil]
  | (_, _) :: _, [] => by simp [typedVals]
  | [], _ :: _ => by simp [typedVals]
  | (n, k) :: ks, v :: vs => by
    have ih := vals_of_type ks vs
    simp only [typedVals, Bool.and_eq_true, ih, List.length_cons, Nat.add_right_cancel_iff, beside_cons]
    constructor
    · rintro ⟨h1, h2, h3⟩
      refine ⟨h2, fun n' k' v' h => ?_⟩
      rcases h with ⟨h, h'⟩ | h
      · cases h
        subst h'
        simpa using h1
      · exact h3 n' k' v' h
    · rintro ⟨h1, h2⟩
      refine ⟨?_, h1, fun n' k' v' h => h2 n' k' v' (.inr h)⟩
      cases v with
      | none => rfl
      | some v => simpa using h2 n k v (.inl ⟨rfl, rfl⟩)

theorem prop_of_type (sp : PSpec) (p : PropVal) : sp.typed p = true ↔ PropOfType sp p := by
  obtain ⟨name, shape⟩ := sp
  unfold PSpec.typed PropOfType
  cases shape with
  | enum names =>
    cases p with
    | enum n => simp; omega
    | fields ps vs => simp
  | fields params vals =>
    cases p with
    | enum n => simp
    | fields ps vs =>
      simp only [Bool.and_eq_true, params_of_type, vals_of_type, PropVal.fields.injEq]
      constructor
      · rintro ⟨⟨⟨h1, h2⟩, h3, h4⟩, h5⟩
        refine ⟨ps, vs, ⟨rfl, rfl⟩, h1, h2, h3, h4, fun h => ?_⟩
        rw [h] at h3
        obtain ⟨v, rfl⟩ := List.length_eq_one_iff.1 h3
        cases v with
        | none => simp [h] at h5
        | some v => exact ⟨v, rfl⟩
      · rintro ⟨_, _, ⟨rfl, rfl⟩, h1, h2, h3, h4, h5⟩
        refine ⟨⟨⟨h1, h2⟩, h3, h4⟩, ?_⟩
        by_cases h : vals.length = 1
        · obtain ⟨v, rfl⟩ := h5 h
          simp
        · simp [h]

theorem fields_of_type : ∀ (fs : List SField) (vs : List (List PropVal)), typedFields fs vs = true ↔
    vs.length = fs.length ∧ ∀ f ps, Beside fs vs f ps → FieldOfType f ps
  | [], [] => by simp [typedFields, beside_nil]
  | _ :: _, [] => by simp [typedFields]
  | [], _ :: _ => by simp [typedFields]
  | f :: fs, v :: vs => by
    have ih := fields_of_type fs vs
    have hf : (v.all f.spec.typed && (match f.mult with
      | .req => v.length == 1
      | .opt => decide (v.length ≤ 1)
      | .many => true)) = true ↔ FieldOfType f v := by
      unfold FieldOfType
      rw [Bool.and_eq_true, List.all_eq_true]
      refine and_congr ⟨fun h p hp => (prop_of_type _ _).1 (h p hp), fun h p hp => (prop_of_type _ _).2 (h p hp)⟩ ?_
      cases f.mult with
      | req => simp [List.length_eq_one_iff]
      | opt =>
        rcases v with _ | ⟨p, _ | ⟨q, v⟩⟩ <;> simp
      | many => simp
    simp only [typedFields, List.length_cons, Nat.add_right_cancel_iff, beside_cons]
    rw [Bool.and_eq_true]
    refine (and_congr hf ih).trans ?_
    constructor
    · rintro ⟨h1, h2, h3⟩
      refine ⟨h2, fun f' ps h => ?_⟩
      rcases h with ⟨rfl, rfl⟩ | h
      · exact h1
      · exact h3 f' ps h
    · rintro ⟨h1, h2⟩
      exact ⟨h2 f v (.inl ⟨rfl, rfl⟩), h1, fun f' ps h => h2 f' ps (.inr h)⟩

theorem parts_of_type {κ σ : Type} {typ : κ → σ → Bool} {P : κ → σ → Prop} : ∀ (ks : List (Str × κ)) (vs : List (List σ)),
    (∀ n k, (n, k) ∈ ks → ∀ x, typ k x = true ↔ P k x) →
    (typedSubs typ ks vs = true ↔ vs.length = ks.length ∧ ∀ n k ss, Beside ks vs (n, k) ss → ∀ x ∈ ss, P k x)
  | [], [], _ => by simp [typedSubs, beside_nil]
  | (_, _) :: _, [], _ => by simp [typedSubs]
  | [], _ :: _, _ => by simp [typedSubs]
  | (n, k) :: ks, v :: vs, h0 => by
    have ih := parts_of_type (typ := typ) (P := P) ks vs fun n k h => h0 n k (List.mem_cons_of_mem _ h)
    have hk := h0 n k (List.mem_cons_self ..)
    simp only [typedSubs, List.length_cons, Nat.add_right_cancel_iff, beside_cons, Bool.and_eq_true, ih, List.all_eq_true]
    constructor
    · rintro ⟨h1, h2, h3⟩
      refine ⟨h2, fun n' k' ss h x hx => ?_⟩
      rcases h with ⟨h, rfl⟩ | h
      · cases h
        exact (hk x).1 (h1 x hx)
      · exact h3 n' k' ss h x hx
    · rintro ⟨h1, h2⟩
      exact ⟨fun x hx => (hk x).2 (h2 n k v (.inl ⟨rfl, rfl⟩) x hx), h1, fun n' k' ss h => h2 n' k' ss (.inr h)⟩

theorem sect_of_type {κ σ : Type} {typ : κ → σ → Bool} {P : κ → σ → Prop} (T : Tab κ) (h0 : ∀ n k, (n, k) ∈ T.subs → ∀ x, typ k x = true ↔ P k x) (s : Sect σ) :
    T.typed typ s = true ↔ SectOfType P T s := by
  unfold Tab.typed
  rw [Bool.and_eq_true, fields_of_type, parts_of_type _ _ h0]
  exact ⟨fun h => ⟨h.1.1, h.1.2, h.2.1, h.2.2⟩, fun h => ⟨⟨h.1, h.2⟩, h.3, h.4⟩⟩

theorem leaf_of_type (T : Tab Empty) (s : Leaf) : T.typed noTyp s = true ↔ SectOfType (fun _ _ => True) T s := sect_of_type T (fun _ k => nomatch k) s

theorem sub_of_type (k : SubKind) (s : Sub) : subTyped k s = true ↔ SubOfType k s := by
  unfold subTyped SubOfType
  cases k with
  | alarm =>
    cases s with
    | leaf l => simp
    | alarm a =>
      cases a with
      | none => simp
      | some al =>
        obtain ⟨a, l⟩ := al
        simp only [leaf_of_type, Sub.alarm.injEq, Option.some.injEq, Prod.mk.injEq, reduceCtorEq, false_or]
        exact ⟨fun h => ⟨a, l, ⟨rfl, rfl⟩, h⟩, fun ⟨_, _, ⟨h1, h2⟩, h⟩ => by subst h1; subst h2; exact h⟩
  | leaf T =>
    cases s with
    | leaf l =>
      simp only [leaf_of_type, Sub.leaf.injEq]
      exact ⟨fun h => ⟨l, rfl, h⟩, fun ⟨_, h1, h⟩ => h1 ▸ h⟩
    | alarm a => simp

theorem cal_of_type (c : Cal) : c.typed = true ↔ CalOfType c :=
  sect_of_type tabCalendar (fun _ _ _ x => sect_of_type _ (fun _ k _ y => sub_of_type k y) x) c

end Ics
