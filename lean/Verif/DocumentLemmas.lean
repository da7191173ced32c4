import Verif.CodecLemmas
import Verif.Spec.Document
/-!
# From calendars that are typed and valid to calendars that are read back
-/

namespace Ics

open Spec

variable {κ σ : Type}

/-! ## One property -/

theorem validVals_iff : ∀ vs : List (Option Val), validVals vs = .ok () ↔ ∀ v, some v ∈ vs → v.valid = .ok () := by
  intro vs
  induction vs with
  | nil => simp [validVals]
  | cons x vs ih =>
    cases x with
    | none => simp only [validVals, Res.ok_bind, ih]; simp
    | some w =>
      constructor
      · intro h
        simp only [validVals] at h
        obtain ⟨u, h1, h2⟩ := Res.bind_eq_ok.1 h
        intro v hm
        rcases List.mem_cons.1 hm with e | hm
        · injection e with e; subst e; exact h1
        · exact ih.1 h2 v hm
      · intro h
        have h1 := h w List.mem_cons_self
        simp only [validVals, h1, Res.ok_bind]
        exact ih.2 (fun v hm => h v (List.mem_cons_of_mem _ hm))

theorem typedVals_length : ∀ {ks : List (Str × Kind)} {vs : List (Option Val)}, typedVals ks vs = true → vs.length = ks.length := by
  intro ks
  induction ks with
  | nil => intro vs h; cases vs <;> simp_all [typedVals]
  | cons k ks ih =>
    obtain ⟨n, k⟩ := k
    intro vs h
    cases vs with
    | nil => simp [typedVals] at h
    | cons v vs =>
      simp only [typedVals, Bool.and_eq_true] at h
      simp [ih h.2]

theorem typedVals_kind : ∀ {ks : List (Str × Kind)} {vs : List (Option Val)}, typedVals ks vs = true →
    ∀ (i : Nat) (v : Val), vs[i]? = some (some v) → v.kind = (ks.getD i ([], .text)).2 := by
  intro ks
  induction ks with
  | nil => intro vs h i v hv; cases vs <;> simp_all [typedVals]
  | cons k ks ih =>
    obtain ⟨n, k⟩ := k
    intro vs h i v hv
    cases vs with
    | nil => simp at hv
    | cons w vs =>
      simp only [typedVals, Bool.and_eq_true] at h
      cases i with
      | zero =>
        simp only [List.getElem?_cons_zero, Option.some.injEq] at hv
        subst hv
        simpa using h.1
      | succ i =>
        have := ih h.2 i v (by simpa using hv)
        simpa using this

theorem one_some : ∀ {vs : List (Option Val)}, (vs.filter (·.isSome)).length = 1 →
    ∃ i v, i < vs.length ∧ vs = oneOf vs.length i v := by
  intro vs
  induction vs with
  | nil => intro h; simp at h
  | cons x vs ih =>
    intro h
    cases x with
    | none =>
      simp only [List.filter_cons, Option.isSome_none, Bool.false_eq_true, if_false] at h
      obtain ⟨i, v, hi, e⟩ := ih h
      refine ⟨i + 1, v, by simpa using hi, ?_⟩
      have : oneOf (none :: vs).length (i + 1) v = none :: oneOf vs.length i v := by simp [oneOf, List.replicate_succ]
      rw [this, ← e]
    | some w =>
      simp only [List.filter_cons, Option.isSome_some, if_true, List.length_cons, Nat.add_eq_right, List.length_eq_zero_iff,
        List.filter_eq_nil_iff] at h
      refine ⟨0, w, by simp, ?_⟩
      have h2 : vs = List.replicate vs.length none := by
        rw [List.eq_replicate_iff]
        refine ⟨rfl, fun b hb => ?_⟩
        have := h b hb
        cases b with
        | none => rfl
        | some => simp at this
      have : oneOf (some w :: vs).length 0 w = some w :: List.replicate vs.length none := by simp [oneOf, List.replicate_succ]
      rw [this, ← h2]

/-- A typed and valid property has exactly one of its alternatives, of the right type and valid. -/
theorem PSpec.typed_valid {n : Str} {params : List PDef} {vals : List (Str × Kind)} {ps : List (Option ParamVal)} {vs : List (Option Val)}
    (ht : (PSpec.mk n (.fields params vals)).typed (.fields ps vs) = true)
    (hv : (PSpec.mk n (.fields params vals)).valid (.fields ps vs) = .ok ()) :
    validParams params ps = .ok () ∧ typedParams params ps = true ∧
    ∃ i v, i < vals.length ∧ vs = oneOf vals.length i v ∧ v.kind = (vals.getD i ([], .text)).2 ∧ v.valid = .ok () := by
  simp only [PSpec.typed, Bool.and_eq_true, Bool.or_eq_true, bne_iff_ne, List.all_eq_true] at ht
  obtain ⟨⟨t1, t2⟩, t3⟩ := ht
  simp only [PSpec.valid] at hv
  obtain ⟨_, h1, hv⟩ := Res.bind_eq_ok.1 hv
  obtain ⟨_, h2, h3⟩ := Res.bind_eq_ok.1 hv
  have hl := typedVals_length t2
  rw [validVals_iff] at h2
  refine ⟨h1, t1, ?_⟩
  have h4 : (vs.filter (·.isSome)).length = 1 := by
    split at h3
    · next hone =>
      rw [hone] at hl
      obtain ⟨x, rfl⟩ := List.length_eq_one_iff.1 hl
      have := (t3.resolve_left (by simp [hone])) x (by simp)
      simp [this]
    · simpa [Res.guard_eq_ok] using h3
  obtain ⟨i, v, hi, e⟩ := one_some h4
  rw [hl] at hi e
  have hg : vs[i]? = some (some v) := by rw [e]; simp [oneOf, hi]
  exact ⟨i, v, hi, e, typedVals_kind t2 i v hg, h2 v (List.mem_of_getElem? hg)⟩

/-! ## Fields and subsections -/

theorem typedFields_all (Q : SField → PropVal → Prop) : ∀ {fs : List SField} {vs : List (List PropVal)},
    typedFields fs vs = true → (∀ x ∈ (fs.zip vs).flatMap fun x => x.2.map fun p => (x.1, p), Q x.1 x.2) →
    FieldsAll (fun f p => f.spec.typed p = true ∧ Q f p) fs vs ∧ MultOk fs vs ∧ reqMet fs vs = true := by
  intro fs
  induction fs with
  | nil =>
    intro vs h _
    cases vs with
    | nil => exact ⟨trivial, trivial, rfl⟩
    | cons => simp [typedFields] at h
  | cons f fs ih =>
    intro vs h hq
    cases vs with
    | nil => simp [typedFields] at h
    | cons v vs =>
      simp only [typedFields, Bool.and_eq_true, List.all_eq_true] at h
      obtain ⟨⟨h1, h2⟩, h3⟩ := h
      simp only [List.zip_cons_cons, List.flatMap_cons, List.mem_append] at hq
      obtain ⟨r1, r2, r3⟩ := ih h3 (fun x hx => hq x (Or.inr hx))
      refine ⟨⟨fun x hx => ⟨h1 x hx, hq (f, x) (Or.inl (List.mem_map.2 ⟨x, hx, rfl⟩))⟩, r1⟩, ⟨?_, r2⟩, ?_⟩
      · intro hm
        cases hf : f.mult with
        | req => rw [hf] at h2; simp at h2; omega
        | opt => rw [hf] at h2; simpa using h2
        | many => exact absurd hf hm
      · simp only [reqMet, Bool.and_eq_true, Bool.or_eq_true, bne_iff_ne]
        refine ⟨?_, r3⟩
        by_cases hm : f.mult = .req
        · right
          rw [hm] at h2
          rintro rfl
          simp at h2
        · exact Or.inl hm

theorem validFields_all (P Q : SField → PropVal → Prop) (hpq : ∀ f p, P f p → f.spec.valid p = .ok () → Q f p) :
    ∀ {fs : List SField} {vs : List (List PropVal)}, FieldsAll P fs vs → validFields fs vs = .ok () → FieldsAll Q fs vs := by
  intro fs
  induction fs with
  | nil => intro vs h _; cases vs <;> exact h
  | cons f fs ih =>
    intro vs h hv
    cases vs with
    | nil => exact h
    | cons v vs =>
      simp only [validFields] at hv
      obtain ⟨_, h1, h2⟩ := Res.bind_eq_ok.1 hv
      refine ⟨?_, ih h.2 h2⟩
      have hc : ∀ w, checks f.spec.valid w = .ok () → ∀ x ∈ w, f.spec.valid x = .ok () := by
        intro w
        induction w with
        | nil => intro _ x hx; cases hx
        | cons y w ihw =>
          intro hw x hx
          simp only [checks] at hw
          obtain ⟨_, e1, e2⟩ := Res.bind_eq_ok.1 hw
          rcases List.mem_cons.1 hx with rfl | hx
          · exact e1
          · exact ihw e2 x hx
      exact fun x hx => hpq f x (h.1 x hx) (hc v h1 x hx)

theorem typedSubs_all (typ : κ → σ → Bool) (Q : κ → σ → Prop) : ∀ {ks : List (Str × κ)} {vs : List (List σ)}, typedSubs typ ks vs = true →
    (∀ x ∈ ks.zip vs, ∀ y ∈ x.2, Q x.1.2 y) → SubsAll (fun k x => typ k x = true ∧ Q k x) ks vs := by
  intro ks
  induction ks with
  | nil => intro vs h _; cases vs <;> first | trivial | simp [typedSubs] at h
  | cons k ks ih =>
    obtain ⟨n, k⟩ := k
    intro vs h hq
    cases vs with
    | nil => simp [typedSubs] at h
    | cons v vs =>
      simp only [typedSubs, Bool.and_eq_true, List.all_eq_true] at h
      exact ⟨fun x hx => ⟨h.1 x hx, hq ((n, k), v) (by simp) x hx⟩, ih h.2 (fun x hx => hq x (by simp [hx]))⟩

theorem validSubs_all (val : κ → σ → Res Unit) (P Q : κ → σ → Prop) : ∀ {ks : List (Str × κ)} {vs : List (List σ)},
    (∀ x ∈ ks, ∀ s, P x.2 s → val x.2 s = .ok () → Q x.2 s) → SubsAll P ks vs → validSubs val ks vs = .ok () → SubsAll Q ks vs := by
  intro ks
  induction ks with
  | nil => intro vs _ h _; cases vs <;> exact h
  | cons k ks ih =>
    obtain ⟨n, k⟩ := k
    intro vs hpq h hv
    cases vs with
    | nil => exact h
    | cons v vs =>
      simp only [validSubs] at hv
      obtain ⟨_, h1, h2⟩ := Res.bind_eq_ok.1 hv
      refine ⟨?_, ih (fun x hx => hpq x (List.mem_cons_of_mem _ hx)) h.2 h2⟩
      have hc : ∀ w, checks (val k) w = .ok () → ∀ x ∈ w, val k x = .ok () := by
        intro w
        induction w with
        | nil => intro _ x hx; cases hx
        | cons y w ihw =>
          intro hw x hx
          simp only [checks] at hw
          obtain ⟨_, e1, e2⟩ := Res.bind_eq_ok.1 hw
          rcases List.mem_cons.1 hx with rfl | hx
          · exact e1
          · exact ihw e2 x hx
      exact fun x hx => hpq (n, k) List.mem_cons_self x (h.1 x hx) (hc v h1 x hx)

/-! ## Rules -/

theorem fieldIdx_has {n : Str} : ∀ {fs : List SField} {vs : List (List PropVal)}, (fs.map (·.key)).Nodup → fs.length = vs.length →
    ((match fieldIdx n fs with
      | some i => vs.getD i [] != []
      | none => false) = true ↔ ∃ p ∈ (fs.zip vs).flatMap (fun x => x.2.map fun p => (x.1, p)), p.1.key = n) := by
  intro fs
  induction fs with
  | nil => intro vs _ _; simp [fieldIdx]
  | cons f fs ih =>
    intro vs hn hl
    cases vs with
    | nil => simp at hl
    | cons v vs =>
      simp only [List.map_cons, List.nodup_cons] at hn
      have hr := ih hn.2 (by simpa using hl)
      simp only [List.zip_cons_cons, List.flatMap_cons, List.mem_append, fieldIdx]
      by_cases hk : n = f.key
      · rw [if_pos hk]
        simp only [List.getD_cons_zero, bne_iff_ne]
        constructor
        · intro hv
          cases v with
          | nil => exact absurd rfl hv
          | cons x v => exact ⟨(f, x), Or.inl (by simp), hk.symm⟩
        · rintro ⟨p, hp | hp, hpk⟩
          · obtain ⟨x, hx, rfl⟩ := List.mem_map.1 hp
            rintro rfl
            cases hx
          · exfalso
            obtain ⟨y, hy, hp⟩ := List.mem_flatMap.1 hp
            obtain ⟨x, hx, rfl⟩ := List.mem_map.1 hp
            exact hn.1 (by rw [← hk, ← hpk]; exact List.mem_map.2 ⟨y.1, (List.of_mem_zip hy).1, rfl⟩)
      · rw [if_neg hk]
        have e : (match Option.map (fun x => x + 1) (fieldIdx n fs) with
            | some i => (v :: vs).getD i [] != []
            | none => false) = (match fieldIdx n fs with
            | some i => vs.getD i [] != []
            | none => false) := by
          cases fieldIdx n fs <;> simp
        rw [e, hr]
        constructor
        · rintro ⟨p, hp, hpk⟩; exact ⟨p, Or.inr hp, hpk⟩
        · rintro ⟨p, hp | hp, hpk⟩
          · obtain ⟨x, hx, rfl⟩ := List.mem_map.1 hp
            exact absurd hpk.symm hk
          · exact ⟨p, hp, hpk⟩

theorem hasField_iff (T : Tab κ) (hw : T.Wf) (s : Sect σ) (hl : T.fields.length = s.fields.length) (n : Str) :
    hasField T s n = true ↔ Has T s n := fieldIdx_has hw.keys hl

theorem Rule.met_iff (T : Tab κ) (hw : T.Wf) (s : Sect σ) (hl : T.fields.length = s.fields.length) (r : Rule) :
    r.met T s = true ↔ Holds T s r := by
  have hh := hasField_iff T hw s hl
  have hf : ∀ n, hasField T s n = false ↔ ¬ Has T s n := fun n => by rw [← hh n]; simp
  cases r with
  | notBoth a b => simp only [Rule.met, Holds, ← hh]; cases hasField T s a <;> cases hasField T s b <;> simp
  | needs a b => simp only [Rule.met, Holds, ← hh]; cases hasField T s a <;> cases hasField T s b <;> simp
  | onlyOne a b => simp only [Rule.met, Holds, ← hh]; cases hasField T s a <;> cases hasField T s b <;> simp
  | anySub => simp [Rule.met, Holds]

theorem Tab.finish_ok (T : Tab κ) (hw : T.Wf) (s : Sect σ) (hl : T.fields.length = s.fields.length) :
    T.finish s = .ok () ↔ reqMet T.fields s.fields = true ∧ SectRules T s := by
  unfold Tab.finish SectRules
  rw [Res.bind_eq_ok]
  have h0 : ∀ e b, Res.guard e b = .ok () ↔ b = true := fun e b => Res.guard_eq_ok
  simp only [h0, List.all_eq_true, Rule.met_iff T hw s hl]
  constructor
  · rintro ⟨_, h1, h2⟩; exact ⟨h1, h2⟩
  · rintro ⟨h1, h2⟩; exact ⟨(), h1, h2⟩

theorem FieldsAll.length {P : SField → PropVal → Prop} : ∀ {fs : List SField} {vs : List (List PropVal)}, FieldsAll P fs vs →
    fs.length = vs.length := by
  intro fs
  induction fs with
  | nil => intro vs h; cases vs <;> first | rfl | exact absurd h id
  | cons f fs ih =>
    intro vs h
    cases vs with
    | nil => exact absurd h id
    | cons v vs => simp [ih h.2]

/-! ## Whole calendars, generically -/

theorem FieldsAll.mem {P : SField → PropVal → Prop} : ∀ {fs : List SField} {vs : List (List PropVal)}, FieldsAll P fs vs →
    FieldsAll (fun f p => f ∈ fs ∧ P f p) fs vs := by
  intro fs
  induction fs with
  | nil => intro vs h; cases vs <;> exact h
  | cons f fs ih =>
    intro vs h
    cases vs with
    | nil => exact h
    | cons v vs =>
      exact ⟨fun x hx => ⟨List.mem_cons_self, h.1 x hx⟩, FieldsAll.imp (fun g x hg => ⟨List.mem_cons_of_mem _ hg.1, hg.2⟩) (ih h.2)⟩

theorem SubsAll.mem {P : κ → σ → Prop} : ∀ {ks : List (Str × κ)} {vs : List (List σ)}, SubsAll P ks vs →
    SubsAll (fun k x => (∃ n, (n, k) ∈ ks) ∧ P k x) ks vs := by
  intro ks
  induction ks with
  | nil => intro vs h; cases vs <;> exact h
  | cons k ks ih =>
    intro vs h
    cases vs with
    | nil => exact h
    | cons v vs =>
      exact ⟨fun x hx => ⟨⟨k.1, List.mem_cons_self⟩, h.1 x hx⟩,
        SubsAll.imp (fun _ x hg => ⟨let ⟨n, hn⟩ := hg.1; ⟨n, List.mem_cons_of_mem _ hn⟩, hg.2⟩) (ih h.2)⟩

theorem SubsAll.below {P Q : κ → σ → Prop} : ∀ {ks : List (Str × κ)} {vs : List (List σ)}, SubsAll P ks vs →
    (∀ x ∈ ks.zip vs, ∀ y ∈ x.2, Q x.1.2 y) → SubsAll (fun k x => P k x ∧ Q k x) ks vs := by
  intro ks
  induction ks with
  | nil => intro vs h _; cases vs <;> exact h
  | cons k ks ih =>
    intro vs h hq
    cases vs with
    | nil => exact h
    | cons v vs => exact ⟨fun x hx => ⟨h.1 x hx, hq (k, v) (by simp) x hx⟩, ih h.2 (fun x hx => hq x (by simp [hx]))⟩

/-- The section has the shape of its table, and its properties are good. -/
def GoodSect (P : SField → PropVal → Prop) (S : κ → σ → Prop) (T : Tab κ) (s : Sect σ) : Prop :=
  FieldsAll P T.fields s.fields ∧ MultOk T.fields s.fields ∧ SubsAll S T.subs s.subs ∧ reqMet T.fields s.fields = true

def GoodSub (P : SField → PropVal → Prop) : SubKind → Sub → Prop
  | .alarm, .alarm (some (a, s)) => GoodSect P noP a.tab s
  | .leaf T, .leaf s => GoodSect P noP T s
  | _, _ => False

def GoodCal (P : SField → PropVal → Prop) (c : Cal) : Prop := GoodSect P (GoodSect P (GoodSub P)) tabCalendar c

theorem GoodSect.build (Q P : SField → PropVal → Prop) (typ : κ → σ → Bool) (val : κ → σ → Res Unit) (S' S : κ → σ → Prop)
    (hpq : ∀ f p, FieldWf f → f.spec.typed p = true → Q f p → f.spec.valid p = .ok () → P f p) (T : Tab κ) (hw : T.Wf)
    (hs : ∀ x ∈ T.subs, ∀ s, typ x.2 s = true → S' x.2 s → val x.2 s = .ok () → S x.2 s)
    (s : Sect σ) (ht : T.typed typ s = true) (hv : T.valid val s = .ok ())
    (hq : ∀ x ∈ sectProps T s, Q x.1 x.2) (hb : Below S' T s) : GoodSect P S T s := by
  unfold Tab.typed at ht
  rw [Bool.and_eq_true] at ht
  unfold Tab.valid at hv
  obtain ⟨_, hv1, hv2⟩ := Res.bind_eq_ok.1 hv
  obtain ⟨f1, f2, f3⟩ := typedFields_all Q ht.1 hq
  refine ⟨?_, f2, ?_, f3⟩
  · exact validFields_all _ _ (fun f p h => hpq f p (hw.field f h.1) h.2.1 h.2.2) f1.mem hv1
  · exact validSubs_all val (fun k x => typ k x = true ∧ S' k x) S (fun x hx s h h2 => hs x hx s h.1 h.2 h2)
      (typedSubs_all typ S' ht.2 hb) hv2

theorem mem_below {α : Type} {f : κ → σ → List α} {T : Tab κ} {s : Sect σ} {a : α} :
    a ∈ below f T s ↔ ∃ x ∈ T.subs.zip s.subs, ∃ y ∈ x.2, a ∈ f x.1.2 y := by
  unfold below
  simp only [List.mem_flatMap]

/-- A typed and valid calendar is made of good parts if each typed and valid property is good. -/
theorem GoodCal.build (Q P : SField → PropVal → Prop)
    (hpq : ∀ f p, FieldWf f → f.spec.typed p = true → Q f p → f.spec.valid p = .ok () → P f p)
    (c : Cal) (ht : c.typed = true) (hv : c.valid = .ok ()) (hq : ∀ x ∈ calProps c, Q x.1 x.2) : GoodCal P c := by
  refine GoodSect.build Q P _ _ (fun T s => ∀ x ∈ compProps T s, Q x.1 x.2) _ hpq tabCalendar calTab_wf ?_ c ht hv
    (fun x hx => hq x (List.mem_append.2 (Or.inl hx)))
    (fun x hx y hy p hp => hq p (List.mem_append.2 (Or.inr (mem_below.2 ⟨x, hx, y, hy, hp⟩))))
  intro x hx s hts hqs hvs
  obtain ⟨hw, _, hg⟩ := compTab_good x hx
  refine GoodSect.build Q P _ _ (fun k s => ∀ x ∈ subProps k s, Q x.1 x.2) _ hpq x.2 hw ?_ s hts hvs
    (fun x hx => hqs x (List.mem_append.2 (Or.inl hx)))
    (fun x hx y hy p hp => hqs p (List.mem_append.2 (Or.inr (mem_below.2 ⟨x, hx, y, hy, hp⟩))))
  intro y hy s hts hqs hvs
  have hgy := hg y hy
  obtain ⟨n, k⟩ := y
  cases k with
  | leaf T =>
    cases s with
    | alarm a => simp [subTyped] at hts
    | leaf s =>
      exact GoodSect.build Q P noTyp noVal (fun k => nomatch k) noP hpq T hgy.1 (by rw [hgy.2.2]; simp) s hts hvs hqs
        (by unfold Below; rw [hgy.2.2]; simp)
  | alarm =>
    cases s with
    | leaf s => simp [subTyped] at hts
    | alarm a =>
      cases a with
      | none => simp [subValid] at hvs
      | some a =>
        obtain ⟨k, s⟩ := a
        exact GoodSect.build Q P noTyp noVal (fun k => nomatch k) noP hpq k.tab (aTab_wf k) (by rw [(aTab_name k).2]; simp) s hts hvs hqs
          (by unfold Below; rw [(aTab_name k).2]; simp)

theorem GoodSub.imp {P Q : SField → PropVal → Prop} (hi : ∀ f p, P f p → Q f p) {k : SubKind} {s : Sub} (h : GoodSub P k s) : GoodSub Q k s := by
  cases k with
  | leaf T =>
    cases s with
    | alarm a => exact absurd h id
    | leaf s => exact ⟨FieldsAll.imp hi h.1, h.2⟩
  | alarm =>
    cases s with
    | leaf s => exact absurd h id
    | alarm a => cases a with
      | none => exact absurd h id
      | some a => exact ⟨FieldsAll.imp hi h.1, h.2⟩

theorem GoodCal.imp {P Q : SField → PropVal → Prop} (hi : ∀ f p, P f p → Q f p) {c : Cal} (h : GoodCal P c) : GoodCal Q c := by
  obtain ⟨h1, h2, h3, h4⟩ := h
  refine ⟨FieldsAll.imp hi h1, h2, SubsAll.imp (fun T s hs => ?_) h3, h4⟩
  obtain ⟨g1, g2, g3, g4⟩ := hs
  exact ⟨FieldsAll.imp hi g1, g2, SubsAll.imp (fun k s hs => GoodSub.imp hi hs) g3, g4⟩

theorem GoodCal.safe {E : Env} {c : Cal} (h : GoodCal (fun f => PropSafe E f.spec) c) : CalSafe E c := by
  obtain ⟨h1, h2, h3, h4⟩ := h
  refine ⟨h1, SubsAll.imp (fun T s hs => ?_) h3⟩
  obtain ⟨g1, g2, g3, g4⟩ := hs
  refine ⟨g1, SubsAll.imp (fun k s hs => ?_) g3⟩
  cases k with
  | leaf T =>
    cases s with
    | alarm a => exact absurd hs id
    | leaf s => exact ⟨hs.1, hs.2.2.1⟩
  | alarm =>
    cases s with
    | leaf s => exact absurd hs id
    | alarm a => cases a with
      | none => exact absurd hs id
      | some a => exact ⟨hs.1, hs.2.2.1⟩

theorem GoodCal.ok {E : Env} {c : Cal} (h : GoodCal (FieldOk E) c) (hr : CalRules c) : CalOk E c := by
  obtain ⟨h1, h2, h3, h4⟩ := h
  obtain ⟨r1, r2⟩ := hr
  refine ⟨h1, h2, ?_, (Tab.finish_ok _ calTab_wf _ h1.length).2 ⟨h4, r1⟩⟩
  refine SubsAll.imp ?_ (SubsAll.below (Q := fun T s => SectRules T s ∧ Below SubRules T s) h3.mem r2)
  rintro T s ⟨⟨⟨n, hn⟩, g1, g2, g3, g4⟩, q1, q2⟩
  obtain ⟨hw, _, hg⟩ := compTab_good (n, T) hn
  refine ⟨g1, g2, ?_, (Tab.finish_ok _ hw _ g1.length).2 ⟨g4, q1⟩⟩
  refine SubsAll.imp ?_ (SubsAll.below (Q := SubRules) g3.mem q2)
  rintro k s ⟨⟨⟨n, hn⟩, hs⟩, hq⟩
  have hgy := hg (n, k) hn
  cases k with
  | leaf T =>
    cases s with
    | alarm a => exact absurd hs id
    | leaf s => exact ⟨hs.1, hs.2.1, hs.2.2.1, (Tab.finish_ok _ hgy.1 _ hs.1.length).2 ⟨hs.2.2.2, hq⟩⟩
  | alarm =>
    cases s with
    | leaf s => exact absurd hs id
    | alarm a => cases a with
      | none => exact absurd hs id
      | some a => exact ⟨hs.1, hs.2.1, hs.2.2.1, (Tab.finish_ok _ (aTab_wf a.1) _ hs.1.length).2 ⟨hs.2.2.2, hq⟩⟩

/-! ## What comes back -/

/-- The name under which LAST-MODIFIED is read. -/
def kLastMod : Str := c!"LAST-MOD"

theorem normFields_map (E : Env) (f : Val → Val) : ∀ (fs : List SField) (vs : List (List PropVal)),
    (∀ d ∈ fs, d.key = d.spec.name ↔ d.key ≠ kLastMod) →
    FieldsAll (fun d p => PropVal.norm E d.spec p = PropVal.mapVals f p) fs vs →
    normFields E fs vs = (dropField kLastMod fs vs).map (·.map (PropVal.mapVals f)) := by
  intro fs
  induction fs with
  | nil => intro vs _ h; cases vs <;> first | rfl | exact absurd h id
  | cons d fs ih =>
    intro vs hn h
    cases vs with
    | nil => exact absurd h id
    | cons v vs =>
      simp only [normFields, dropField, List.zipWith_cons_cons, List.map_cons, ih vs (fun x hx => hn x (List.mem_cons_of_mem _ hx)) h.2,
        List.cons.injEq, and_true]
      unfold normField
      have hd := hn d List.mem_cons_self
      by_cases hk : d.key = kLastMod
      · rw [if_neg (fun e => hd.1 e hk), if_pos hk]; rfl
      · rw [if_pos (hd.2 hk), if_neg hk]
        exact List.map_congr_left h.1

theorem dropField_none (n : Str) : ∀ (fs : List SField) (vs : List (List PropVal)), (∀ d ∈ fs, d.key ≠ n) → fs.length = vs.length →
    dropField n fs vs = vs := by
  intro fs
  induction fs with
  | nil => intro vs _ h; cases vs <;> first | rfl | simp at h
  | cons d fs ih =>
    intro vs hn h
    cases vs with
    | nil => simp at h
    | cons v vs =>
      have := ih vs (fun x hx => hn x (List.mem_cons_of_mem _ hx)) (by simpa using h)
      simp only [dropField, List.zipWith_cons_cons, if_neg (hn d List.mem_cons_self), List.cons.injEq, true_and]
      exact this

theorem normSubs_map (nrm : κ → σ → σ) (g : σ → σ) : ∀ (ks : List (Str × κ)) (vs : List (List σ)),
    SubsAll (fun k x => nrm k x = g x) ks vs → normSubs nrm ks vs = vs.map (·.map g) := by
  intro ks
  induction ks with
  | nil => intro vs h; cases vs <;> first | rfl | exact absurd h id
  | cons d fs ih =>
    intro vs h
    cases vs with
    | nil => exact absurd h id
    | cons v vs =>
      simp only [normSubs, List.map_cons, ih vs h.2, List.cons.injEq, and_true]
      exact List.map_congr_left h.1

theorem leaf_norm (E : Env) (f : Val → Val) (T : Tab Empty) (s : Leaf) (hn : ∀ d ∈ T.fields, d.key = d.spec.name ∧ d.key ≠ kLastMod)
    (h1 : FieldsAll (fun d p => PropVal.norm E d.spec p = PropVal.mapVals f p) T.fields s.fields) (h2 : SubsAll noP T.subs s.subs) :
    T.norm E noNrm s = Leaf.mapVals f s := by
  unfold Tab.norm Leaf.mapVals Sect.mapVals
  rw [normFields_map E f _ _ (fun d hd => ⟨fun _ => (hn d hd).2, fun _ => (hn d hd).1⟩) h1,
    dropField_none kLastMod _ _ (fun d hd => (hn d hd).2) h1.length,
    normSubs_map noNrm id _ _ (SubsAll.imp (fun k => nomatch k) h2)]

/-- The only field written under another name than it is read under is LAST-MODIFIED, in components. -/
theorem names_match : (∀ d ∈ tabCalendar.fields, d.key = d.spec.name ∧ d.key ≠ kLastMod) ∧
    (∀ x ∈ tabCalendar.subs, ∀ d ∈ x.2.fields, d.key = d.spec.name ↔ d.key ≠ kLastMod) ∧
    (∀ k : AKind, ∀ d ∈ k.tab.fields, d.key = d.spec.name ∧ d.key ≠ kLastMod) ∧
    (∀ T ∈ [tabStandard, tabDaylight], ∀ d ∈ T.fields, d.key = d.spec.name ∧ d.key ≠ kLastMod) := by
  refine ⟨by decide, by decide, ?_, by decide⟩
  intro k
  cases k <;> decide

theorem leafTab_mem : ∀ x ∈ tabCalendar.subs, ∀ y ∈ x.2.subs, ∀ T, y.2 = .leaf T → T ∈ [tabStandard, tabDaylight] := by
  intro x hx
  simp only [tabCalendar, List.mem_cons, List.not_mem_nil, or_false] at hx
  rcases hx with rfl | rfl | rfl | rfl | rfl <;> intro y hy
  all_goals
    simp only [tabEvent, tabTodo, tabJournal, tabFreeBusy, tabTimezone, List.mem_cons, List.not_mem_nil, or_false] at hy
  · subst hy; intro T h; cases h
  · subst hy; intro T h; cases h
  · rcases hy with rfl | rfl <;> (intro T h; cases h; simp)

theorem normSubs_zip (nrm : κ → σ → σ) (g : κ → σ → σ) : ∀ (ks : List (Str × κ)) (vs : List (List σ)),
    SubsAll (fun k x => nrm k x = g k x) ks vs → normSubs nrm ks vs = List.zipWith (fun k xs => xs.map (g k.2)) ks vs := by
  intro ks
  induction ks with
  | nil => intro vs h; cases vs <;> first | rfl | exact absurd h id
  | cons d fs ih =>
    intro vs h
    cases vs with
    | nil => exact absurd h id
    | cons v vs =>
      simp only [normSubs, List.zipWith_cons_cons, ih vs h.2, List.cons.injEq, and_true]
      exact List.map_congr_left h.1

theorem GoodCal.norm {E : Env} {f : Val → Val} {c : Cal} (h : GoodCal (fun d p => PropVal.norm E d.spec p = PropVal.mapVals f p) c) :
    c.norm E = Spec.Cal.mapVals f (Spec.Cal.dropField kLastMod c) := by
  obtain ⟨h1, h2, h3, h4⟩ := h
  obtain ⟨n1, n2, n3, n4⟩ := names_match
  unfold Cal.norm Tab.norm Spec.Cal.mapVals Sect.mapVals Spec.Cal.dropField
  rw [normFields_map E f _ _ (fun d hd => ⟨fun _ => (n1 d hd).2, fun _ => (n1 d hd).1⟩) h1,
    dropField_none kLastMod _ _ (fun d hd => (n1 d hd).2) h1.length,
    normSubs_zip _ (fun T s => Comp.mapVals f ⟨Spec.dropField kLastMod T.fields s.fields, s.subs⟩) _ _ (SubsAll.imp ?_ h3.mem)]
  · congr 1
    simp [List.map_zipWith]
    rfl
  rintro T s ⟨⟨n, hn⟩, g1, g2, g3, g4⟩
  unfold Comp.mapVals Sect.mapVals
  rw [normFields_map E f _ _ (n2 _ hn) g1, normSubs_map _ (Sub.mapVals f) _ _ (SubsAll.imp ?_ g3.mem)]
  rintro k s ⟨⟨m, hm⟩, hs⟩
  cases k with
  | leaf T' =>
    cases s with
    | alarm a => exact absurd hs id
    | leaf s => simp only [subNorm, Sub.mapVals, leaf_norm E f T' s (n4 _ (leafTab_mem _ hn _ hm _ rfl)) hs.1 hs.2.2.1]
  | alarm =>
    cases s with
    | leaf s => exact absurd hs id
    | alarm a => cases a with
      | none => exact absurd hs id
      | some a => simp only [subNorm, Sub.mapVals, leaf_norm E f a.1.tab a.2 (n3 _) hs.1 hs.2.2.1]

/-! ## Maps over the values -/

theorem PropVal.mapVals_comp (f g : Val → Val) (p : PropVal) :
    Spec.PropVal.mapVals f (Spec.PropVal.mapVals g p) = Spec.PropVal.mapVals (fun v => f (g v)) p := by
  cases p with
  | enum n => rfl
  | fields ps vs =>
    simp only [Spec.PropVal.mapVals, List.map_map, PropVal.fields.injEq, true_and]
    apply List.map_congr_left
    intro a _
    cases a <;> rfl

theorem PropVal.mapVals_id (p : PropVal) : Spec.PropVal.mapVals id p = p := by
  cases p with
  | enum n => rfl
  | fields ps vs => simp [Spec.PropVal.mapVals]

theorem Sect.mapVals_comp (f g : Val → Val) (h1 h2 h3 : σ → σ) (h : ∀ x, h1 (h2 x) = h3 x) (s : Sect σ) :
    Sect.mapVals f h1 (Sect.mapVals g h2 s) = Sect.mapVals (fun v => f (g v)) h3 s := by
  have e1 : (PropVal.mapVals f ∘ PropVal.mapVals g) = PropVal.mapVals fun v => f (g v) := funext fun p => PropVal.mapVals_comp f g p
  have e2 : (h1 ∘ h2) = h3 := funext h
  simp only [Sect.mapVals, List.map_map, Function.comp_def, Sect.mk.injEq]
  simp only [← Function.comp_def, e1, e2, and_self]

theorem Sect.mapVals_id (h1 : σ → σ) (h : ∀ x, h1 x = x) (s : Sect σ) : Sect.mapVals id h1 s = s := by
  have e1 : PropVal.mapVals id = id := funext fun p => PropVal.mapVals_id p
  have e2 : h1 = id := funext h
  simp [Sect.mapVals, e1, e2]

theorem Leaf.mapVals_comp (f g : Val → Val) (s : Leaf) :
    Spec.Leaf.mapVals f (Spec.Leaf.mapVals g s) = Spec.Leaf.mapVals (fun v => f (g v)) s := Sect.mapVals_comp f g _ _ _ (fun _ => rfl) s

theorem Sub.mapVals_comp (f g : Val → Val) (s : Sub) :
    Spec.Sub.mapVals f (Spec.Sub.mapVals g s) = Spec.Sub.mapVals (fun v => f (g v)) s := by
  rcases s with s | (_ | ⟨a, s⟩)
  · simp only [Spec.Sub.mapVals, Leaf.mapVals_comp]
  · rfl
  · simp only [Spec.Sub.mapVals, Leaf.mapVals_comp]

theorem Cal.mapVals_comp (f g : Val → Val) (c : Cal) :
    Spec.Cal.mapVals f (Spec.Cal.mapVals g c) = Spec.Cal.mapVals (fun v => f (g v)) c :=
  Sect.mapVals_comp f g _ _ _ (fun x => Sect.mapVals_comp f g _ _ _ (fun y => Sub.mapVals_comp f g y) x) c

theorem Sub.mapVals_id (s : Sub) : Spec.Sub.mapVals id s = s := by
  rcases s with s | (_ | ⟨a, s⟩)
  · simp only [Spec.Sub.mapVals, Spec.Leaf.mapVals, Sect.mapVals_id id (fun _ => rfl) s]
  · rfl
  · simp only [Spec.Sub.mapVals, Spec.Leaf.mapVals, Sect.mapVals_id id (fun _ => rfl) s]

theorem Cal.mapVals_id (c : Cal) : Spec.Cal.mapVals id c = c :=
  Sect.mapVals_id _ (fun x => Sect.mapVals_id _ (fun y => Sub.mapVals_id y) x) c

theorem anonLoc_withPtr (p : Nat) (l : Loc) : anonLoc (l.withPtr p) = anonLoc l := by cases l <;> rfl

/-- What comes back differs in the identity of locations only. -/
theorem anonVal_norm (v : Val) : anonVal v.norm = anonVal v := by
  cases v <;> first
    | rfl
    | simp [Val.norm, Period.norm, anonVal, anonTime, GoTime.withPtr, Recur.withPtr, anonLoc_withPtr]

theorem withPtr_unzoned {l : Loc} (h : l = .utc ∨ l = .local) (p : Nat) : l.withPtr p = l := by
  rcases h with rfl | rfl <;> rfl

theorem norm_unzoned {v : Val} (h : ∀ l ∈ valLocs v, l = .utc ∨ l = .local) : v.norm = v := by
  cases v with
  | dateTime t =>
    simp only [Val.norm, GoTime.withPtr, withPtr_unzoned (h t.loc (by simp [valLocs]))]
  | period p =>
    simp only [Val.norm, Period.norm, GoTime.withPtr, withPtr_unzoned (h p.start.loc (by simp [valLocs])),
      withPtr_unzoned (h p.stop.loc (by simp [valLocs]))]
  | recur r => simp only [Val.norm, Recur.withPtr, withPtr_unzoned (h r.until_.loc (by simp [valLocs]))]
  | _ => rfl

theorem PropVal.mapVals_unzoned {p : PropVal} (h : ∀ v ∈ propVals p, ∀ l ∈ valLocs v, l = .utc ∨ l = .local) :
    Spec.PropVal.mapVals Val.norm p = Spec.PropVal.mapVals id p := by
  cases p with
  | enum n => rfl
  | fields ps vs =>
    simp only [Spec.PropVal.mapVals, PropVal.fields.injEq, true_and]
    apply List.map_congr_left
    intro a ha
    cases a with
    | none => rfl
    | some v => exact congrArg some (norm_unzoned (h v (by simpa [propVals] using ha)))

/-! ## Calendars without LAST-MODIFIED -/

theorem dropField_absent (n : Str) : ∀ (fs : List SField) (vs : List (List PropVal)), fs.length = vs.length →
    (∀ x ∈ (fs.zip vs).flatMap (fun x => x.2.map fun p => (x.1, p)), x.1.key ≠ n) → dropField n fs vs = vs := by
  intro fs
  induction fs with
  | nil => intro vs h _; cases vs <;> first | rfl | simp at h
  | cons d fs ih =>
    intro vs h hn
    cases vs with
    | nil => simp at h
    | cons v vs =>
      have := ih vs (by simpa using h) (fun x hx => hn x (by simp only [List.zip_cons_cons, List.flatMap_cons]; exact List.mem_append.2 (Or.inr hx)))
      simp only [dropField, List.zipWith_cons_cons, List.cons.injEq]
      refine ⟨?_, this⟩
      cases v with
      | nil => split <;> rfl
      | cons p v => exact if_neg (hn (d, p) (by simp))

theorem zipWith_map_id (g : κ → σ → σ) : ∀ (ks : List (Str × κ)) (vs : List (List σ)), ks.length = vs.length →
    (∀ x ∈ ks.zip vs, ∀ y ∈ x.2, g x.1.2 y = y) → List.zipWith (fun k xs => xs.map (g k.2)) ks vs = vs := by
  intro ks
  induction ks with
  | nil => intro vs h _; cases vs <;> first | rfl | simp at h
  | cons d fs ih =>
    intro vs h hn
    cases vs with
    | nil => simp at h
    | cons v vs =>
      simp only [List.zipWith_cons_cons, List.cons.injEq]
      refine ⟨?_, ih vs (by simpa using h) (fun x hx => hn x (by simp [hx]))⟩
      have := hn (d, v) (by simp)
      simpa using List.map_congr_left (g := id) this

theorem SubsAll.length {P : κ → σ → Prop} : ∀ {ks : List (Str × κ)} {vs : List (List σ)}, SubsAll P ks vs → ks.length = vs.length := by
  intro ks
  induction ks with
  | nil => intro vs h; cases vs <;> first | rfl | exact absurd h id
  | cons k ks ih =>
    intro vs h
    cases vs with
    | nil => exact absurd h id
    | cons v vs => simp [ih h.2]

theorem SubsAll.get {P : κ → σ → Prop} : ∀ {ks : List (Str × κ)} {vs : List (List σ)}, SubsAll P ks vs →
    ∀ x ∈ ks.zip vs, ∀ y ∈ x.2, P x.1.2 y := by
  intro ks
  induction ks with
  | nil => intro vs h x hx; simp at hx
  | cons k ks ih =>
    intro vs h x hx
    cases vs with
    | nil => simp at hx
    | cons v vs =>
      rcases List.mem_cons.1 (by simpa using hx) with rfl | hx
      · exact h.1
      · exact ih h.2 x hx

theorem GoodCal.drop_absent {P : SField → PropVal → Prop} {c : Cal} (h : GoodCal P c) (n : Str) (hn : ∀ x ∈ calProps c, x.1.key ≠ n) :
    Spec.Cal.dropField n c = c := by
  obtain ⟨h1, h2, h3, h4⟩ := h
  unfold Spec.Cal.dropField
  rw [zipWith_map_id (fun (T : Tab SubKind) (s : Comp) => (⟨Spec.dropField n T.fields s.fields, s.subs⟩ : Comp)) _ _ h3.length]
  intro x hx y hy
  rw [dropField_absent]
  · exact (h3.get x hx y hy).1.length
  · intro z hz
    exact hn z (List.mem_append.2 (Or.inr (mem_below.2 ⟨x, hx, y, hy, List.mem_append.2 (Or.inl hz)⟩)))

end Ics
