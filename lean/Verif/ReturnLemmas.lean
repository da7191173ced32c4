import Verif.DocumentLemmas
import Verif.Props.Params
/-!
# Conditions on single properties, from conditions on their parameters and values
-/

namespace Ics

open Spec

theorem propParams_cons (n : Str) (vals : List (Str × Kind)) (d : PDef) (ds : List PDef) (p : Option ParamVal) (ps : List (Option ParamVal))
    (vs : List (Option Val)) (x : PDef × ParamVal) :
    x ∈ propParams ⟨n, .fields (d :: ds) vals⟩ (.fields (p :: ps) vs) ↔
      (∃ v, p = some v ∧ x = (d, v)) ∨ x ∈ propParams ⟨n, .fields ds vals⟩ (.fields ps vs) := by
  cases p with
  | none => simp [propParams]
  | some v => simp [propParams]

theorem paramsSafe_of {E : Env} (n : Str) (vals : List (Str × Kind)) (vs : List (Option Val)) : ∀ {ds : List PDef} {ps : List (Option ParamVal)},
    typedParams ds ps = true → (∀ x ∈ propParams ⟨n, .fields ds vals⟩ (.fields ps vs), ParamSafe E x.1.kind x.2) → ParamsSafe E ds ps := by
  intro ds
  induction ds with
  | nil => intro ps h _; cases ps <;> first | trivial | simp [typedParams] at h
  | cons d ds ih =>
    intro ps h hp
    cases ps with
    | nil => simp [typedParams] at h
    | cons p ps =>
      simp only [typedParams, Bool.and_eq_true] at h
      simp only [propParams_cons] at hp
      exact ⟨fun v hv => hp (d, v) (Or.inl ⟨v, hv, rfl⟩), ih h.2 (fun x hx => hp x (Or.inr hx))⟩

theorem paramsOk_of {E : Env} (n : Str) (vals : List (Str × Kind)) (vs : List (Option Val)) : ∀ {ds : List PDef} {ps : List (Option ParamVal)},
    typedParams ds ps = true → (∀ x ∈ propParams ⟨n, .fields ds vals⟩ (.fields ps vs), GoodParam x.1.kind x.2) →
    ParamsOk E ds ps ∧ paramsNorm E ds ps = ps := by
  intro ds
  induction ds with
  | nil => intro ps h _; cases ps <;> first | exact ⟨trivial, rfl⟩ | simp [typedParams] at h
  | cons d ds ih =>
    intro ps h hp
    cases ps with
    | nil => simp [typedParams] at h
    | cons p ps =>
      simp only [typedParams, Bool.and_eq_true] at h
      simp only [propParams_cons] at hp
      obtain ⟨i1, i2⟩ := ih h.2 (fun x hx => hp x (Or.inr hx))
      refine ⟨⟨fun v hv => (Props.goodParam_ok (hp (d, v) (Or.inl ⟨v, hv, rfl⟩))).1, i1⟩, ?_⟩
      simp only [paramsNorm, i2]
      cases p with
      | none => rfl
      | some v =>
        have := (Props.goodParam_ok (E := E) (hp (d, v) (Or.inl ⟨v, rfl, rfl⟩))).2
        simp only [this, Bool.false_eq_true, if_false]

theorem enum_valid {n : Str} {names : List Str} {k : Nat} (h : (PSpec.mk n (.enum names)).valid (.enum k) = .ok ()) : k < names.length := by
  have h : Res.guard .invalidValue (decide (k < names.length)) = .ok () := h
  simpa using Res.guard_eq_ok.1 h

/-- Typed and valid with safe parameters and values: written as one well formed line. -/
theorem propSafe_of {E : Env} {sp : PSpec} {p : PropVal} (ht : sp.typed p = true) (hv : sp.valid p = .ok ())
    (hp : ∀ x ∈ propParams sp p, ParamSafe E x.1.kind x.2) (hl : ∀ v ∈ propVals p, v.LibOk E ∧ HeadOk v) : PropSafe E sp p := by
  obtain ⟨n, sh⟩ := sp
  cases sh with
  | enum names =>
    cases p with
    | fields => simp [PSpec.typed] at ht
    | enum k => exact enum_valid hv
  | fields params vals =>
    cases p with
    | enum => simp [PSpec.typed] at ht
    | fields ps vs =>
      obtain ⟨_, t1, i, v, hi, e, hk, hvv⟩ := PSpec.typed_valid ht hv
      have hm : v ∈ propVals (.fields ps vs) := by
        simp only [propVals, List.mem_filterMap, id]
        exact ⟨some v, by rw [e]; exact List.mem_of_getElem? (i := i) (by simp [oneOf, hi]), rfl⟩
      exact ⟨paramsSafe_of n vals vs t1 hp, i, v, hi, e, hk, Val.valid_textOk hvv, hl v hm⟩

/-- Typed and valid with good parameters and values: comes back. -/
theorem propOk_of {E : Env} {sp : PSpec} {p : PropVal} (ht : sp.typed p = true) (hv : sp.valid p = .ok ())
    (hp : ∀ x ∈ propParams sp p, GoodParam x.1.kind x.2) (hl : ∀ v ∈ propVals p, ValOk E v ∧ HeadOk v) :
    PropOk E sp p ∧ PropVal.norm E sp p = Spec.PropVal.mapVals Val.norm p := by
  obtain ⟨n, sh⟩ := sp
  cases sh with
  | enum names =>
    cases p with
    | fields => simp [PSpec.typed] at ht
    | enum k => exact ⟨enum_valid hv, rfl⟩
  | fields params vals =>
    cases p with
    | enum => simp [PSpec.typed] at ht
    | fields ps vs =>
      obtain ⟨_, t1, i, v, hi, e, hk, hvv⟩ := PSpec.typed_valid ht hv
      have hm : v ∈ propVals (.fields ps vs) := by
        simp only [propVals, List.mem_filterMap, id]
        exact ⟨some v, by rw [e]; exact List.mem_of_getElem? (i := i) (by simp [oneOf, hi]), rfl⟩
      obtain ⟨o1, o2⟩ := paramsOk_of (E := E) n vals vs t1 hp
      refine ⟨⟨o1, i, v, hi, e, hk, Val.valid_textOk hvv, hl v hm⟩, ?_⟩
      simp only [PropVal.norm, Spec.PropVal.mapVals, o2]

/-! ## Validation of a whole calendar -/

theorem checks_iff {α : Type} (f : α → Res Unit) (l : List α) : checks f l = .ok () ↔ ∀ x ∈ l, f x = .ok () := by
  induction l with
  | nil => simp [checks]
  | cons a l ih =>
    simp only [checks, Res.bind_eq_ok, ih, List.mem_cons, forall_eq_or_imp]
    constructor
    · rintro ⟨_, h1, h2⟩; exact ⟨h1, h2⟩
    · rintro ⟨h1, h2⟩; exact ⟨(), h1, h2⟩

theorem validFields_iff : ∀ (fs : List SField) (vs : List (List PropVal)), validFields fs vs = .ok () ↔
    ∀ x ∈ (fs.zip vs).flatMap fun x => x.2.map fun p => (x.1, p), x.1.spec.valid x.2 = .ok () := by
  intro fs
  induction fs with
  | nil => intro vs; simp [validFields]
  | cons f fs ih =>
    intro vs
    cases vs with
    | nil => simp [validFields]
    | cons v vs =>
      simp only [validFields, Res.bind_eq_ok, ih, List.zip_cons_cons, List.flatMap_cons, List.mem_append]
      constructor
      · rintro ⟨_, h1, h2⟩ x (hx | hx)
        · obtain ⟨y, hy, rfl⟩ := List.mem_map.1 hx
          exact (checks_iff _ _).1 h1 y hy
        · exact h2 x hx
      · intro h
        exact ⟨(), (checks_iff _ _).2 fun y hy => h (f, y) (Or.inl (List.mem_map.2 ⟨y, hy, rfl⟩)), fun x hx => h x (Or.inr hx)⟩

theorem validSubs_iff {κ σ : Type} (val : κ → σ → Res Unit) : ∀ (ks : List (Str × κ)) (vs : List (List σ)), validSubs val ks vs = .ok () ↔
    ∀ x ∈ ks.zip vs, ∀ y ∈ x.2, val x.1.2 y = .ok () := by
  intro ks
  induction ks with
  | nil => intro vs; simp [validSubs]
  | cons k ks ih =>
    obtain ⟨n, k⟩ := k
    intro vs
    cases vs with
    | nil => simp [validSubs]
    | cons v vs =>
      simp only [validSubs, Res.bind_eq_ok, ih, List.zip_cons_cons, List.mem_cons]
      constructor
      · rintro ⟨_, h1, h2⟩ x (rfl | hx)
        · exact (checks_iff _ _).1 h1
        · exact h2 x hx
      · intro h
        exact ⟨(), (checks_iff _ _).2 (h _ (Or.inl rfl)), fun x hx => h x (Or.inr hx)⟩

theorem Tab.valid_iff {κ σ : Type} (T : Tab κ) (val : κ → σ → Res Unit) (s : Sect σ) : T.valid val s = .ok () ↔
    (∀ x ∈ sectProps T s, x.1.spec.valid x.2 = .ok ()) ∧ Below (fun k x => val k x = .ok ()) T s := by
  unfold Tab.valid sectProps Below
  simp only [Res.bind_eq_ok, validSubs_iff]
  rw [← validFields_iff]
  constructor
  · rintro ⟨_, h1, h2⟩; exact ⟨h1, h2⟩
  · rintro ⟨h1, h2⟩; exact ⟨(), h1, h2⟩

/-! ## Clean parts -/

theorem cleanParam_safe {E : Env} {k : PKind} {v : ParamVal} (ht : k.typed v = true) (h : CleanParam E v) : ParamSafe E k v := by
  cases k <;> cases v <;> simp only [PKind.typed, Bool.false_eq_true] at ht <;> first | exact h | trivial | skip
  · exact Props.plain_chars h
  · exact Props.plain_chars h
  · exact fun s hs => Props.plain_chars (h s hs)

theorem tzidOf_eq (l : Loc) (n : Str) : tzidOf l = some n ↔ ∃ p r, l = .zone n p r := by
  cases l <;> simp [tzidOf]

theorem valLoc_tzid (v : Val) : v.tzid = tzidOf (valLoc v) := by
  cases v <;> rfl

theorem cleanVal_safe {E : Env} {v : Val} (h : CleanVal E v) : v.LibOk E ∧ HeadOk v := by
  refine ⟨?_, ?_⟩
  · have h2 := h.2
    cases v <;> exact h2
  · intro n hn
    rw [valLoc_tzid, tzidOf_eq] at hn
    obtain ⟨p, r, e⟩ := hn
    exact h.1 n p r e

theorem typedParams_mem (n : Str) (vals : List (Str × Kind)) (vs : List (Option Val)) : ∀ {ds : List PDef} {ps : List (Option ParamVal)},
    typedParams ds ps = true → ∀ x ∈ propParams ⟨n, .fields ds vals⟩ (.fields ps vs), x.1.kind.typed x.2 = true := by
  intro ds
  induction ds with
  | nil => intro ps h x hx; simp [propParams] at hx
  | cons d ds ih =>
    intro ps h x hx
    cases ps with
    | nil => simp [propParams] at hx
    | cons p ps =>
      simp only [typedParams, Bool.and_eq_true] at h
      rcases (propParams_cons n vals d ds p ps vs x).1 hx with ⟨v, rfl, rfl⟩ | hx
      · simpa using h.1
      · exact ih h.2 x hx

theorem PSpec.typed_params {sp : PSpec} {p : PropVal} (ht : sp.typed p = true) : ∀ x ∈ propParams sp p, x.1.kind.typed x.2 = true := by
  obtain ⟨n, sh⟩ := sp
  cases sh with
  | enum names => intro x hx; cases p <;> simp [propParams] at hx
  | fields params vals =>
    cases p with
    | enum => intro x hx; simp [propParams] at hx
    | fields ps vs =>
      simp only [PSpec.typed, Bool.and_eq_true] at ht
      exact typedParams_mem n vals vs ht.1.1

theorem vanishes_present {E : Env} {k : PKind} {v : ParamVal} (ht : k.typed v = true) : vanishes E k v = !present E v := by
  cases k <;> cases v <;> simp only [PKind.typed, Bool.false_eq_true] at ht <;> simp [vanishes, present]
  next u => cases E.urlString u <;> simp

/-! ## Outlines -/

theorem paramToks_names (E : Env) (n : Str) (vals : List (Str × Kind)) (vs : List (Option Val)) : ∀ {ds : List PDef} {ps : List (Option ParamVal)},
    typedParams ds ps = true →
    (paramToks E ds ps).map (·.1) = ((propParams ⟨n, .fields ds vals⟩ (.fields ps vs)).filter (fun x => present E x.2)).map (·.1.name) := by
  intro ds
  induction ds with
  | nil => intro ps h; cases ps <;> simp [paramToks, propParams]
  | cons d ds ih =>
    intro ps h
    cases ps with
    | nil => simp [paramToks, propParams]
    | cons p ps =>
      simp only [typedParams, Bool.and_eq_true] at h
      have ih := ih h.2
      simp only [propParams] at ih
      cases p with
      | none => simp [paramToks, propParams, ih]
      | some v =>
        have hv := vanishes_present (E := E) (k := d.kind) (v := v) (by simpa using h.1)
        simp only [paramToks, propParams, List.zip_cons_cons, List.filterMap_cons, Option.map_some, List.filter_cons, hv]
        cases present E v <;> simp [ih]

theorem toLine_outline' (E : Env) (f : SField) (p : PropVal) (hw : FieldWf f) (ht : f.spec.typed p = true) (hv : f.spec.valid p = .ok ())
    (hn : (toLine E f.spec p).name = f.spec.name) : outlineOf (toLine E f.spec p) = .prop f.spec.name (lineParams E f.spec p) := by
  unfold outlineOf
  have h0 : ¬ ((toLine E f.spec p).name ∈ [c!"BEGIN", c!"END", c!"ACTION"] ∧ (toLine E f.spec p).params = []) := by
    rw [hn]
    have := hw.notCtl2
    simp only [kBEGIN, kEND, kACTION] at this
    simp [this.1, this.2.1, this.2.2]
  rw [if_neg h0, hn]
  congr 1
  obtain ⟨key, ⟨n, sh⟩, mult⟩ := f
  cases sh with
  | enum names =>
    cases p with
    | fields => simp [PSpec.typed] at ht
    | enum k => simp [toLine, lineParams, propParams, propVals]
  | fields params vals =>
    cases p with
    | enum => simp [PSpec.typed] at ht
    | fields ps vs =>
      obtain ⟨_, t1, i, v, hi, e, hk, hvv⟩ := PSpec.typed_valid ht hv
      have hfm : vs.filterMap id = [v] := by
        rw [e]
        unfold oneOf
        clear e hk t1 hn h0 hv ht
        generalize vals.length = m at hi
        induction m generalizing i with
        | zero => omega
        | succ m ih =>
          cases i with
          | zero => simp [List.replicate_succ]
          | succ i => simpa [List.replicate_succ] using ih i (by omega)
      simp only [lineParams, propVals, hfm]
      have hfi := oneOf_findIdx vals.length i v hi
      have hfg := oneOf_get vals.length i v hi
      simp only [toLine, e, hfi, hfg, List.map_append]
      rw [paramToks_names E n vals (oneOf vals.length i v) t1]
      congr 1
      · congr 1
        cases hvl : vals.length with
        | zero => omega
        | succ m =>
          cases i with
          | zero => simp [valueToks, oneOf, List.replicate_succ]
          | succ i => simp [valueToks, oneOf, List.replicate_succ]
      · cases v
        case dateTime t => obtain ⟨_, _, l⟩ := t; cases l <;> rfl
        case period p => obtain ⟨⟨_, _, l⟩, _, _⟩ := p; cases l <;> rfl
        case recur r =>
          simp only [headToks, Val.tzid, valLoc, List.flatMap_cons, List.flatMap_nil, List.append_nil]
          cases r.until_.loc <;> rfl
        all_goals rfl

theorem toLine_outline (E : Env) (f : SField) (p : PropVal) (hw : FieldWf f) (ht : f.spec.typed p = true) (hv : f.spec.valid p = .ok ())
    (hs : PropSafe E f.spec p) : outlineOf (toLine E f.spec p) = .prop f.spec.name (lineParams E f.spec p) :=
  toLine_outline' E f p hw ht hv (PSpec.encode_line E f.spec p hw.spec hs).2.2

theorem fieldLines_props (E : Env) : ∀ (fs : List SField) (vs : List (List PropVal)),
    fieldLines E fs vs = ((fs.zip vs).flatMap fun x => x.2.map fun p => (x.1, p)).map fun x => toLine E x.1.spec x.2 := by
  intro fs
  induction fs with
  | nil => intro vs; cases vs <;> rfl
  | cons f fs ih =>
    intro vs
    cases vs with
    | nil => rfl
    | cons v vs => simp [fieldLines, ih]

theorem FieldsAll.props {P : SField → PropVal → Prop} : ∀ {fs : List SField} {vs : List (List PropVal)}, FieldsAll P fs vs →
    ∀ x ∈ (fs.zip vs).flatMap (fun x => x.2.map fun p => (x.1, p)), P x.1 x.2 := by
  intro fs
  induction fs with
  | nil => intro vs _ x hx; simp at hx
  | cons f fs ih =>
    intro vs h x hx
    cases vs with
    | nil => exact absurd h id
    | cons v vs =>
      simp only [List.zip_cons_cons, List.flatMap_cons, List.mem_append] at hx
      rcases hx with hx | hx
      · obtain ⟨y, hy, rfl⟩ := List.mem_map.1 hx
        exact h.1 y hy
      · exact ih h.2 x hx

theorem subsLines_outline {κ σ : Type} (inner : κ → σ → List Line) (out : κ → σ → List Outline) (P : κ → σ → Prop) :
    ∀ (ks : List (Str × κ)) (vs : List (List σ)),
      (∀ x ∈ ks, ∀ s, P x.2 s → (plainLine kBEGIN x.1 :: inner x.2 s).map outlineOf = out x.2 s) → SubsAll P ks vs →
      (subsLines inner ks vs).map outlineOf = (ks.zip vs).flatMap fun x => x.2.flatMap (out x.1.2) := by
  intro ks
  induction ks with
  | nil => intro vs _ h; cases vs <;> rfl
  | cons k ks ih =>
    obtain ⟨n, k⟩ := k
    intro vs he h
    cases vs with
    | nil => exact absurd h id
    | cons v vs =>
      simp only [subsLines, List.map_append, List.zip_cons_cons, List.flatMap_cons,
        ih vs (fun x hx => he x (List.mem_cons_of_mem _ hx)) h.2, List.map_flatMap]
      congr 1
      have h1 := h.1
      clear h ih
      induction v with
      | nil => rfl
      | cons x v ihv =>
        simp only [List.flatMap_cons, ihv (fun y hy => h1 y (List.mem_cons_of_mem _ hy)),
          he (n, k) List.mem_cons_self x (h1 x List.mem_cons_self)]

/-- A property fit for an outline. -/
def OutOk (E : Env) (f : SField) (p : PropVal) : Prop := outlineOf (toLine E f.spec p) = .prop f.spec.name (lineParams E f.spec p)

theorem outline_ctl (n v : Str) (h : n ∈ [c!"BEGIN", c!"END", c!"ACTION"]) : outlineOf (plainLine n v) = .ctl n v := by
  unfold outlineOf plainLine
  rw [if_pos ⟨h, rfl⟩]

theorem inner_outline {κ σ : Type} (E : Env) (T : Tab κ) (name : Str) (hn : name = T.name) (inner : κ → σ → List Line)
    (out : κ → σ → List Outline) (P : κ → σ → Prop)
    (he : ∀ x ∈ T.subs, ∀ s, P x.2 s → (plainLine kBEGIN x.1 :: inner x.2 s).map outlineOf = out x.2 s) (s : Sect σ)
    (hf : FieldsAll (OutOk E) T.fields s.fields) (hs : SubsAll P T.subs s.subs) (pre : List Line) :
    (plainLine kBEGIN name :: pre ++ T.inner E inner s).map outlineOf = sectOutline E name (pre.map outlineOf) T out s := by
  unfold Tab.inner sectOutline
  rw [List.map_append, List.map_cons, List.map_append, List.map_append, subsLines_outline inner out P _ _ he hs, fieldLines_props,
    List.map_map]
  have hp := hf.props
  have e1 : (((T.fields.zip s.fields).flatMap fun x => x.2.map fun p => (x.1, p)).map (outlineOf ∘ fun x => toLine E x.1.spec x.2)) =
      (sectProps T s).map fun x => Outline.prop x.1.spec.name (lineParams E x.1.spec x.2) :=
    List.map_congr_left fun x hx => hp x hx
  rw [e1, outline_ctl _ _ (by decide)]
  simp only [List.map_cons, List.map_nil, outline_ctl kEND T.name (by decide), hn]
  unfold below
  simp [kBEGIN, kEND]

theorem GoodCal.outline {E : Env} {c : Cal} (h : GoodCal (OutOk E) c) : (calLines E c).map outlineOf = calOutline E c := by
  obtain ⟨h1, _, h3, _⟩ := h
  refine inner_outline E tabCalendar _ rfl (compInner E) _ (GoodSect (OutOk E) (GoodSub (OutOk E))) ?_ c h1 h3 []
  rintro ⟨n, T⟩ hx s ⟨g1, _, g3, _⟩
  obtain ⟨_, hn, hg⟩ := compTab_good _ hx
  simp only at hn g1 g3
  subst hn
  refine inner_outline E T T.name rfl (subInner E) (subOutline E) (GoodSub (OutOk E)) ?_ s g1 g3 []
  rintro ⟨n, k⟩ hy s hs
  have hgy := hg _ hy
  cases k with
  | leaf T =>
    cases s with
    | alarm a => exact absurd hs id
    | leaf s =>
      obtain ⟨_, hn, hsub⟩ := hgy
      simp only at hn
      subst hn
      exact inner_outline E T T.name rfl noInner (fun k => nomatch k) noP (by rw [hsub]; simp) s hs.1 hs.2.2.1 []
  | alarm =>
    cases s with
    | leaf s => exact absurd hs id
    | alarm a => cases a with
      | none => exact absurd hs id
      | some a =>
        obtain ⟨k, s⟩ := a
        have hn : n = kVALARM := hgy
        have := inner_outline E k.tab n (hn.trans (aTab_name k).1.symm) noInner (fun k => nomatch k) noP (by rw [(aTab_name k).2]; simp) s hs.1 hs.2.2.1
          [plainLine kACTION k.action]
        simp only [subInner, subOutline, alarmInner]
        subst hn
        refine this.trans ?_
        simp only [List.map_cons, List.map_nil, outline_ctl kACTION k.action (by decide)]
        rfl

end Ics
