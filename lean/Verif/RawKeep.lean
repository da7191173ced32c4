import Verif.RawUtf8
/-!
# Lemmas: calendars of runes and calendars of octets
-/

namespace Ics

open Spec Props

/-! ## Types -/

theorem PKind.typedB_soft {k : PKind} {v : RawParam} (h : k.typedB v = true) : k.typed (softParam v) = true := by
  cases v with
  | str s =>
    cases k with
    | str q => rfl
    | fmt => rfl
    | _ => cases h
  | strs ss =>
    cases k with
    | strs => rfl
    | _ => cases h
  | other w =>
    cases k with
    | str q => cases h
    | fmt => cases h
    | strs => cases h
    | _ => exact h

theorem RawVal.kind_soft {v : RawVal} {k : Kind} (h : v.kind? = some k) : (softVal v).kind = k := by
  cases v with
  | text t => cases h; rfl
  | mtext ts => cases h; rfl
  | other w =>
    simp only [RawVal.kind?] at h
    split at h
    · cases h
    · cases h; rfl

theorem typedParamsB_soft : ∀ (ds : List PDef) (ps : List (Option RawParam)), typedParamsB ds ps = true → typedParams ds (ps.map (Option.map softParam)) = true
  | [], [], _ => rfl
  | d :: ds, p :: ps, h => by
    simp only [typedParamsB, Bool.and_eq_true] at h
    simp only [List.map_cons, typedParams, Bool.and_eq_true]
    refine ⟨?_, typedParamsB_soft ds ps h.2⟩
    cases p with
    | none => rfl
    | some v => exact PKind.typedB_soft h.1
  | [], _ :: _, h => by cases h
  | _ :: _, [], h => by cases h

theorem typedValsB_soft : ∀ (ks : List (Str × Kind)) (vs : List (Option RawVal)), typedValsB ks vs = true → typedVals ks (vs.map (Option.map softVal)) = true
  | [], [], _ => rfl
  | (n, k) :: ks, v :: vs, h => by
    simp only [typedValsB, Bool.and_eq_true] at h
    simp only [List.map_cons, typedVals, Bool.and_eq_true]
    refine ⟨?_, typedValsB_soft ks vs h.2⟩
    cases v with
    | none => rfl
    | some v =>
      have := RawVal.kind_soft (v := v) (k := k) (by simpa using h.1)
      simpa using this
  | [], _ :: _, h => by cases h
  | _ :: _, [], h => by cases h

theorem PSpec.typedB_soft {sp : PSpec} {v : RawProp} (h : sp.typedB v = true) : sp.typed (softProp v) = true := by
  unfold PSpec.typedB at h
  unfold PSpec.typed
  cases hs : sp.shape with
  | enum names =>
    rw [hs] at h
    cases v with
    | enum n => exact h
    | fields ps vs => cases h
  | fields params vals =>
    rw [hs] at h
    cases v with
    | enum n => cases h
    | fields ps vs =>
      simp only [Bool.and_eq_true] at h
      simp only [softProp, Bool.and_eq_true]
      refine ⟨⟨typedParamsB_soft _ _ h.1.1, typedValsB_soft _ _ h.1.2⟩, ?_⟩
      have := h.2
      simp only [List.all_map, Function.comp_def, Option.isSome_map] at this ⊢
      exact this

theorem typedFieldsB_soft : ∀ (fs : List SField) (vs : List (List RawProp)), typedFieldsB fs vs = true → typedFields fs (vs.map (List.map softProp)) = true
  | [], [], _ => rfl
  | f :: fs, v :: vs, h => by
    simp only [typedFieldsB, Bool.and_eq_true] at h
    simp only [List.map_cons, typedFields, Bool.and_eq_true, List.length_map]
    refine ⟨⟨?_, h.1.2⟩, typedFieldsB_soft fs vs h.2⟩
    rw [List.all_map, List.all_eq_true]
    exact fun p hp => PSpec.typedB_soft (List.all_eq_true.1 h.1.1 p hp)
  | [], _ :: _, h => by cases h
  | _ :: _, [], h => by cases h

theorem typedSubs_map {κ σ τ : Type} {typ : κ → σ → Bool} {typ' : κ → τ → Bool} {g : σ → τ} (hg : ∀ k s, typ k s = true → typ' k (g s) = true) :
    ∀ (ks : List (Str × κ)) (vs : List (List σ)), typedSubs typ ks vs = true → typedSubs typ' ks (vs.map (List.map g)) = true
  | [], [], _ => rfl
  | (n, k) :: ks, v :: vs, h => by
    simp only [typedSubs, Bool.and_eq_true] at h
    simp only [List.map_cons, typedSubs, Bool.and_eq_true]
    refine ⟨?_, typedSubs_map hg ks vs h.2⟩
    rw [List.all_map, List.all_eq_true]
    exact fun p hp => hg k p (List.all_eq_true.1 h.1 p hp)
  | [], _ :: _, h => by cases h
  | _ :: _, [], h => by cases h

theorem Tab.typedB_soft {κ σ τ : Type} {T : Tab κ} {typ : κ → σ → Bool} {typ' : κ → τ → Bool} {g : σ → τ} (hg : ∀ k s, typ k s = true → typ' k (g s) = true) {s : RawSect σ} (h : T.typedB typ s = true) :
    T.typed typ' (softSect g s) = true := by
  unfold Tab.typedB at h
  unfold Tab.typed
  rw [Bool.and_eq_true] at h ⊢
  exact ⟨typedFieldsB_soft _ _ h.1, typedSubs_map hg _ _ h.2⟩

theorem subTypedB_soft (k : SubKind) (s : RawSub) (h : subTypedB k s = true) : subTyped k (softSub s) = true := by
  cases k with
  | alarm =>
    cases s with
    | leaf s => cases h
    | alarm a =>
      cases a with
      | none => rfl
      | some a => exact Tab.typedB_soft (g := id) (fun k => nomatch k) h
  | leaf T =>
    cases s with
    | leaf s => exact Tab.typedB_soft (g := id) (fun k => nomatch k) h
    | alarm a => cases h

theorem RawCal.typed_soft {c : RawCal} (h : c.typed = true) : (softCal c).typed = true :=
  Tab.typedB_soft (fun _ _ h => Tab.typedB_soft subTypedB_soft h) h

theorem PKind.typed_hard {k : PKind} {v : ParamVal} (h : k.typed v = true) : k.typedB (hardParam v) = true := by
  cases v <;> cases k <;> first | exact h | rfl | cases h

theorem Val.kind_hard (v : Val) : (hardVal v).kind? = some v.kind := by
  cases v <;> rfl

theorem typedParams_hard : ∀ (ds : List PDef) (ps : List (Option ParamVal)), typedParams ds ps = true → typedParamsB ds (ps.map (Option.map hardParam)) = true
  | [], [], _ => rfl
  | d :: ds, p :: ps, h => by
    simp only [typedParams, Bool.and_eq_true] at h
    simp only [List.map_cons, typedParamsB, Bool.and_eq_true]
    refine ⟨?_, typedParams_hard ds ps h.2⟩
    cases p with
    | none => rfl
    | some v => exact PKind.typed_hard h.1
  | [], _ :: _, h => by cases h
  | _ :: _, [], h => by cases h

theorem typedVals_hard : ∀ (ks : List (Str × Kind)) (vs : List (Option Val)), typedVals ks vs = true → typedValsB ks (vs.map (Option.map hardVal)) = true
  | [], [], _ => rfl
  | (n, k) :: ks, v :: vs, h => by
    simp only [typedVals, Bool.and_eq_true] at h
    simp only [List.map_cons, typedValsB, Bool.and_eq_true]
    refine ⟨?_, typedVals_hard ks vs h.2⟩
    cases v with
    | none => rfl
    | some v =>
      have : v.kind = k := by simpa using h.1
      simp [Val.kind_hard, this]
  | [], _ :: _, h => by cases h
  | _ :: _, [], h => by cases h

theorem PSpec.typed_hard {sp : PSpec} {v : PropVal} (h : sp.typed v = true) : sp.typedB (hardProp v) = true := by
  unfold PSpec.typed at h
  unfold PSpec.typedB
  cases hs : sp.shape with
  | enum names =>
    rw [hs] at h
    cases v with
    | enum n => exact h
    | fields ps vs => cases h
  | fields params vals =>
    rw [hs] at h
    cases v with
    | enum n => cases h
    | fields ps vs =>
      simp only [Bool.and_eq_true] at h
      simp only [hardProp, Bool.and_eq_true]
      refine ⟨⟨typedParams_hard _ _ h.1.1, typedVals_hard _ _ h.1.2⟩, ?_⟩
      have := h.2
      simp only [List.all_map, Function.comp_def, Option.isSome_map] at this ⊢
      exact this

theorem typedFields_hard : ∀ (fs : List SField) (vs : List (List PropVal)), typedFields fs vs = true → typedFieldsB fs (vs.map (List.map hardProp)) = true
  | [], [], _ => rfl
  | f :: fs, v :: vs, h => by
    simp only [typedFields, Bool.and_eq_true] at h
    simp only [List.map_cons, typedFieldsB, Bool.and_eq_true, List.length_map]
    refine ⟨⟨?_, h.1.2⟩, typedFields_hard fs vs h.2⟩
    rw [List.all_map, List.all_eq_true]
    exact fun p hp => PSpec.typed_hard (List.all_eq_true.1 h.1.1 p hp)
  | [], _ :: _, h => by cases h
  | _ :: _, [], h => by cases h

theorem Tab.typed_hard {κ σ τ : Type} {T : Tab κ} {typ : κ → σ → Bool} {typ' : κ → τ → Bool} {g : σ → τ} (hg : ∀ k s, typ k s = true → typ' k (g s) = true) {s : Sect σ} (h : T.typed typ s = true) :
    T.typedB typ' (hardSect g s) = true := by
  unfold Tab.typed at h
  unfold Tab.typedB
  rw [Bool.and_eq_true] at h ⊢
  exact ⟨typedFields_hard _ _ h.1, typedSubs_map hg _ _ h.2⟩

theorem subTyped_hard (k : SubKind) (s : Sub) (h : subTyped k s = true) : subTypedB k (hardSub s) = true := by
  cases k with
  | alarm =>
    cases s with
    | leaf s => cases h
    | alarm a =>
      cases a with
      | none => rfl
      | some a => exact Tab.typed_hard (g := id) (fun k => nomatch k) h
  | leaf T =>
    cases s with
    | leaf s => exact Tab.typed_hard (g := id) (fun k => nomatch k) h
    | alarm a => cases h

theorem Cal.typed_hard {c : Cal} (h : c.typed = true) : (hardCal c).typed = true :=
  Tab.typed_hard (fun _ _ h => Tab.typed_hard subTyped_hard h) h

/-! ## There and back -/

theorem map_self {α : Type} {f : α → α} {l : List α} : l.map f = l ↔ ∀ a ∈ l, f a = a := by
  induction l with
  | nil => simp
  | cons a l ih => simp [ih]

theorem softVal_hard (v : Val) : softVal (hardVal v) = v := by
  cases v
  case text t => simp [hardVal, softVal, runes_utf8]
  case mtext ts =>
    simp only [hardVal, softVal, List.map_map, Val.mtext.injEq]
    exact map_self.2 fun t _ => runes_utf8 t
  all_goals rfl

theorem softParam_hard (v : ParamVal) : softParam (hardParam v) = v := by
  cases v
  case str t => simp [hardParam, softParam, runes_utf8]
  case strs ts =>
    simp only [hardParam, softParam, List.map_map, ParamVal.strs.injEq]
    exact map_self.2 fun t _ => runes_utf8 t
  all_goals rfl

theorem option_map_self {α β : Type} {f : α → β} {g : β → α} (h : ∀ a, g (f a) = a) (x : Option α) : Option.map g (Option.map f x) = x := by
  cases x with
  | none => rfl
  | some a => rw [Option.map_some, Option.map_some, h]

theorem list_map_self {α β : Type} {f : α → β} {g : β → α} (h : ∀ a, g (f a) = a) (l : List α) : List.map g (List.map f l) = l := by
  rw [List.map_map]
  exact map_self.2 fun a _ => h a

theorem softProp_hard (p : PropVal) : softProp (hardProp p) = p := by
  cases p with
  | enum n => rfl
  | fields ps vs =>
    simp only [hardProp, softProp]
    rw [list_map_self (option_map_self softParam_hard), list_map_self (option_map_self softVal_hard)]

theorem softSect_hard {σ τ : Type} {f : σ → τ} {g : τ → σ} (h : ∀ a, g (f a) = a) (s : Sect σ) : softSect g (hardSect f s) = s := by
  cases s
  simp only [softSect, hardSect]
  rw [list_map_self (list_map_self softProp_hard), list_map_self (list_map_self h)]

theorem softSub_hard (s : Sub) : softSub (hardSub s) = s := by
  cases s with
  | leaf s => simp only [hardSub, softSub, softSect_hard (f := id) (g := id) (fun _ => rfl)]
  | alarm a =>
    cases a with
    | none => rfl
    | some a => simp only [hardSub, softSub, Option.map_some, softSect_hard (f := id) (g := id) (fun _ => rfl)]

theorem softCal_hard (c : Cal) : softCal (hardCal c) = c := softSect_hard (softSect_hard softSub_hard) c

theorem hardVal_soft {v : RawVal} {k : Kind} (h : v.kind? = some k) : hardVal (softVal v) = v ↔ ∀ s ∈ rawVals v, IsUtf8 s := by
  cases v with
  | text t => simp only [softVal, hardVal, rawVals, List.mem_singleton, forall_eq, isUtf8_iff, RawVal.text.injEq]
  | mtext ts =>
    simp only [softVal, hardVal, rawVals, RawVal.mtext.injEq, List.map_map]
    rw [map_self]
    exact ⟨fun h t ht => (isUtf8_iff t).2 (h t ht), fun h t ht => (isUtf8_iff t).1 (h t ht)⟩
  | other w =>
    refine ⟨fun _ => nofun, fun _ => ?_⟩
    cases w
    case text t => simp [RawVal.kind?, Val.kind] at h
    case mtext t => simp [RawVal.kind?, Val.kind] at h
    all_goals rfl

theorem hardParam_soft {v : RawParam} {k : PKind} (h : k.typedB v = true) : hardParam (softParam v) = v ↔ ∀ s ∈ rawParams v, IsUtf8 s := by
  cases v with
  | str t => simp only [softParam, hardParam, rawParams, List.mem_singleton, forall_eq, isUtf8_iff, RawParam.str.injEq]
  | strs ts =>
    simp only [softParam, hardParam, rawParams, RawParam.strs.injEq, List.map_map]
    rw [map_self]
    exact ⟨fun h t ht => (isUtf8_iff t).2 (h t ht), fun h t ht => (isUtf8_iff t).1 (h t ht)⟩
  | other w =>
    refine ⟨fun _ => nofun, fun _ => ?_⟩
    cases w
    case str t => cases k <;> cases h
    case strs t => cases k <;> cases h
    all_goals rfl

theorem all_flatMap {α : Type} {f : α → List Bytes} {g : α → α} {l : List α} (h : ∀ a ∈ l, g a = a ↔ ∀ s ∈ f a, IsUtf8 s) : l.map g = l ↔ ∀ s ∈ l.flatMap f, IsUtf8 s := by
  rw [map_self]
  simp only [List.mem_flatMap]
  exact ⟨fun x s ⟨a, ha, hs⟩ => (h a ha).1 (x a ha) s hs, fun x a ha => (h a ha).2 fun s hs => x s ⟨a, ha, hs⟩⟩

theorem all_option {α : Type} {f : α → List Bytes} {g : α → α} {x : Option α} (h : ∀ a, x = some a → (g a = a ↔ ∀ s ∈ f a, IsUtf8 s)) : x.map g = x ↔ ∀ s ∈ x.toList.flatMap f, IsUtf8 s := by
  cases x with
  | none => exact ⟨fun _ => nofun, fun _ => rfl⟩
  | some a => simpa using h a rfl

theorem utf8_all_append {xs ys : List Bytes} : (∀ s ∈ xs ++ ys, IsUtf8 s) ↔ (∀ s ∈ xs, IsUtf8 s) ∧ ∀ s ∈ ys, IsUtf8 s := by
  simp only [List.mem_append]
  exact ⟨fun x => ⟨fun s hs => x s (.inl hs), fun s hs => x s (.inr hs)⟩, fun ⟨x, y⟩ s hs => hs.elim (x s) (y s)⟩

theorem typedParamsB_mem : ∀ {ds : List PDef} {ps : List (Option RawParam)}, typedParamsB ds ps = true → ∀ v, some v ∈ ps → ∃ k : PKind, k.typedB v = true
  | [], [], _ => nofun
  | d :: ds, p :: ps, h => by
    simp only [typedParamsB, Bool.and_eq_true] at h
    intro v hv
    rcases List.mem_cons.1 hv with rfl | hv
    · exact ⟨d.kind, h.1⟩
    · exact typedParamsB_mem h.2 v hv
  | [], _ :: _, h => by cases h
  | _ :: _, [], h => by cases h

theorem typedValsB_mem : ∀ {ks : List (Str × Kind)} {vs : List (Option RawVal)}, typedValsB ks vs = true → ∀ v, some v ∈ vs → ∃ k, v.kind? = some k
  | [], [], _ => nofun
  | (n, k) :: ks, p :: ps, h => by
    simp only [typedValsB, Bool.and_eq_true] at h
    intro v hv
    rcases List.mem_cons.1 hv with rfl | hv
    · exact ⟨k, by simpa using h.1⟩
    · exact typedValsB_mem h.2 v hv
  | [], _ :: _, h => by cases h
  | _ :: _, [], h => by cases h

theorem hardProp_soft {sp : PSpec} {v : RawProp} (h : sp.typedB v = true) : hardProp (softProp v) = v ↔ ∀ s ∈ rawProp rawParams rawVals v, IsUtf8 s := by
  unfold PSpec.typedB at h
  cases v with
  | enum n => exact ⟨fun _ => nofun, fun _ => rfl⟩
  | fields ps vs =>
    cases hs : sp.shape with
    | enum names => rw [hs] at h; cases h
    | fields params vals =>
      rw [hs] at h
      simp only [Bool.and_eq_true] at h
      simp only [softProp, hardProp, rawProp, RawProp.fields.injEq, List.map_map]
      rw [utf8_all_append]
      refine and_congr (all_flatMap fun p hp => ?_) (all_flatMap fun v hv => ?_)
      · rw [Function.comp_apply, Option.map_map]
        refine all_option (g := hardParam ∘ softParam) fun w e => ?_
        subst e
        obtain ⟨k, hk⟩ := typedParamsB_mem h.1.1 w hp
        exact hardParam_soft hk
      · rw [Function.comp_apply, Option.map_map]
        refine all_option (g := hardVal ∘ softVal) fun w e => ?_
        subst e
        obtain ⟨k, hk⟩ := typedValsB_mem h.1.2 w hv
        exact hardVal_soft hk

theorem typedFieldsB_mem : ∀ {fs : List SField} {vs : List (List RawProp)}, typedFieldsB fs vs = true → ∀ ps ∈ vs, ∀ p ∈ ps, ∃ sp : PSpec, sp.typedB p = true
  | [], [], _ => nofun
  | f :: fs, v :: vs, h => by
    simp only [typedFieldsB, Bool.and_eq_true] at h
    intro ps hps p hp
    rcases List.mem_cons.1 hps with rfl | hps
    · exact ⟨f.spec, List.all_eq_true.1 h.1.1 p hp⟩
    · exact typedFieldsB_mem h.2 ps hps p hp
  | [], _ :: _, h => by cases h
  | _ :: _, [], h => by cases h

theorem typedSubs_mem {κ σ : Type} {typ : κ → σ → Bool} : ∀ {ks : List (Str × κ)} {vs : List (List σ)}, typedSubs typ ks vs = true → ∀ xs ∈ vs, ∀ x ∈ xs, ∃ k, typ k x = true
  | [], [], _ => nofun
  | (n, k) :: ks, v :: vs, h => by
    simp only [typedSubs, Bool.and_eq_true] at h
    intro ps hps p hp
    rcases List.mem_cons.1 hps with rfl | hps
    · exact ⟨k, List.all_eq_true.1 h.1 p hp⟩
    · exact typedSubs_mem h.2 ps hps p hp
  | [], _ :: _, h => by cases h
  | _ :: _, [], h => by cases h

theorem hardSect_soft {κ σ τ : Type} {T : Tab κ} {typ : κ → σ → Bool} {f : σ → τ} {g : τ → σ} {str : σ → List Bytes} (hg : ∀ k x, typ k x = true → (g (f x) = x ↔ ∀ s ∈ str x, IsUtf8 s)) {s : RawSect σ}
    (h : T.typedB typ s = true) : hardSect g (softSect f s) = s ↔ ∀ x ∈ rawSect rawParams rawVals str s, IsUtf8 x := by
  unfold Tab.typedB at h
  rw [Bool.and_eq_true] at h
  cases s with
  | mk fields subs =>
    simp only [hardSect, softSect, rawSect, RawSect.mk.injEq, List.map_map]
    rw [utf8_all_append]
    refine and_congr (all_flatMap fun ps hps => ?_) (all_flatMap fun xs hxs => ?_)
    · rw [Function.comp_apply, List.map_map]
      refine all_flatMap fun p hp => ?_
      obtain ⟨sp, hsp⟩ := typedFieldsB_mem h.1 ps hps p hp
      exact hardProp_soft hsp
    · rw [Function.comp_apply, List.map_map]
      refine all_flatMap fun x hx => ?_
      obtain ⟨k, hk⟩ := typedSubs_mem h.2 xs hxs x hx
      exact hg k x hk

theorem hardSub_soft (k : SubKind) (x : RawSub) (h : subTypedB k x = true) : hardSub (softSub x) = x ↔ ∀ s ∈ rawSub rawParams rawVals x, IsUtf8 s := by
  cases k with
  | alarm =>
    cases x with
    | leaf s => cases h
    | alarm a =>
      cases a with
      | none => exact ⟨fun _ => nofun, fun _ => rfl⟩
      | some a =>
        have := hardSect_soft (f := id) (g := id) (str := fun _ => []) (fun k => nomatch k) h
        simpa [softSub, hardSub, rawSub, Prod.ext_iff] using this
  | leaf T =>
    cases x with
    | leaf s =>
      have := hardSect_soft (f := id) (g := id) (str := fun _ => []) (fun k => nomatch k) h
      simpa [softSub, hardSub, rawSub] using this
    | alarm a => cases h

theorem hardCal_soft {c : RawCal} (h : c.typed = true) : hardCal (softCal c) = c ↔ ∀ s ∈ calStrings c, IsUtf8 s :=
  hardSect_soft (typ := fun (T : Tab SubKind) s => T.typedB subTypedB s) (fun _ _ h => hardSect_soft hardSub_soft h) h

/-! ## What `hardCal` has -/

theorem rawProp_hard {f : RawParam → List Bytes} {g : RawVal → List Bytes} {P : Bytes → Prop} (hf : ∀ p, ∀ s ∈ f (hardParam p), P s) (hg : ∀ v, ∀ s ∈ g (hardVal v), P s) (p : PropVal) :
    ∀ s ∈ rawProp f g (hardProp p), P s := by
  cases p with
  | enum n => nofun
  | fields ps vs =>
    intro s hs
    simp only [hardProp, rawProp, List.mem_append, List.mem_flatMap, List.mem_map, Option.mem_toList] at hs
    rcases hs with ⟨_, ⟨a, _, rfl⟩, b, hb, h⟩ | ⟨_, ⟨a, _, rfl⟩, b, hb, h⟩
    · obtain ⟨x, _, rfl⟩ := Option.map_eq_some_iff.1 hb
      exact hf x s h
    · obtain ⟨x, _, rfl⟩ := Option.map_eq_some_iff.1 hb
      exact hg x s h

theorem rawSect_hard {σ τ : Type} {f : RawParam → List Bytes} {g : RawVal → List Bytes} {P : Bytes → Prop} (hf : ∀ p, ∀ s ∈ f (hardParam p), P s) (hg : ∀ v, ∀ s ∈ g (hardVal v), P s)
    {h : σ → τ} {str : τ → List Bytes} (hs : ∀ x, ∀ s ∈ str (h x), P s) (x : Sect σ) : ∀ s ∈ rawSect f g str (hardSect h x), P s := by
  intro s hm
  simp only [hardSect, rawSect, List.mem_append, List.mem_flatMap, List.mem_map] at hm
  rcases hm with ⟨_, ⟨a, _, rfl⟩, b, hb, h⟩ | ⟨_, ⟨a, _, rfl⟩, b, hb, h⟩
  · obtain ⟨x, _, rfl⟩ := List.mem_map.1 hb
    exact rawProp_hard hf hg x s h
  · obtain ⟨x, _, rfl⟩ := List.mem_map.1 hb
    exact hs x s h

theorem rawCal_hard {f : RawParam → List Bytes} {g : RawVal → List Bytes} {P : Bytes → Prop} (hf : ∀ p, ∀ s ∈ f (hardParam p), P s) (hg : ∀ v, ∀ s ∈ g (hardVal v), P s) (c : Cal) :
    ∀ s ∈ rawCal f g (hardCal c), P s :=
  rawSect_hard hf hg (rawSect_hard hf hg fun x => by
    cases x with
    | leaf s => exact rawSect_hard (h := id) hf hg (fun (x : Empty) => nomatch x) s
    | alarm a =>
      cases a with
      | none => nofun
      | some a =>
        intro s hs
        have hs : s ∈ rawSect f g (fun _ => []) (hardSect id a.2) := by simpa [hardSub, rawSub] using hs
        exact rawSect_hard (h := id) hf hg (fun (x : Empty) => nomatch x) a.2 s hs) c

/-- The library gives UTF-8.  Not in /repo: what the standard library returns. -/
structure OctetsUtf8 (E : Env) (O : Octets) : Prop where
  url : ∀ u, O.url u = utf8 (E.urlString u)
  zone : ∀ n p r, O.zone (.zone n p r) = utf8 n

theorem OctetsUtf8.of {E : Env} {O : Octets} (h : OctetsUtf8 E O) : OctetsOf E O :=
  ⟨fun u => by rw [h.url, runes_utf8], fun n p r => by rw [h.zone, runes_utf8]⟩

theorem calAsIs_hard {E : Env} {O : Octets} (h : OctetsUtf8 E O) (c : Cal) : ∀ s ∈ calAsIs O (hardCal c), IsUtf8 s := by
  have url : ∀ u, IsUtf8 (O.url u) := fun u => ⟨_, h.url u⟩
  have zone : ∀ t, ∀ s ∈ zoneAsIs O t, IsUtf8 s := by
    intro t s hs
    unfold zoneAsIs at hs
    split at hs
    · rw [List.mem_singleton.1 hs]; exact ⟨_, h.zone _ _ _⟩
    · cases hs
  refine rawCal_hard (fun p s hs => ?_) (fun v s hs => ?_) c
  · cases p
    case str t => rw [List.mem_singleton.1 hs]; exact ⟨_, rfl⟩
    case strs ts =>
      obtain ⟨x, _, rfl⟩ := List.mem_map.1 hs
      exact ⟨_, rfl⟩
    case url u => rw [List.mem_singleton.1 hs]; exact url u
    case urls us =>
      obtain ⟨x, _, rfl⟩ := List.mem_map.1 hs
      exact url x
    all_goals cases hs
  · cases v
    case calAddress u => rw [List.mem_singleton.1 hs]; exact url u
    case uri u => rw [List.mem_singleton.1 hs]; exact url u
    case dateTime t => exact zone _ s hs
    case period p => exact zone _ s hs
    case recur r => exact zone _ s hs
    all_goals cases hs

theorem encodeOctets_hard {E : Env} {O : Octets} (h : OctetsUtf8 E O) {c : Cal} (ht : c.typed = true) : encodeOctets E O (hardCal c) = (encodeDoc E c).map utf8 := by
  have h1 := (encodeOctets_ends h.of (hardCal c)).text
  rw [softCal_hard] at h1
  rw [← h1]
  cases hb : encodeOctets E O (hardCal c) with
  | none => rfl
  | some b =>
    have := (isUtf8_iff b).1 ((encodeOctets_wr h.of (Cal.typed_hard ht) hb).2 (calAsIs_hard h c))
    rw [Option.map_some, Option.map_some, this]

end Ics
