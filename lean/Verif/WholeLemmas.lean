import Verif.ByteLemmas
/-!
# Validation, types and termination of encoding, in terms of all properties of a calendar
-/

namespace Ics

open Spec

variable {κ σ : Type}

/-! ## Types -/

theorem typedFields_props : ∀ {fs : List SField} {vs : List (List PropVal)}, typedFields fs vs = true →
    ∀ x ∈ (fs.zip vs).flatMap (fun x => x.2.map fun p => (x.1, p)), x.1.spec.typed x.2 = true := by
  intro fs
  induction fs with
  | nil => intro vs _ x hx; simp at hx
  | cons f fs ih =>
    intro vs h x hx
    cases vs with
    | nil => simp at hx
    | cons v vs =>
      simp only [typedFields, Bool.and_eq_true] at h
      simp only [List.zip_cons_cons, List.flatMap_cons, List.mem_append] at hx
      rcases hx with hx | hx
      · obtain ⟨y, hy, rfl⟩ := List.mem_map.1 hx
        exact List.all_eq_true.1 h.1.1 y hy
      · exact ih h.2 x hx

theorem typedSubs_below (typ : κ → σ → Bool) : ∀ {ks : List (Str × κ)} {vs : List (List σ)}, typedSubs typ ks vs = true →
    ∀ x ∈ ks.zip vs, ∀ y ∈ x.2, typ x.1.2 y = true := by
  intro ks
  induction ks with
  | nil => intro vs _ x hx; simp at hx
  | cons k ks ih =>
    obtain ⟨n, k⟩ := k
    intro vs h x hx y hy
    cases vs with
    | nil => simp at hx
    | cons v vs =>
      simp only [typedSubs, Bool.and_eq_true] at h
      simp only [List.zip_cons_cons, List.mem_cons] at hx
      rcases hx with rfl | hx
      · exact List.all_eq_true.1 h.1 y hy
      · exact ih h.2 x hx y hy

theorem Tab.typed_props {T : Tab κ} {typ : κ → σ → Bool} {s : Sect σ} (h : T.typed typ s = true) :
    (∀ x ∈ sectProps T s, x.1.spec.typed x.2 = true) ∧ Below (fun k y => typ k y = true) T s := by
  unfold Tab.typed at h
  rw [Bool.and_eq_true] at h
  exact ⟨typedFields_props h.1, typedSubs_below typ h.2⟩

theorem Cal.typed_props {c : Cal} (h : c.typed = true) : ∀ x ∈ calProps c, x.1.spec.typed x.2 = true := by
  obtain ⟨h1, h2⟩ := Tab.typed_props h
  intro x hx
  unfold calProps at hx
  rw [List.mem_append, mem_below] at hx
  rcases hx with hx | ⟨k, hk, y, hy, hx⟩
  · exact h1 x hx
  · obtain ⟨h3, h4⟩ := Tab.typed_props (h2 k hk y hy)
    unfold compProps at hx
    rw [List.mem_append, mem_below] at hx
    rcases hx with hx | ⟨j, hj, z, hz, hx⟩
    · exact h3 x hx
    · have h5 := h4 j hj z hz
      revert h5 hx
      generalize j.1.2 = jk
      intro hx h5
      unfold subProps at hx
      split at hx
      · exact (Tab.typed_props h5).1 x hx
      · exact (Tab.typed_props h5).1 x hx
      · cases hx

/-! ## Validation -/

/-- Not an alarm without type. -/
def NotNil : SubKind → Sub → Prop
  | .alarm, .alarm none => False
  | _, _ => True

/-- No alarm of the calendar is without type. -/
def NoNilAlarm (c : Cal) : Prop := Below (fun T s => Below NotNil T s) tabCalendar c

theorem leaf_valid_iff (T : Tab Empty) (s : Leaf) : T.valid noVal s = .ok () ↔ ∀ x ∈ sectProps T s, x.1.spec.valid x.2 = .ok () := by
  rw [Tab.valid_iff]
  constructor
  · exact fun h => h.1
  · exact fun h => ⟨h, fun _ _ y => nomatch y⟩

theorem subValid_iff (k : SubKind) (s : Sub) : subValid k s = .ok () ↔ (∀ x ∈ subProps k s, x.1.spec.valid x.2 = .ok ()) ∧ NotNil k s := by
  cases k with
  | leaf T =>
    cases s with
    | leaf s => simpa [subValid, subProps, NotNil] using leaf_valid_iff T s
    | alarm a => simp [subValid, subProps, NotNil]
  | alarm =>
    cases s with
    | leaf s => simp [subValid, subProps, NotNil]
    | alarm a =>
      cases a with
      | none => simp [subValid, NotNil]
      | some a => simpa [subValid, subProps, NotNil] using leaf_valid_iff a.1.tab a.2

theorem compValid_iff (T : Tab SubKind) (s : Comp) :
    T.valid subValid s = .ok () ↔ (∀ x ∈ compProps T s, x.1.spec.valid x.2 = .ok ()) ∧ Below NotNil T s := by
  rw [Tab.valid_iff]
  unfold compProps
  simp only [List.mem_append, mem_below]
  constructor
  · rintro ⟨h1, h2⟩
    refine ⟨?_, fun k hk y hy => ((subValid_iff _ _).1 (h2 k hk y hy)).2⟩
    rintro x (hx | ⟨k, hk, y, hy, hx⟩)
    · exact h1 x hx
    · exact ((subValid_iff _ _).1 (h2 k hk y hy)).1 x hx
  · rintro ⟨h1, h2⟩
    exact ⟨fun x hx => h1 x (Or.inl hx), fun k hk y hy =>
      (subValid_iff _ _).2 ⟨fun x hx => h1 x (Or.inr ⟨k, hk, y, hy, hx⟩), h2 k hk y hy⟩⟩

/-- Validation accepts a calendar if and only if it accepts all of its properties and no alarm is without type. -/
theorem Cal.valid_iff (c : Cal) : c.valid = .ok () ↔ (∀ x ∈ calProps c, x.1.spec.valid x.2 = .ok ()) ∧ NoNilAlarm c := by
  unfold Cal.valid
  rw [Tab.valid_iff]
  unfold calProps NoNilAlarm
  simp only [List.mem_append, mem_below]
  constructor
  · rintro ⟨h1, h2⟩
    refine ⟨?_, fun k hk y hy => ((compValid_iff _ _).1 (h2 k hk y hy)).2⟩
    rintro x (hx | ⟨k, hk, y, hy, hx⟩)
    · exact h1 x hx
    · exact ((compValid_iff _ _).1 (h2 k hk y hy)).1 x hx
  · rintro ⟨h1, h2⟩
    exact ⟨fun x hx => h1 x (Or.inl hx), fun k hk y hy =>
      (compValid_iff _ _).2 ⟨fun x hx => h1 x (Or.inr ⟨k, hk, y, hy, hx⟩), h2 k hk y hy⟩⟩

/-! ## Termination -/

theorem cat_none (l : List (Option Str)) : cat l = none ↔ none ∈ l := by
  induction l with
  | nil => simp [cat]
  | cons x l ih =>
    cases x with
    | none => simp [cat]
    | some a =>
      simp only [cat, Option.bind_eq_bind, Option.bind_some, List.mem_cons, reduceCtorEq, false_or, ← ih]
      cases cat l <;> simp

theorem encFields_none (E : Env) : ∀ (fs : List SField) (vs : List (List PropVal)), none ∈ encFields E fs vs ↔
    ∃ x ∈ (fs.zip vs).flatMap (fun x => x.2.map fun p => (x.1, p)), x.1.spec.encode E x.2 = none := by
  intro fs
  induction fs with
  | nil => intro vs; simp [encFields]
  | cons f fs ih =>
    intro vs
    cases vs with
    | nil => simp [encFields]
    | cons v vs =>
      simp only [encFields, List.mem_append, ih, List.mem_map, List.zip_cons_cons, List.flatMap_cons]
      constructor
      · rintro (⟨p, hp, h⟩ | ⟨x, hx, h⟩)
        · exact ⟨(f, p), Or.inl ⟨p, hp, rfl⟩, h⟩
        · exact ⟨x, Or.inr hx, h⟩
      · rintro ⟨x, ⟨p, hp, rfl⟩ | hx, h⟩
        · exact Or.inl ⟨p, hp, h⟩
        · exact Or.inr ⟨x, hx, h⟩

theorem encSubs_none (enc : κ → σ → Option Str) : ∀ (ks : List (Str × κ)) (vs : List (List σ)), none ∈ encSubs enc ks vs ↔
    ∃ x ∈ ks.zip vs, ∃ y ∈ x.2, enc x.1.2 y = none := by
  intro ks
  induction ks with
  | nil => intro vs; simp [encSubs]
  | cons k ks ih =>
    obtain ⟨n, k⟩ := k
    intro vs
    cases vs with
    | nil => simp [encSubs]
    | cons v vs =>
      simp only [encSubs, List.mem_append, ih, List.mem_map, List.zip_cons_cons, List.mem_cons]
      constructor
      · rintro (⟨p, hp, h⟩ | ⟨x, hx, h⟩)
        · exact ⟨((n, k), v), Or.inl rfl, p, hp, h⟩
        · exact ⟨x, Or.inr hx, h⟩
      · rintro ⟨x, rfl | hx, h⟩
        · exact Or.inl h
        · exact Or.inr ⟨x, hx, h⟩

theorem Tab.body_none (E : Env) (T : Tab κ) (enc : κ → σ → Option Str) (s : Sect σ) : none ∈ T.body E enc s ↔
    (∃ x ∈ sectProps T s, x.1.spec.encode E x.2 = none) ∨ ∃ x ∈ T.subs.zip s.subs, ∃ y ∈ x.2, enc x.1.2 y = none := by
  unfold Tab.body sectProps
  rw [List.mem_append, encFields_none, encSubs_none]

theorem Tab.encode_none (E : Env) (T : Tab κ) (enc : κ → σ → Option Str) (s : Sect σ) : T.encode E enc s = none ↔
    (∃ x ∈ sectProps T s, x.1.spec.encode E x.2 = none) ∨ ∃ x ∈ T.subs.zip s.subs, ∃ y ∈ x.2, enc x.1.2 y = none := by
  unfold Tab.encode
  rw [cat_none, ← Tab.body_none]
  simp

theorem subEncode_none (E : Env) (k : SubKind) (s : Sub) :
    subEncode E k s = none ↔ ∃ x ∈ subProps k s, x.1.spec.encode E x.2 = none := by
  have leaf : ∀ (T : Tab Empty) (s : Leaf), none ∈ T.body E noEnc s ↔ ∃ x ∈ sectProps T s, x.1.spec.encode E x.2 = none := by
    intro T s
    rw [Tab.body_none]
    constructor
    · rintro (h | ⟨_, _, y, _⟩)
      · exact h
      · exact nomatch y
    · exact Or.inl
  cases k with
  | leaf T =>
    cases s with
    | leaf s =>
      simp only [subEncode, subProps]
      rw [Tab.encode_none, ← Tab.body_none, leaf]
    | alarm a => simp [subEncode, subProps]
  | alarm =>
    cases s with
    | leaf s => simp [subEncode, subProps]
    | alarm a =>
      cases a with
      | none => simp [subEncode, alarmEncode, subProps]
      | some a =>
        simp only [subEncode, alarmEncode, subProps]
        rw [cat_none, ← leaf]
        simp

/-- Encoding stops unless that of one of the properties does not. -/
theorem encodeDoc_none (E : Env) (c : Cal) : encodeDoc E c = none ↔ ∃ x ∈ calProps c, x.1.spec.encode E x.2 = none := by
  unfold encodeDoc calProps
  rw [Tab.encode_none]
  simp only [Tab.encode_none, subEncode_none, List.mem_append, mem_below, compProps]
  constructor
  · rintro (⟨x, hx, h⟩ | ⟨k, hk, y, hy, ⟨x, hx, h⟩ | ⟨j, hj, z, hz, x, hx, h⟩⟩)
    · exact ⟨x, Or.inl hx, h⟩
    · exact ⟨x, Or.inr ⟨k, hk, y, hy, Or.inl hx⟩, h⟩
    · exact ⟨x, Or.inr ⟨k, hk, y, hy, Or.inr ⟨j, hj, z, hz, hx⟩⟩, h⟩
  · rintro ⟨x, hx | ⟨k, hk, y, hy, hx | ⟨j, hj, z, hz, hx⟩⟩, h⟩
    · exact Or.inl ⟨x, hx, h⟩
    · exact Or.inr ⟨k, hk, y, hy, Or.inl ⟨x, hx, h⟩⟩
    · exact Or.inr ⟨k, hk, y, hy, Or.inr ⟨j, hj, z, hz, x, hx, h⟩⟩

theorem commas_none (l : List (Option Str)) : commas l = none ↔ none ∈ l := by
  induction l with
  | nil => simp [commas]
  | cons x l ih =>
    cases l with
    | nil => simp [commas, eq_comm]
    | cons y l =>
      cases x with
      | none => simp [commas]
      | some a =>
        simp only [commas, Option.bind_eq_bind, Option.bind_some, List.mem_cons (b := some a), reduceCtorEq, false_or, ← ih]
        cases commas (y :: l) <;> simp

theorem encode6868_none (s : Str) : encode6868 s = none ↔ ∃ c ∈ s, c = '\n' ∨ c = '^' ∨ c = '"' := by
  constructor
  · intro h
    apply Classical.byContradiction
    intro hn
    have h0 : ∀ c ∈ s, isEsc6868 c = false := by
      intro c hc
      cases he : isEsc6868 c
      · rfl
      · exact absurd ⟨c, hc, (isEsc6868_iff c).1 he⟩ hn
    rw [encode6868_plain s h0] at h
    cases h
  · rintro ⟨c, hc, h⟩
    exact encode6868_esc s ⟨c, hc, (isEsc6868_iff c).2 h⟩

theorem PKind.encode_none (E : Env) (name : Str) (k : PKind) (v : ParamVal) (ht : k.typed v = true) :
    k.encode E name v = none ↔ ∃ s ∈ paramTexts v, ∃ c ∈ s, c = '\n' ∨ c = '^' ∨ c = '"' := by
  cases k <;> cases v <;> simp only [PKind.typed, Bool.false_eq_true] at ht <;> simp only [PKind.encode, paramTexts]
  all_goals try (simp; done)
  · split <;> simp
  · split
    · simp
    · rw [Option.map_eq_none_iff, commas_none]; simp
  · split
    · next h => subst h; simp
    · rw [Option.map_eq_none_iff, encode6868_none]; simp
  · split
    · next h => subst h; simp
    · rw [Option.map_eq_none_iff, encode6868_none]; simp
  · split
    · next h => subst h; simp
    · rw [Option.map_eq_none_iff, commas_none]
      simp only [List.mem_map, Option.map_eq_none_iff, encode6868_none]
  · split <;> simp

theorem encParams_none (E : Env) (n : Str) (vals : List (Str × Kind)) (vs : List (Option Val)) : ∀ (ds : List PDef) (ps : List (Option ParamVal)),
    none ∈ encParams E ds ps ↔ ∃ y ∈ propParams ⟨n, .fields ds vals⟩ (.fields ps vs), y.1.kind.encode E y.1.name y.2 = none := by
  intro ds
  induction ds with
  | nil => intro ps; simp [encParams, propParams]
  | cons d ds ih =>
    intro ps
    cases ps with
    | nil => simp [encParams, propParams]
    | cons p ps =>
      simp only [encParams, List.mem_cons, ih, propParams_cons]
      cases p with
      | none => simp
      | some v =>
        simp only [Option.some.injEq]
        constructor
        · rintro (h | ⟨y, hy, h⟩)
          · exact ⟨(d, v), Or.inl ⟨v, rfl, rfl⟩, h.symm⟩
          · exact ⟨y, Or.inr hy, h⟩
        · rintro ⟨y, ⟨w, rfl, rfl⟩ | hy, h⟩
          · exact Or.inl h.symm
          · exact Or.inr ⟨y, hy, h⟩

theorem PSpec.encode_none (E : Env) (sp : PSpec) (p : PropVal) :
    sp.encode E p = none ↔ ∃ y ∈ propParams sp p, y.1.kind.encode E y.1.name y.2 = none := by
  obtain ⟨n, sh⟩ := sp
  cases sh with
  | enum names => cases p <;> simp [PSpec.encode, propParams]
  | fields params vals =>
    cases p with
    | enum => simp [PSpec.encode, propParams]
    | fields ps vs =>
      simp only [PSpec.encode]
      rw [Option.map_eq_none_iff, cat_none, encParams_none E n vals vs]

end Ics
