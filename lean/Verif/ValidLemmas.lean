import Verif.DecodedLemmas
import Verif.ReturnLemmas
import Verif.RecurRange
/-!
# Lemmas: what Decode returns has the types of the fields, and which of it passes validation
-/

namespace Ics

open Spec

variable {κ σ α β : Type}

/-! ## Characters -/

theorem NoCtl_not31 {c : Char} (h : NoCtl c) : isCtl31 c = false := by
  unfold NoCtl at h
  unfold Ics.isCtl31
  simp only [Bool.or_eq_false_iff, Bool.and_eq_false_iff, decide_eq_false_iff_not, beq_eq_false_iff_ne]
  omega

theorem decodeText_mem : ∀ (n : Nat) (s : Str), s.length ≤ n →
    (∀ c ∈ (decodeText s).1, c ∈ s ∨ c = '\n' ∨ c = '�') ∧ ∀ c ∈ (decodeText s).2, c ∈ s := by
  intro n
  induction n with
  | zero =>
    intro s h
    have : s = [] := List.length_eq_zero_iff.1 (by omega)
    subst this; simp [decodeText]
  | succ n ih =>
    intro s h
    rw [decodeText.eq_def]
    split
    · simp
    · simp
    · next c r =>
      obtain ⟨h1, h2⟩ := ih r (by simp at h; omega)
      dsimp only
      have a : ∀ d, d ∈ (decodeText r).1 → d ∈ '\\' :: c :: r ∨ d = '\n' ∨ d = '�' := by
        intro d hd
        rcases h1 d hd with h | h
        · exact Or.inl (by simp [h])
        · exact Or.inr h
      have b : ∀ d, d ∈ (decodeText r).2 → d ∈ '\\' :: c :: r := fun d hd => by simp [h2 d hd]
      split
      · exact ⟨fun d hd => (List.mem_cons.1 hd).elim (fun e => Or.inl (by simp [e])) (a d), b⟩
      split
      · next e => exact ⟨fun d hd => (List.mem_cons.1 hd).elim (fun e' => Or.inl (by simp [e', e])) (a d), b⟩
      split
      · next e => exact ⟨fun d hd => (List.mem_cons.1 hd).elim (fun e' => Or.inl (by simp [e', e])) (a d), b⟩
      split
      · exact ⟨fun d hd => (List.mem_cons.1 hd).elim (fun e => Or.inr (Or.inl e)) (a d), b⟩
      · refine ⟨fun d hd => ?_, b⟩
        rcases List.mem_cons.1 hd with e | hd
        · exact Or.inl (by simp [e])
        · exact (List.mem_cons.1 hd).elim (fun e => Or.inl (by simp [e])) (a d)
    · next c r _ _ =>
      obtain ⟨h1, h2⟩ := ih r (by simp at h; omega)
      split
      · simp
      · refine ⟨fun d hd => ?_, fun d hd => by simp [h2 d hd]⟩
        rcases List.mem_cons.1 hd with e | hd
        · exact Or.inl (by simp [e])
        · rcases h1 d hd with h | h
          · exact Or.inl (by simp [h])
          · exact Or.inr h

theorem decodeText_valid {s : Str} (h : ∀ c ∈ s, NoCtl c) : Text.valid (decodeText s).1 = .ok () := by
  rw [Text.valid_iff]
  intro c hc
  rcases (decodeText_mem _ s (Nat.le_refl _)).1 c hc with h1 | rfl | rfl
  · exact NoCtl_not31 (h c h1)
  · decide
  · decide

theorem Text.decode_valid {s t : Str} (h : ∀ c ∈ s, NoCtl c) (hd : Text.decode s = .ok t) : Text.valid t = .ok () := by
  have := decodeText_valid h
  unfold Text.decode at hd
  split at hd
  · next e => cases hd; rwa [e] at this
  · cases hd

theorem MText.decodeF_valid : ∀ (f : Nat) {s : Str} {ts : List Str}, (∀ c ∈ s, NoCtl c) → MText.decodeF f s = .ok ts → MText.valid ts = .ok () := by
  intro f
  induction f with
  | zero => intro s ts _ h; cases h
  | succ f ih =>
    intro s ts h hd
    have hv := decodeText_valid h
    have hm := (decodeText_mem _ s (Nat.le_refl _)).2
    rw [MText.decodeF] at hd
    split at hd
    · next e =>
      cases hd
      rw [e] at hv
      rw [MText.valid_iff]
      simpa using hv
    · next e =>
      obtain ⟨us, h1, h2⟩ := Res.bind_eq_ok.1 hd
      cases h2
      rw [e] at hv hm
      have := (MText.valid_iff us).1 (ih (fun c hc => h c (hm c (by simp [hc]))) h1)
      rw [MText.valid_iff]
      simpa using ⟨hv, this⟩
    · cases hd

theorem decode6868F_mem : ∀ (n : Nat) (p s : Str), ∀ c ∈ decode6868F n p s, c ∈ p ∨ c ∈ s ∨ c ∈ c!"\n\"^n'" := by
  intro n
  induction n with
  | zero => intro p s c h; simp [decode6868F] at h
  | succ n ih =>
    intro p s c h
    have hd : ∀ c ∈ s.dropWhile (· ≠ '^'), c ∈ s := fun c hc => (List.dropWhile_sublist _).subset hc
    rw [decode6868F, List.mem_append, List.mem_append] at h
    rcases h with (h | h) | h
    · exact Or.inl h
    · exact Or.inr (Or.inl ((List.takeWhile_sublist _).subset h))
    · right
      split at h
      · cases h
      · right; rw [List.mem_singleton.1 h]; decide
      · next e =>
        rcases List.mem_cons.1 h with rfl | h
        · right; decide
        · rcases ih _ _ c h with h | h | h
          · right; simp at h ⊢; grind
          · left; exact hd c (by rw [e]; simp [h])
          · exact Or.inr h
      · next e =>
        rcases List.mem_cons.1 h with rfl | h
        · right; decide
        · rcases ih _ _ c h with h | h | h
          · right; simp at h ⊢; grind
          · left; exact hd c (by rw [e]; simp [h])
          · exact Or.inr h
      · next e =>
        rcases List.mem_cons.1 h with rfl | h
        · right; decide
        · rcases ih _ _ c h with h | h | h
          · right; simp at h ⊢; grind
          · left; exact hd c (by rw [e]; simp [h])
          · exact Or.inr h
      · next d r _ _ _ e =>
        rcases List.mem_cons.1 h with rfl | h
        · right; decide
        rcases List.mem_cons.1 h with rfl | h
        · right; decide
        · rcases ih _ _ c h with h | h | h
          · rcases List.mem_cons.1 h with rfl | h
            · right; decide
            · left; exact hd c (by rw [e]; rw [List.mem_singleton.1 h]; simp)
          · left; exact hd c (by rw [e]; simp [h])
          · exact Or.inr h

theorem decode6868_ctl {s : Str} (h : ∀ c ∈ s, NoCtl c) : containsAny isCtl31 (decode6868 s) = false := by
  unfold containsAny
  rw [List.any_eq_false]
  intro c hc
  rcases decode6868F_mem _ _ s c hc with h1 | h1 | h1
  · cases h1
  · simp [NoCtl_not31 (h c h1)]
  · clear hc h; revert h1 c; decide

/-! ## Parameters -/

theorem mapRes_mem {f : α → Res β} : ∀ {l : List α} {r : List β}, mapRes f l = .ok r → ∀ b ∈ r, ∃ a ∈ l, f a = .ok b := by
  intro l
  induction l with
  | nil => intro r h; cases h; simp
  | cons a l ih =>
    intro r h
    unfold mapRes at h
    obtain ⟨b, h1, h2⟩ := Res.bind_eq_ok.1 h
    obtain ⟨bs, h3, h4⟩ := Res.bind_eq_ok.1 h2
    cases h4
    intro x hx
    rcases List.mem_cons.1 hx with rfl | hx
    · exact ⟨a, by simp, h1⟩
    · obtain ⟨y, hy, h⟩ := ih h3 x hx
      exact ⟨y, by simp [hy], h⟩

theorem oneVal_ok {vs : List PVal} {v : PVal} (h : oneVal vs = .ok v) : vs = [v] := by
  unfold oneVal at h
  split at h
  · cases h; rfl
  · cases h

theorem indexOf_lt {n : Str} : ∀ {l : List Str} {i : Nat}, indexOf n l = some i → i < l.length := by
  intro l
  induction l with
  | nil => intro i h; cases h
  | cons a l ih =>
    intro i h
    unfold indexOf at h
    split at h
    · cases h; simp
    · obtain ⟨j, hj, rfl⟩ := Option.map_eq_some_iff.1 h
      simp [ih hj]

theorem PKind.decode_valid {E : Env} {k : PKind} {vs : List PVal} {v : ParamVal} (hk : k.small = true)
    (hv : ∀ x ∈ vs, ∀ c ∈ x.data, NoCtl c) (h : k.decode E vs = .ok v) : k.typed v = true ∧ k.valid v = .ok () := by
  cases k with
  | url =>
    obtain ⟨x, _, h⟩ := Res.bind_eq_ok.1 h
    obtain ⟨_, _, h⟩ := Res.bind_eq_ok.1 h
    obtain ⟨u, _, h⟩ := Res.bind_eq_ok.1 h
    cases h
    exact ⟨rfl, rfl⟩
  | urls =>
    obtain ⟨x, _, h⟩ := Res.bind_eq_ok.1 h
    cases h
    exact ⟨rfl, rfl⟩
  | str q =>
    obtain ⟨x, h1, h⟩ := Res.bind_eq_ok.1 h
    have h : v = .str (decode6868 x.data) := by
      dsimp only at h
      split at h <;> (obtain ⟨_, _, h⟩ := Res.bind_eq_ok.1 h; cases h; rfl)
    subst h
    refine ⟨rfl, ?_⟩
    have := decode6868_ctl (hv x (by rw [oneVal_ok h1]; simp))
    simp [PKind.valid, validText, this, Res.guard]
  | fmt =>
    obtain ⟨x, h1, h⟩ := Res.bind_eq_ok.1 h
    obtain ⟨_, h2, h⟩ := Res.bind_eq_ok.1 h
    cases h
    refine ⟨rfl, ?_⟩
    unfold Res.guard at h2
    split at h2
    · next hm => simp [PKind.valid, hm, Res.guard]
    · cases h2
  | enum names =>
    obtain ⟨x, h1, h⟩ := Res.bind_eq_ok.1 h
    simp only [PKind.small, decide_eq_true_eq] at hk
    split at h
    · next n hn =>
      cases h
      have := indexOf_lt hn
      exact ⟨by simp only [PKind.typed, decide_eq_true_eq]; omega, rfl⟩
    · cases h
      exact ⟨rfl, rfl⟩
  | strs =>
    obtain ⟨ss, h1, h⟩ := Res.bind_eq_ok.1 h
    cases h
    refine ⟨rfl, ?_⟩
    simp only [PKind.valid]
    rw [checkAll_ok]
    intro s hs
    obtain ⟨x, hx, h2⟩ := mapRes_mem h1 s hs
    obtain ⟨_, _, h2⟩ := Res.bind_eq_ok.1 h2
    cases h2
    simp [decode6868_ctl (hv x hx)]
  | range =>
    obtain ⟨x, _, h⟩ := Res.bind_eq_ok.1 h
    obtain ⟨_, _, h⟩ := Res.bind_eq_ok.1 h
    cases h
    exact ⟨rfl, rfl⟩
  | bool =>
    obtain ⟨x, _, h⟩ := Res.bind_eq_ok.1 h
    obtain ⟨u, _, h⟩ := Res.bind_eq_ok.1 h
    cases h
    exact ⟨rfl, rfl⟩

/-! ## Properties -/

/-- Each parameter set has its type and is valid. -/
def ParamsGood (ds : List PDef) (ps : List (Option ParamVal)) : Prop :=
  ps.length = ds.length ∧ ∀ (i : Nat) (d : PDef) (v : ParamVal), ds[i]? = some d → ps[i]? = some (some v) →
    d.kind.typed v = true ∧ d.kind.valid v = .ok ()

theorem paramIdx_lt {n : Str} : ∀ {ds : List PDef} {i : Nat}, paramIdx n ds = some i → i < ds.length := by
  intro ds
  induction ds with
  | nil => intro i h; cases h
  | cons a l ih =>
    intro i h
    unfold paramIdx at h
    split at h
    · cases h; simp
    · obtain ⟨j, hj, rfl⟩ := Option.map_eq_some_iff.1 h
      simp [ih hj]

theorem PState.step_good {E : Env} {ds : List PDef} {vals : List (Str × Kind)} {st st' : PState} {p : Str × List PVal}
    (hs : ∀ d ∈ ds, d.kind.small = true) (hv : ∀ x ∈ p.2, ∀ c ∈ x.data, NoCtl c) (hg : ParamsGood ds st.ps) (ht : ∀ i ∈ st.vtype, i < vals.length)
    (h : st.step E ds vals p = .ok st') : ParamsGood ds st'.ps ∧ ∀ i ∈ st'.vtype, i < vals.length := by
  unfold PState.step at h
  dsimp only at h
  split at h
  · next i hi =>
    split at h
    · cases h
    · obtain ⟨v, h1, h2⟩ := Res.bind_eq_ok.1 h
      cases h2
      have hlt := paramIdx_lt hi
      refine ⟨⟨by simp [hg.1], fun j d w hd hw => ?_⟩, ht⟩
      simp only at hw
      rw [List.getElem?_set] at hw
      split at hw
      · next hij =>
        subst hij
        split at hw
        · cases hw
          have : ds.getD i ⟨[], .range⟩ = d := by rw [List.getD_eq_getElem?_getD, hd]; rfl
          rw [this] at h1
          exact PKind.decode_valid (hs d (List.mem_of_getElem? hd)) hv h1
        · cases hw
      · exact hg.2 j d w hd hw
  · split at h
    · split at h
      · split at h
        · cases h
        · split at h
          · next i hi =>
            cases h
            refine ⟨hg, fun j hj => ?_⟩
            simp only [Option.mem_def, Option.some.injEq] at hj
            subst hj
            simpa using indexOf_lt hi
          · cases h
      · cases h
    · cases h
      exact ⟨hg, ht⟩

theorem PState.steps_good {E : Env} {ds : List PDef} {vals : List (Str × Kind)} (hs : ∀ d ∈ ds, d.kind.small = true) :
    ∀ {ps : List (Str × List PVal)} {st st' : PState}, (∀ p ∈ ps, ∀ x ∈ p.2, ∀ c ∈ x.data, NoCtl c) → ParamsGood ds st.ps →
    (∀ i ∈ st.vtype, i < vals.length) → PState.steps E ds vals st ps = .ok st' → ParamsGood ds st'.ps ∧ ∀ i ∈ st'.vtype, i < vals.length := by
  intro ps
  induction ps with
  | nil => intro st st' _ hg ht h; cases h; exact ⟨hg, ht⟩
  | cons p ps ih =>
    intro st st' hv hg ht h
    obtain ⟨st1, h1, h2⟩ := Res.bind_eq_ok.1 h
    obtain ⟨a, b⟩ := PState.step_good hs (hv p (by simp)) hg ht h1
    exact ih (fun q hq => hv q (by simp [hq])) a b h2

theorem ParamsGood.typed : ∀ {ds : List PDef} {ps : List (Option ParamVal)}, ParamsGood ds ps → typedParams ds ps = true ∧ validParams ds ps = .ok () := by
  intro ds
  induction ds with
  | nil =>
    intro ps h
    have : ps = [] := List.length_eq_zero_iff.1 h.1
    subst this
    exact ⟨rfl, rfl⟩
  | cons d ds ih =>
    intro ps h
    cases ps with
    | nil => simp [ParamsGood] at h
    | cons p ps =>
      obtain ⟨a, b⟩ := ih (ps := ps) ⟨by simpa using h.1, fun i e v he hv => h.2 (i + 1) e v (by simpa using he) (by simpa using hv)⟩
      cases p with
      | none =>
        refine ⟨by simp [typedParams, a], ?_⟩
        rw [validParams, unit_bind_ok]
        exact ⟨rfl, b⟩
      | some v =>
        obtain ⟨c, e⟩ := h.2 0 d v rfl rfl
        refine ⟨by simp [typedParams, a, c], ?_⟩
        rw [validParams, unit_bind_ok]
        exact ⟨e, b⟩

theorem oneOf_cons (k i : Nat) (v : Val) : oneOf (k + 1) (i + 1) v = none :: oneOf k i v := rfl
theorem oneOf_zero (k : Nat) (v : Val) : oneOf (k + 1) 0 v = some v :: List.replicate k none := rfl

theorem validVals_none (k : Nat) : validVals (List.replicate k none) = .ok () := by
  induction k with
  | zero => rfl
  | succ k ih =>
    rw [List.replicate_succ, validVals, unit_bind_ok]
    exact ⟨rfl, ih⟩

theorem typedVals_none : ∀ vals : List (Str × Kind), typedVals vals (List.replicate vals.length none) = true := by
  intro vals
  induction vals with
  | nil => rfl
  | cons x vals ih => simp [List.replicate_succ, typedVals, ih]

theorem oneOf_facts (v : Val) : ∀ (vals : List (Str × Kind)) (i : Nat), i < vals.length → v.kind = (vals.getD i ([], .text)).2 →
    typedVals vals (oneOf vals.length i v) = true ∧ (validVals (oneOf vals.length i v) = .ok () ↔ v.valid = .ok ()) ∧
    ((oneOf vals.length i v).filter (·.isSome)).length = 1 ∧ (oneOf vals.length i v).filterMap id = [v] := by
  intro vals
  induction vals with
  | nil => intro i h; simp at h
  | cons x vals ih =>
    intro i h hk
    cases i with
    | zero =>
      rw [List.length_cons, oneOf_zero]
      refine ⟨?_, ?_, by simp, by simp⟩
      · simp only [typedVals, typedVals_none, Bool.and_true, Option.all_some, beq_iff_eq]
        simpa using hk
      · rw [validVals, unit_bind_ok]
        exact ⟨fun h => h.1, fun h => ⟨h, validVals_none _⟩⟩
    | succ i =>
      obtain ⟨a, b, c, d⟩ := ih i (by simpa using h) (by simpa using hk)
      rw [List.length_cons, oneOf_cons]
      refine ⟨by simp [typedVals, a], ?_, by simpa using c, by simpa using d⟩
      rw [validVals, unit_bind_ok]
      exact ⟨fun h => b.1 h.2, fun h => ⟨rfl, b.2 h⟩⟩

/-- A decoded property has the Go type, and is valid if its value is. -/
theorem PSpec.decode_good {E : Env} {sp : PSpec} {l : Line} {p : PropVal} (hw : sp.wf = true) (hs : sp.small = true) (hl : LineOk l)
    (h : sp.decode E l.params l.value = .ok p) : sp.typed p = true ∧ (sp.valid p = .ok () ↔ ∀ v ∈ propVals p, v.valid = .ok ()) ∧
      ∀ v ∈ propVals p, ∃ op k, Val.decode E op k l.value = .ok v := by
  obtain ⟨n, sh⟩ := sp
  cases sh with
  | enum names =>
    simp only [PSpec.decode] at h
    split at h
    · next i hi =>
      cases h
      have := indexOf_lt hi
      simp only [PSpec.small, decide_eq_true_eq] at hs
      refine ⟨by simp only [PSpec.typed, decide_eq_true_eq]; omega, ?_, by simp [propVals]⟩
      simp [PSpec.valid, propVals, Res.guard, this]
    · cases h
  | fields params vals =>
    obtain ⟨st, h1, h⟩ := Res.bind_eq_ok.1 h
    obtain ⟨v, h2, h⟩ := Res.bind_eq_ok.1 h
    cases h
    simp only [PSpec.small, List.all_eq_true] at hs
    have hne : 0 < vals.length := by
      simp only [PSpec.wf, Bool.and_eq_true, Bool.not_eq_true'] at hw
      have := hw.2.1.1.2
      cases vals with
      | nil => simp at this
      | cons => simp
    obtain ⟨g1, g2⟩ := PState.steps_good hs (fun q hq x hx c hc => (hl.pvals q hq x hx c hc).1)
      ⟨by simp, fun i d v hd hv => by simp at hv⟩ (by simp) h1
    have hi : st.vtype.getD 0 < vals.length := by
      cases hvt : st.vtype with
      | none => exact hne
      | some i => exact g2 i (by rw [hvt]; rfl)
    obtain ⟨t1, t2⟩ := g1.typed
    obtain ⟨o1, o2, o3, o4⟩ := oneOf_facts v vals (st.vtype.getD 0) hi (Val.decode_kind h2)
    refine ⟨?_, ?_, ?_⟩
    · simp only [PSpec.typed, t1, o1, Bool.true_and, Bool.or_eq_true, bne_iff_ne, ne_eq]
      by_cases hl : vals.length = 1
      · right
        have : st.vtype.getD 0 = 0 := by omega
        rw [this, hl]
        simp [oneOf]
      · exact Or.inl hl
    · simp only [PSpec.valid, propVals, o4]
      rw [unit_bind_ok, unit_bind_ok, o2]
      simp only [t2, true_and, List.mem_singleton, forall_eq]
      constructor
      · exact fun h => h.1
      · refine fun h => ⟨h, ?_⟩
        split
        · rfl
        · simp [o3, Res.guard]
    · simp only [propVals, o4, List.mem_singleton, forall_eq]
      exact ⟨_, _, h2⟩

/-! ## Sections -/

theorem SectAll.props {P : SField → PropVal → Prop} {Q : κ → σ → Prop} {T : Tab κ} {s : Sect σ} (h : SectAll P Q T s) :
    ∀ x ∈ sectProps T s, P x.1 x.2 := by
  intro x hx
  obtain ⟨⟨f, vs⟩, h1, h2⟩ := List.mem_flatMap.1 hx
  obtain ⟨p, hp, rfl⟩ := List.mem_map.1 h2
  obtain ⟨i, hi, he⟩ := List.mem_iff_getElem.1 h1
  rw [List.getElem_zip] at he
  injection he with e1 e2
  have hi1 : i < T.fields.length := by simp at hi; omega
  have hi2 : i < s.fields.length := by simp at hi; omega
  refine h.field i f (by rw [List.getElem?_eq_getElem hi1, e1]) p ?_
  rw [List.getD_eq_getElem?_getD, List.getElem?_eq_getElem hi2, e2]
  exact hp

theorem SectAll.below {P : SField → PropVal → Prop} {Q : κ → σ → Prop} {T : Tab κ} {s : Sect σ} (h : SectAll P Q T s) : Below Q T s := by
  rintro ⟨x, ys⟩ hx y hy
  obtain ⟨i, hi, he⟩ := List.mem_iff_getElem.1 hx
  rw [List.getElem_zip] at he
  injection he with e1 e2
  have hi1 : i < T.subs.length := by simp at hi; omega
  have hi2 : i < s.subs.length := by simp at hi; omega
  refine h.sub i x (by rw [List.getElem?_eq_getElem hi1, e1]) y ?_
  rw [List.getD_eq_getElem?_getD, List.getElem?_eq_getElem hi2, e2]
  exact hy

theorem CalAll.props {P : SField → PropVal → Prop} {c : Cal} (h : CalAll P c) : ∀ x ∈ calProps c, P x.1 x.2 := by
  intro x hx
  rcases List.mem_append.1 hx with hx | hx
  · exact h.1.props x hx
  · obtain ⟨y, hy, s, hs, hx⟩ := mem_below.1 hx
    have hc := h.1.below y hy s hs
    rcases List.mem_append.1 hx with hx | hx
    · exact hc.1.props x hx
    · obtain ⟨z, hz, t, ht, hx⟩ := mem_below.1 hx
      have hd := hc.1.below z hz t ht
      obtain ⟨⟨n, k⟩, zs⟩ := z
      cases k with
      | leaf T =>
        cases t with
        | leaf t => exact hd.1.props x hx
        | alarm => cases hd
      | alarm =>
        cases t with
        | leaf => cases hd
        | alarm o =>
          cases o with
          | none => cases hd
          | some o => exact hd.1.props x hx

/-- Validation looks at the properties only, where there is no nil alarm. -/
theorem CalAll.valid_iff {P : SField → PropVal → Prop} {c : Cal} (h : CalAll P c) :
    c.valid = .ok () ↔ ∀ x ∈ calProps c, x.1.spec.valid x.2 = .ok () := by
  unfold Cal.valid
  rw [Tab.valid_iff]
  have key : ∀ y ∈ tabCalendar.subs.zip c.subs, ∀ s ∈ y.2, (y.1.2.valid subValid s = .ok () ↔ ∀ x ∈ compProps y.1.2 s, x.1.spec.valid x.2 = .ok ()) := by
    intro y hy s hs
    have hc := h.1.below y hy s hs
    rw [Tab.valid_iff]
    have key2 : ∀ z ∈ y.1.2.subs.zip s.subs, ∀ t ∈ z.2, (subValid z.1.2 t = .ok () ↔ ∀ x ∈ subProps z.1.2 t, x.1.spec.valid x.2 = .ok ()) := by
      intro z hz t ht
      have hd := hc.1.below z hz t ht
      obtain ⟨⟨n, k⟩, zs⟩ := z
      cases k with
      | leaf T =>
        cases t with
        | leaf t =>
          simp only [subValid, subProps]
          rw [Tab.valid_iff]
          exact ⟨fun h => h.1, fun h => ⟨h, fun x => nomatch x.1.2⟩⟩
        | alarm => cases hd
      | alarm =>
        cases t with
        | leaf => cases hd
        | alarm o =>
          cases o with
          | none => cases hd
          | some o =>
            simp only [subValid, subProps]
            rw [Tab.valid_iff]
            exact ⟨fun h => h.1, fun h => ⟨h, fun x => nomatch x.1.2⟩⟩
    constructor
    · rintro ⟨h1, h2⟩ x hx
      rcases List.mem_append.1 hx with hx | hx
      · exact h1 x hx
      · obtain ⟨z, hz, t, ht, hx⟩ := mem_below.1 hx
        exact (key2 z hz t ht).1 (h2 z hz t ht) x hx
    · intro h
      refine ⟨fun x hx => h x (List.mem_append_left _ hx), fun z hz t ht => (key2 z hz t ht).2 fun x hx => h x ?_⟩
      exact List.mem_append_right _ (mem_below.2 ⟨z, hz, t, ht, hx⟩)
  constructor
  · rintro ⟨h1, h2⟩ x hx
    rcases List.mem_append.1 hx with hx | hx
    · exact h1 x hx
    · obtain ⟨z, hz, t, ht, hx⟩ := mem_below.1 hx
      exact (key z hz t ht).1 (h2 z hz t ht) x hx
  · intro h
    refine ⟨fun x hx => h x (List.mem_append_left _ hx), fun z hz t ht => (key z hz t ht).2 fun x hx => h x ?_⟩
    exact List.mem_append_right _ (mem_below.2 ⟨z, hz, t, ht, hx⟩)

theorem typedFields_of : ∀ {fs : List SField} {vs : List (List PropVal)}, vs.length = fs.length →
    (∀ (i : Nat) (f : SField), fs[i]? = some f → (∀ p ∈ vs.getD i [], f.spec.typed p = true) ∧ CountOk f.mult (vs.getD i []).length) →
    typedFields fs vs = true := by
  intro fs
  induction fs with
  | nil =>
    intro vs h _
    have : vs = [] := List.length_eq_zero_iff.1 h
    subst this
    rfl
  | cons f fs ih =>
    intro vs hl h
    cases vs with
    | nil => simp at hl
    | cons v vs =>
      obtain ⟨h1, h2⟩ := h 0 f rfl
      have h3 := ih (vs := vs) (by simpa using hl) fun i g hg => h (i + 1) g (by simpa using hg)
      simp only [List.getD_cons_zero] at h1 h2
      simp only [typedFields, h3, Bool.and_true, Bool.and_eq_true, List.all_eq_true]
      refine ⟨h1, ?_⟩
      unfold CountOk at h2
      cases hm : f.mult <;> rw [hm] at h2 <;> simp_all

theorem typedSubs_of {typ : κ → σ → Bool} : ∀ {ks : List (Str × κ)} {vs : List (List σ)}, vs.length = ks.length →
    (∀ (i : Nat) (x : Str × κ), ks[i]? = some x → ∀ y ∈ vs.getD i [], typ x.2 y = true) → typedSubs typ ks vs = true := by
  intro ks
  induction ks with
  | nil =>
    intro vs h _
    have : vs = [] := List.length_eq_zero_iff.1 h
    subst this
    rfl
  | cons k ks ih =>
    intro vs hl h
    obtain ⟨n, k⟩ := k
    cases vs with
    | nil => simp at hl
    | cons v vs =>
      have h1 := h 0 (n, k) rfl
      have h3 := ih (vs := vs) (by simpa using hl) fun i g hg => h (i + 1) g (by simpa using hg)
      simp only [typedSubs, h3, Bool.and_true, List.all_eq_true]
      exact h1

theorem SectAll.typed {P : SField → PropVal → Prop} {Q : κ → σ → Prop} {typ : κ → σ → Bool} {T : Tab κ} {s : Sect σ} (h : SectAll P Q T s)
    (hc : Counted T s) (hP : ∀ f p, P f p → f.spec.typed p = true) (hQ : ∀ x ∈ T.subs, ∀ y, Q x.2 y → typ x.2 y = true) : T.typed typ s = true := by
  unfold Tab.typed
  rw [Bool.and_eq_true]
  exact ⟨typedFields_of h.lenF fun i f hf => ⟨fun p hp => hP f p (h.field i f hf p hp), hc i f hf⟩,
    typedSubs_of h.lenS fun i x hx y hy => hQ x (List.mem_of_getElem? hx) y (h.sub i x hx y hy)⟩

theorem CalAll.typed {P : SField → PropVal → Prop} {c : Cal} (h : CalAll P c) (hP : ∀ f p, P f p → f.spec.typed p = true) : c.typed = true := by
  refine h.1.typed h.2.1 hP fun x _ s hs => ?_
  refine hs.1.typed hs.2.1 hP ?_
  rintro ⟨n, k⟩ _ t ht
  cases k with
  | leaf T =>
    cases t with
    | leaf t => exact ht.1.typed ht.2.1 hP fun x => nomatch x.2
    | alarm => cases ht
  | alarm =>
    cases t with
    | leaf => cases ht
    | alarm o =>
      cases o with
      | none => cases ht
      | some o => exact ht.1.typed ht.2.1 hP fun x => nomatch x.2

end Ics
