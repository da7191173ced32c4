import Verif.SettledLemmas
import Verif.WholeLemmas
/-!
# Lemmas: when what is read of what was written passes validation
-/

namespace Ics
open Spec

variable {κ σ : Type}

/-! ## Components -/

theorem foundSect_mem {E : Env} {g : κ → σ → σ} {T : Tab κ} {s : Sect σ} {y : SField × PropVal} (h : y ∈ sectProps T s) (hk : y.1.key ≠ kLastMod) :
    (y.1, foundProp E y.1.spec y.2) ∈ sectProps T (foundSect E g T s) := by
  obtain ⟨i, e1, e2⟩ := mem_sectProps.1 h
  rw [List.getD_eq_getElem?_getD] at e2
  refine mem_sectProps.2 ⟨i, e1, ?_⟩
  cases hv : s.fields[i]? with
  | none => rw [hv] at e2; cases e2
  | some v =>
    rw [hv] at e2
    have hz : (T.fields.zip s.fields)[i]? = some (y.1, v) := List.getElem?_zip_eq_some.2 ⟨e1, hv⟩
    rw [List.getD_eq_getElem?_getD]
    simp only [foundSect, List.getElem?_map, hz, Option.map_some, Option.getD_some]
    rw [if_neg (show ¬ y.1.key = c!"LAST-MOD" from hk)]
    exact List.mem_map.2 ⟨_, e2, rfl⟩

theorem foundBelow_mem {E : Env} {g : κ → σ → σ} {T : Tab κ} {s : Sect σ} {ps : κ → σ → List (SField × PropVal)}
    (hg : ∀ k y, ∀ z ∈ ps k y, z.1.key ≠ kLastMod → (z.1, foundProp E z.1.spec z.2) ∈ ps k (g k y)) {y : SField × PropVal} (h : y ∈ below ps T s) (hk : y.1.key ≠ kLastMod) :
    (y.1, foundProp E y.1.spec y.2) ∈ below ps T (foundSect E g T s) := by
  obtain ⟨z, hz, w, hw, hx⟩ := mem_below.1 h
  obtain ⟨i, hi⟩ := List.getElem?_of_mem hz
  obtain ⟨e1, e2⟩ := List.getElem?_zip_eq_some.1 hi
  refine mem_below.2 ⟨(z.1, z.2.map (g z.1.2)), List.mem_of_getElem? (List.getElem?_zip_eq_some.2 ⟨e1, ?_⟩), g z.1.2 w, List.mem_map.2 ⟨w, hw, rfl⟩, hg _ _ _ hx hk⟩
  simp only [foundSect, List.getElem?_map, hi, Option.map_some]

/-- The properties that are found. -/
theorem foundCal_mem (E : Env) (c : Cal) (x : SField × PropVal) : x ∈ calProps (foundCal E c) ↔ ∃ y ∈ calProps c, y.1.key ≠ kLastMod ∧ x = (y.1, foundProp E y.1.spec y.2) := by
  refine ⟨mem_foundCal, ?_⟩
  rintro ⟨y, hy, hk, rfl⟩
  have sub : ∀ k w, ∀ z ∈ subProps k w, z.1.key ≠ kLastMod → (z.1, foundProp E z.1.spec z.2) ∈ subProps k (foundSub E k w) := by
    intro k w z hz hk
    cases k with
    | leaf T =>
      cases w with
      | leaf s => exact foundSect_mem hz hk
      | alarm a => cases hz
    | alarm =>
      cases w with
      | leaf s => cases hz
      | alarm o =>
        cases o with
        | none => cases hz
        | some o =>
          obtain ⟨a, s⟩ := o
          exact foundSect_mem (T := a.tab) hz hk
  rcases List.mem_append.1 hy with h | h
  · exact List.mem_append.2 (.inl (foundSect_mem h hk))
  · refine List.mem_append.2 (.inr (foundBelow_mem (ps := compProps) (fun T s z hz hk => ?_) h hk))
    rcases List.mem_append.1 hz with h | h
    · exact List.mem_append.2 (.inl (foundSect_mem h hk))
    · exact List.mem_append.2 (.inr (foundBelow_mem sub h hk))

theorem found_below {E : Env} {g : κ → σ → σ} {T : Tab κ} {s : Sect σ} {P : κ → σ → Prop} (hg : ∀ k y, P k y → P k (g k y)) (h : Below P T s) : Below P T (foundSect E g T s) := by
  intro z hz w hw
  obtain ⟨i, hi⟩ := List.getElem?_of_mem hz
  obtain ⟨e1, e2⟩ := List.getElem?_zip_eq_some.1 hi
  simp only [foundSect, List.getElem?_map] at e2
  cases hx : (T.subs.zip s.subs)[i]? with
  | none => rw [hx] at e2; cases e2
  | some x =>
    rw [hx] at e2
    obtain ⟨x1, x2⟩ := List.getElem?_zip_eq_some.1 hx
    rw [e1] at x1
    simp only [Option.map_some, Option.some.injEq] at x1 e2
    rw [← e2] at hw
    obtain ⟨y, hy, rfl⟩ := List.mem_map.1 hw
    rw [x1]
    exact hg _ _ (h x (List.mem_of_getElem? hx) y hy)

theorem foundCal_noNil {E : Env} {c : Cal} (h : NoNilAlarm c) : NoNilAlarm (foundCal E c) := by
  refine found_below (fun T s hs => found_below (fun k y hy => ?_) hs) h
  cases k with
  | leaf T => cases y <;> exact hy
  | alarm =>
    cases y with
    | leaf s => exact hy
    | alarm o =>
      cases o with
      | none => exact hy
      | some o => exact trivial

/-! ## Values -/

theorem val_stays {E : Env} {v : Val} (hv : v.valid = .ok ()) : (foundVal E v).valid = .ok () ↔ ValStays E v := by
  cases v with
  | binary | boolean | calAddress | duration | integer | uri | utcOffset => exact ⟨fun _ => trivial, fun _ => rfl⟩
  | text t => exact ⟨fun _ => trivial, fun _ => hv⟩
  | mtext ts =>
    refine ⟨fun _ => trivial, fun _ => ?_⟩
    simp only [foundVal, Val.valid]
    split
    · rfl
    · exact hv
  | date t => simp [foundVal, Val.valid, GoTime.valid, Res.guard, ValStays]
  | dateTime t => simp [foundVal, Val.valid, GoTime.valid, Res.guard, ValStays]
  | tfloat x =>
    simp only [foundVal, Val.valid, TFloat.valid, ValStays, Res.guard]
    cases floatSpecial (foundFloat E x.1) <;> cases floatSpecial (foundFloat E x.2) <;> simp
  | recur r =>
    refine ⟨fun _ => trivial, fun _ => ?_⟩
    have : ∀ r' : Recur, r'.valid = r.valid → r'.valid = .ok () := fun r' h => h.trans hv
    simp only [foundVal, Val.valid, foundRule]
    split <;> exact this _ rfl
  | period p =>
    simp only [foundVal, Val.valid, ValStays, foundPeriod] at hv ⊢
    cases hz : p.stop.isZero with
    | true =>
      rw [if_pos rfl]
      have hn : p.dur.neg = false := by
        unfold Period.valid at hv
        rw [hz] at hv
        cases hs : p.start.isZero <;> simp [hs, Res.guard] at hv
        exact hv
      have hn' : (foundDuration p.dur).neg = false := by
        unfold foundDuration
        split <;> exact hn
      have h0 : ({} : GoTime).isZero = true := rfl
      unfold Period.valid
      cases hs : (foundTime E 0 p.start).isZero <;> simp [h0, hn', Res.guard]
    | false =>
      rw [if_neg (by simp)]
      unfold Period.valid
      cases hs : (foundTime E 0 p.start).isZero <;> cases hq : (foundTime E 1 p.stop).isZero <;> simp [Res.guard]
      exact fun _ => Iff.rfl

theorem param_stays {E : Env} {k : PKind} {v w : ParamVal} (h : k.valid v = .ok ()) (hw : foundParam E k v = some w) : k.valid w = .ok () := by
  unfold foundParam at hw
  split at hw
  · cases hw
    cases k <;> cases v <;> first | exact h | rfl
  · cases hw

theorem found_params {E : Env} : ∀ (ds : List PDef) (ps : List (Option ParamVal)), validParams ds ps = .ok () →
    validParams ds (List.zipWith (fun d v => v.bind (foundParam E d.kind)) ds ps) = .ok () := by
  intro ds
  induction ds with
  | nil => intro ps _; cases ps <;> rfl
  | cons d ds ih =>
    intro ps h
    cases ps with
    | nil => rfl
    | cons p ps =>
      rw [List.zipWith_cons_cons]
      cases p with
      | none => exact ih ps h
      | some v =>
        have e : validParams (d :: ds) (some v :: ps) = (d.kind.valid v >>= fun _ => validParams ds ps) := rfl
        rw [e, unit_bind_ok] at h
        cases hw : foundParam E d.kind v with
        | none =>
          rw [show (some v).bind (foundParam E d.kind) = none from hw]
          exact ih ps h.2
        | some w =>
          rw [show (some v).bind (foundParam E d.kind) = some w from hw]
          show (d.kind.valid w >>= fun _ => validParams ds _) = _
          rw [unit_bind_ok]
          exact ⟨param_stays h.1 hw, ih ps h.2⟩

theorem prop_stays {E : Env} {sp : PSpec} {p : PropVal} (ht : sp.typed p = true) (hv : sp.valid p = .ok ()) :
    sp.valid (foundProp E sp p) = .ok () ↔ ∀ v ∈ propVals p, ValStays E v := by
  obtain ⟨n, sh⟩ := sp
  cases sh with
  | «enum» names =>
    cases p with
    | fields => simp [PSpec.typed] at ht
    | «enum» n => exact ⟨fun _ _ h => by simp [propVals] at h, fun _ => hv⟩
  | fields ds ks =>
    cases p with
    | «enum» => simp [PSpec.typed] at ht
    | fields ps vs =>
      have e : ∀ ps vs, PSpec.valid ⟨n, .fields ds ks⟩ (.fields ps vs) = .ok () ↔ validParams ds ps = .ok () ∧ validVals vs = .ok () ∧
          (if ks.length = 1 then .ok () else Res.guard .invalidValue ((vs.filter (·.isSome)).length = 1)) = .ok () := by
        intro ps vs
        show (validParams ds ps >>= fun _ => validVals vs >>= fun _ => _) = _ ↔ _
        rw [unit_bind_ok, unit_bind_ok]
      rw [e] at hv
      obtain ⟨h1, h2, h3⟩ := hv
      have hl : ((vs.map (·.map (foundVal E))).filter (·.isSome)).length = (vs.filter (·.isSome)).length := by
        rw [List.filter_map, List.length_map]
        congr 2
        funext x
        cases x <;> rfl
      show PSpec.valid ⟨n, .fields ds ks⟩ (.fields (List.zipWith (fun d v => v.bind (foundParam E d.kind)) ds ps) (vs.map (·.map (foundVal E)))) = _ ↔ _
      rw [e, hl, validVals_iff]
      rw [validVals_iff] at h2
      constructor
      · rintro ⟨_, a, _⟩ v hm
        have hm : some v ∈ vs := by simpa [propVals] using hm
        exact (val_stays (h2 v hm)).1 (a _ (List.mem_map.2 ⟨_, hm, rfl⟩))
      · intro a
        refine ⟨found_params ds ps h1, fun w hw => ?_, h3⟩
        obtain ⟨x, hx, e⟩ := List.mem_map.1 hw
        cases x with
        | none => cases e
        | some v =>
          cases e
          exact (val_stays (h2 v hx)).2 (a v (by simpa [propVals] using hx))

/-- C94: which calendars still pass validation once they were written and read. -/
theorem foundCal_valid {E : Env} {c : Cal} (ht : c.typed = true) (h : c.valid = .ok ()) : (foundCal E c).valid = .ok () ↔
    ∀ x ∈ calProps c, x.1.key ≠ c!"LAST-MOD" → ∀ v ∈ propVals x.2, ValStays E v := by
  obtain ⟨h1, h2⟩ := (Cal.valid_iff c).1 h
  rw [Cal.valid_iff]
  constructor
  · rintro ⟨a, _⟩ x hx hk
    exact (prop_stays (Cal.typed_props ht x hx) (h1 x hx)).1 (a _ ((foundCal_mem E c _).2 ⟨x, hx, hk, rfl⟩))
  · intro a
    refine ⟨fun x hx => ?_, foundCal_noNil h2⟩
    obtain ⟨y, hy, hk, rfl⟩ := (foundCal_mem E c x).1 hx
    exact (prop_stays (Cal.typed_props ht y hy) (h1 y hy)).2 (a y hy hk)

/-! ## Control characters -/

theorem foundLoc_name {E : Env} {q : Nat} {l : Loc} {n : Str} {p r : Nat} (h : foundLoc E q l = .zone n p r) : ∃ p' r', l = .zone n p' r' := by
  cases l with
  | utc => cases h
  | «local» => cases h
  | zone m p' r' =>
    unfold foundLoc at h
    dsimp only at h
    split at h
    · cases h
    · split at h
      · cases h
      · split at h <;> cases h <;> exact ⟨_, _, rfl⟩

theorem val_unbroken {E : Env} {v : Val} (h : UnbrokenVal E v) (hs : ValSettled E v) : UnbrokenVal E (foundVal E v) := by
  obtain ⟨h1, h2⟩ := h
  cases v with
  | calAddress u =>
    refine ⟨nofun, ?_⟩
    exact fun c hc => h2 c (by rw [← show E.urlString (foundUri E u) = E.urlString u from hs]; exact hc)
  | uri u =>
    refine ⟨nofun, ?_⟩
    exact fun c hc => h2 c (by rw [← show E.urlString (foundUri E u) = E.urlString u from hs]; exact hc)
  | tfloat x =>
    refine ⟨nofun, fun c hc => ?_⟩
    have hs : E.floatFormat (foundFloat E x.1) ++ ';' :: E.floatFormat (foundFloat E x.2) = E.floatFormat x.1 ++ ';' :: E.floatFormat x.2 := hs
    have hm : c ∈ E.floatFormat (foundFloat E x.1) ++ ';' :: E.floatFormat (foundFloat E x.2) := by
      rcases List.mem_append.1 hc with h | h
      · exact List.mem_append.2 (.inl h)
      · exact List.mem_append.2 (.inr (List.mem_cons_of_mem _ h))
    rw [hs] at hm
    rcases List.mem_append.1 hm with h | h
    · exact h2 c (List.mem_append.2 (.inl h))
    · rcases List.mem_cons.1 h with rfl | h
      · unfold NoCtl; decide
      · exact h2 c (List.mem_append.2 (.inr h))
  | dateTime t =>
    refine ⟨fun n p r e => ?_, trivial⟩
    obtain ⟨p', r', e⟩ := foundLoc_name e
    exact h1 n p' r' e
  | period t =>
    refine ⟨fun n p r e => ?_, trivial⟩
    have e : foundLoc E 0 t.start.loc = .zone n p r := by
      rw [← e]
      simp only [foundVal, valLoc, foundPeriod]
      split <;> rfl
    obtain ⟨p', r', e⟩ := foundLoc_name e
    exact h1 n p' r' e
  | recur r =>
    refine ⟨fun n p q e => ?_, trivial⟩
    simp only [foundVal, valLoc, foundRule] at e
    split at e
    · cases e
    · dsimp only at e
      split at e
      · obtain ⟨p', r', e⟩ := foundLoc_name e
        exact h1 n p' r' e
      · cases e
  | binary | boolean | date | duration | integer | mtext | text | utcOffset => exact ⟨nofun, trivial⟩

theorem found_propParams {E : Env} {sp : PSpec} {p : PropVal} {y : PDef × ParamVal} (h : y ∈ propParams sp (foundProp E sp p)) :
    ∃ v, (y.1, v) ∈ propParams sp p ∧ foundParam E y.1.kind v = some y.2 := by
  obtain ⟨n, sh⟩ := sp
  cases sh with
  | «enum» => simp [propParams] at h
  | fields ds ks =>
    cases p with
    | «enum» => simp [propParams, foundProp] at h
    | fields ps vs =>
      simp only [propParams, foundProp] at h ⊢
      induction ds generalizing ps with
      | nil => simp at h
      | cons d ds ih =>
        cases ps with
        | nil => simp at h
        | cons q ps =>
          rw [List.zipWith_cons_cons, List.zip_cons_cons, List.filterMap_cons] at h
          cases q with
          | none =>
            obtain ⟨v, h1, h2⟩ := ih ps h
            exact ⟨v, by simpa using h1, h2⟩
          | some w =>
            cases hw : foundParam E d.kind w with
            | none =>
              simp only [Option.bind_some, hw, Option.map_none] at h
              obtain ⟨v, h1, h2⟩ := ih ps h
              exact ⟨v, by simp only [List.zip_cons_cons, List.filterMap_cons, Option.map_some]; exact List.mem_cons_of_mem _ h1, h2⟩
            | some w' =>
              simp only [Option.bind_some, hw, Option.map_some] at h
              rcases List.mem_cons.1 h with rfl | h
              · exact ⟨w, by simp, hw⟩
              · obtain ⟨v, h1, h2⟩ := ih ps h
                exact ⟨v, by simp only [List.zip_cons_cons, List.filterMap_cons, Option.map_some]; exact List.mem_cons_of_mem _ h1, h2⟩

theorem found_propVals {E : Env} {sp : PSpec} {p : PropVal} {w : Val} (ht : sp.typed p = true) (h : w ∈ propVals (foundProp E sp p)) : ∃ v ∈ propVals p, w = foundVal E v := by
  obtain ⟨n, sh⟩ := sp
  cases sh with
  | «enum» =>
    cases p with
    | fields => simp [PSpec.typed] at ht
    | «enum» => simp [foundProp, propVals] at h
  | fields ds ks =>
    cases p with
    | «enum» => simp [PSpec.typed] at ht
    | fields ps vs =>
      have h : some w ∈ vs.map (·.map (foundVal E)) := by simpa [foundProp, propVals] using h
      obtain ⟨x, hx, e⟩ := List.mem_map.1 h
      cases x with
      | none => cases e
      | some v =>
        cases e
        exact ⟨v, by simpa [propVals] using hx, rfl⟩

theorem found_unbroken {E : Env} {c : Cal} (ht : c.typed = true) (h : Unbroken E c) (hs : ∀ x ∈ calProps c, ∀ v ∈ propVals x.2, ValSettled E v) : Unbroken E (foundCal E c) := by
  intro x hx
  obtain ⟨y, hy, _, rfl⟩ := (foundCal_mem E c x).1 hx
  obtain ⟨h1, h2⟩ := h y hy
  refine ⟨fun z hz => ?_, fun w hw => ?_⟩
  · obtain ⟨v, hv, e⟩ := found_propParams hz
    have := h1 _ hv
    unfold foundParam at e
    split at e
    · simp only [Option.some.injEq] at e
      rw [← e]
      dsimp only at this ⊢
      generalize z.1.kind = k at this ⊢
      cases k <;> cases v <;> first | exact this | trivial
    · cases e
  · obtain ⟨v, hv, rfl⟩ := found_propVals (Cal.typed_props ht y hy) hw
    exact val_unbroken (h2 v hv) (hs y hy v hv)

end Ics
