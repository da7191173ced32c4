import Verif.Spec.Refused
import Verif.FineLemmas
import Verif.WholeLemmas
import Verif.ErrorLemmas
/-!
# Lemmas: which error Encode returns for a calendar that it refuses
-/

namespace Ics

open Spec Props

/-- One check after the other. -/
def inTurn : List (Res Unit) → Res Unit
  | [] => .ok ()
  | x :: xs => do
    x
    inTurn xs

theorem inTurn_append (a b : List (Res Unit)) : inTurn (a ++ b) = (inTurn a >>= fun _ => inTurn b) := by
  induction a with
  | nil => rfl
  | cons x a ih =>
    rw [List.cons_append, inTurn, inTurn, ih]
    cases x <;> rfl

theorem inTurn_flatMap {α : Type} (f : α → List (Res Unit)) (l : List α) : inTurn (l.flatMap f) = inTurn (l.map fun x => inTurn (f x)) := by
  induction l with
  | nil => rfl
  | cons x l ih => rw [List.flatMap_cons, inTurn_append, ih, List.map_cons, inTurn]

theorem checks_inTurn {α : Type} (f : α → Res Unit) (l : List α) : checks f l = inTurn (l.map f) := by
  induction l with
  | nil => rfl
  | cons x l ih => rw [checks, List.map_cons, inTurn, ih]

theorem inTurn_err {l : List (Res Unit)} {e : Err} : inTurn l = .err e ↔ First (fun x => x = .ok ()) (fun x e => x = .err e) l e := by
  induction l with
  | nil =>
    constructor
    · intro h; cases h
    · rintro ⟨a, x, b, h, _⟩; cases a <;> cases h
  | cons x l ih =>
    rw [inTurn, Res.bind_eq_err, ih]
    constructor
    · rintro (h | ⟨_, h, a, y, b, rfl, h1, h2⟩)
      · exact ⟨[], x, l, rfl, by simp, h⟩
      · refine ⟨x :: a, y, b, rfl, ?_, h2⟩
        intro z hz
        rcases List.mem_cons.1 hz with rfl | hz
        · exact h
        · exact h1 z hz
    · rintro ⟨a, y, b, h, h1, h2⟩
      cases a with
      | nil => injection h with h3 h4; subst h3; exact .inl h2
      | cons z a =>
        injection h with h3 h4
        subst h3
        exact .inr ⟨(), h1 _ (by simp), a, y, b, h4, fun w hw => h1 w (by simp [hw]), h2⟩

/-- The first of a list that is not fine. -/
theorem inTurn_map_err {α : Type} {f : α → Res Unit} {l : List α} {e : Err} {Fine : α → Prop} {Wrong : α → Err → Prop} (h1 : ∀ x ∈ l, f x = .ok () ↔ Fine x)
    (h2 : ∀ x ∈ l, ∀ e, f x = .err e ↔ Wrong x e) : inTurn (l.map f) = .err e ↔ First Fine Wrong l e := by
  rw [inTurn_err]
  constructor
  · rintro ⟨a, x, b, h, g1, g2⟩
    obtain ⟨a', r, hl, rfl, hr⟩ := List.map_eq_append_iff.1 h
    obtain ⟨y, b', hr2, rfl, rfl⟩ := List.map_eq_cons_iff.1 hr
    subst hr2
    subst hl
    refine ⟨a', y, b', rfl, fun z hz => (h1 z (by simp [hz])).1 (g1 _ (List.mem_map_of_mem hz)), (h2 y (by simp) e).1 g2⟩
  · rintro ⟨a, x, b, rfl, g1, g2⟩
    refine ⟨a.map f, f x, b.map f, by simp, ?_, (h2 x (by simp) e).2 g2⟩
    intro z hz
    obtain ⟨w, hw, rfl⟩ := List.mem_map.1 hz
    exact (h1 w (by simp [hw])).2 (g1 w hw)

theorem guard_refuse {e e' : Err} {b : Bool} : Res.guard e b = .err e' ↔ b = false ∧ e' = e := by
  cases b <;> simp [Res.guard, eq_comm]

theorem checkAll_refuse {α : Type} {e e' : Err} {p : α → Bool} {l : List α} {P : α → Prop} (h : ∀ x, p x = true ↔ P x) : (checkAll e p l = .err e' ↔ (¬ ∀ x ∈ l, P x) ∧ e' = e) := by
  unfold checkAll
  rw [guard_refuse, ← Bool.not_eq_true, List.all_eq_true]
  simp only [h]

theorem rule_refused (r : Recur) (e : Err) : r.valid = .err e ↔ ValRefused (.recur r) e := by
  let R : List (Res Unit) := [Res.guard .invalidRecurFrequency (r.freq ≤ 6),
    checkAll .invalidRecurBySecond (fun x : Nat => !(x > 60)) r.bySecond,
    checkAll .invalidRecurByMinute (fun x : Nat => !(x > 59)) r.byMinute,
    checkAll .invalidRecurByHour (fun x : Nat => !(x > 23)) r.byHour,
    checkAll .invalidRecurByDay (fun x : DayRecur => 1 ≤ x.day && x.day ≤ 7) r.byDay,
    checkAll .invalidRecurByMonthDay (inBound 31) r.byMonthDay,
    checkAll .invalidRecurByYearDay (inBound 366) r.byYearDay,
    checkAll .invalidRecurByWeekNum (inBound 53) r.byWeekNum,
    checkAll .invalidRecurByMonth (fun x : Nat => !(x == 0 || x > 12)) r.byMonth,
    checkAll .invalidRecurBySetPos (inBound 366) r.bySetPos,
    Res.guard .invalidRecurWeekStart (r.weekStart ≤ 7)]
  have fin : ∀ x : Res Unit, (x >>= fun _ => Res.ok ()) = x := by intro x; cases x <;> rfl
  have h1 : r.valid = inTurn R := by
    simp only [R, inTurn, fin]
    rfl
  let Q : List (Res Unit × (Err × Prop)) := R.zip (ruleChecks r)
  have h2 : R = Q.map (·.1) := rfl
  have h3 : ruleChecks r = Q.map (·.2) := rfl
  have h4 : ∀ x ∈ Q, (x.1 = .ok () ↔ x.2.2) ∧ ∀ e, x.1 = .err e ↔ ¬ x.2.2 ∧ e = x.2.1 := by
    have g : ∀ {e0 : Err} {b : Bool} {P : Prop}, (b = true ↔ P) → (Res.guard e0 b = .ok () ↔ P) ∧ ∀ e, Res.guard e0 b = .err e ↔ ¬ P ∧ e = e0 := by
      intro e0 b P h
      exact ⟨by rw [Res.guard_eq_ok, h], fun e => by rw [guard_refuse, ← h, Bool.not_eq_true]⟩
    have c : ∀ {α : Type} {e0 : Err} {p : α → Bool} {l : List α} {P : α → Prop}, (∀ x, p x = true ↔ P x) →
        (checkAll e0 p l = .ok () ↔ ∀ x ∈ l, P x) ∧ ∀ e, checkAll e0 p l = .err e ↔ (¬ ∀ x ∈ l, P x) ∧ e = e0 := by
      intro α e0 p l P h
      exact ⟨by rw [checkAll_ok]; simp only [h], fun e => checkAll_refuse h⟩
    have nat : ∀ (b x : Nat), (!decide (x > b)) = true ↔ x ≤ b := by intro b x; simp
    intro x hx
    simp only [Q, R, ruleChecks, List.zip_cons_cons, List.zip_nil_right, List.mem_cons, List.not_mem_nil, or_false] at hx
    rcases hx with rfl | rfl | rfl | rfl | rfl | rfl | rfl | rfl | rfl | rfl | rfl
    · exact g (by simp)
    · exact c (nat 60)
    · exact c (nat 59)
    · exact c (nat 23)
    · exact c (by simp)
    · exact c (inBound_iff 31)
    · exact c (inBound_iff 366)
    · exact c (inBound_iff 53)
    · exact c (by intro x; simp; omega)
    · exact c (inBound_iff 366)
    · exact g (by simp)
  rw [h1, h2, inTurn_map_err (Fine := fun x => x.2.2) (Wrong := fun x e => ¬ x.2.2 ∧ e = x.2.1) (fun x hx => (h4 x hx).1) (fun x hx => (h4 x hx).2)]
  unfold ValRefused
  dsimp only
  rw [h3]
  constructor
  · rintro ⟨a, x, b, h, g1, g2⟩
    refine ⟨a.map (·.2), x.2, b.map (·.2), by rw [h]; simp, ?_, g2⟩
    intro y hy
    obtain ⟨z, hz, rfl⟩ := List.mem_map.1 hy
    exact g1 z hz
  · rintro ⟨a, x, b, h, g1, g2⟩
    obtain ⟨a', t, hl, rfl, hr⟩ := List.map_eq_append_iff.1 h
    obtain ⟨y, b', hr2, rfl, rfl⟩ := List.map_eq_cons_iff.1 hr
    subst hr2
    exact ⟨a', y, b', hl, fun z hz => g1 _ (List.mem_map_of_mem hz), g2⟩

/-- Where there is one error only. -/
theorem refuse_single {x : Res Unit} {e0 e : Err} {P : Prop} (hp : x ≠ .panic) (ho : x = .ok () ↔ P) (he : ∀ e, x = .err e → e = e0) : x = .err e ↔ e = e0 ∧ ¬ P := by
  constructor
  · intro h
    refine ⟨he e h, fun hP => ?_⟩
    rw [ho.2 hP] at h
    cases h
  · rintro ⟨rfl, hn⟩
    cases x with
    | ok u => exact absurd (ho.1 rfl) hn
    | err e' => rw [he e' rfl]
    | panic => exact absurd rfl hp

theorem Text.valid_only (t : Str) : ∀ e, Text.valid t = .err e → e = .invalidText := by
  intro e h
  unfold Text.valid at h
  exact (guard_refuse.1 h).2

theorem MText.valid_only : ∀ (ts : List Str) (e : Err), MText.valid ts = .err e → e = .invalidText := by
  intro ts
  induction ts with
  | nil => intro e h; cases h
  | cons t ts ih =>
    intro e h
    rw [MText.valid] at h
    rcases Res.bind_eq_err.1 h with h | ⟨_, _, h⟩
    · exact Text.valid_only t e h
    · exact ih e h

theorem val_refused (v : Val) (e : Err) : v.valid = .err e ↔ ValRefused v e := by
  have hp := Val.valid_ne_panic v
  have hf := val_fine_iff v
  have one : ∀ {e0 : Err}, (∀ e, v.valid = .err e → e = e0) → (v.valid = .err e ↔ e = e0 ∧ ¬ ValFine v) := fun h => refuse_single hp hf h
  have none : v.valid = .ok () → ¬ ValRefused v e → (v.valid = .err e ↔ ValRefused v e) := by
    intro h h'
    rw [h]
    exact ⟨fun h => (by cases h), fun h => absurd h h'⟩
  cases v with
  | date t =>
    rw [one (e0 := .invalidTime) fun e h => (guard_refuse.1 h).2]
    simp [ValFine, Accepted, ValRefused]
  | dateTime t =>
    rw [one (e0 := .invalidTime) fun e h => (guard_refuse.1 h).2]
    simp [ValFine, Accepted, ValRefused]
  | text t =>
    rw [one (Text.valid_only t)]
    simp [ValFine, ValRefused]
  | mtext ts =>
    rw [one (MText.valid_only ts)]
    simp [ValFine, ValRefused]
  | period p =>
    show p.valid = _ ↔ _
    unfold Period.valid ValRefused
    dsimp only
    rw [← zero_iff, ← zero_iff, ← after_iff]
    have flip : ∀ {a b : Err}, (Res.err a : Res Unit) = .err b ↔ b = a := fun {a b} => ⟨fun h => by cases h; rfl, fun h => by rw [h]⟩
    cases h1 : p.start.isZero <;> cases h2 : p.stop.isZero <;> simp [guard_refuse, flip]
    · grind
    · grind
  | recur r => exact rule_refused r e
  | tfloat t =>
    rw [one (e0 := .invalidFloat)]
    · simp [ValFine, Accepted, ValRefused]
    · intro e h
      rcases Res.bind_eq_err.1 h with h | ⟨_, _, h⟩
      · exact (guard_refuse.1 h).2
      · exact (guard_refuse.1 h).2
  | _ => exact none rfl id

theorem param_refused (k : PKind) (v : ParamVal) (e : Err) : k.valid v = .err e ↔ ParamRefused k v e := by
  have hp := PKind.valid_ne_panic k v
  have hf := param_fine_iff k v
  unfold PKind.valid ParamFine at hf
  unfold PKind.valid at hp
  unfold PKind.valid ParamRefused
  split
  · exact refuse_single hp hf fun e h => (guard_refuse.1 h).2
  · exact refuse_single hp hf fun e h => (guard_refuse.1 h).2
  · rw [refuse_single hp hf fun e h => (guard_refuse.1 h).2]
    simp
  · next h1 h2 h3 =>
    simp only [reduceCtorEq]

theorem validParams_inTurn : ∀ (ds : List PDef) (ps : List (Option ParamVal)), validParams ds ps =
    inTurn (((ds.zip ps).filterMap fun x => x.2.map fun v => (x.1, v)).map fun x => x.1.kind.valid x.2) := by
  intro ds
  induction ds with
  | nil => intro ps; simp [validParams, inTurn]
  | cons d ds ih =>
    intro ps
    cases ps with
    | nil => simp [validParams, inTurn]
    | cons p ps =>
      cases p with
      | none =>
        have h : validParams (d :: ds) (none :: ps) = validParams ds ps := rfl
        rw [h, ih]
        simp
      | some v =>
        have h : validParams (d :: ds) (some v :: ps) = (d.kind.valid v >>= fun _ => validParams ds ps) := rfl
        rw [h, ih]
        simp [inTurn]

theorem validVals_inTurn : ∀ vs : List (Option Val), validVals vs = inTurn ((vs.filterMap id).map Val.valid) := by
  intro vs
  induction vs with
  | nil => rfl
  | cons v vs ih =>
    cases v with
    | none =>
      have h : validVals (none :: vs) = validVals vs := rfl
      rw [h, ih]
      simp
    | some v =>
      have h : validVals (some v :: vs) = (v.valid >>= fun _ => validVals vs) := rfl
      rw [h, ih]
      simp [inTurn]

theorem prop_refused {sp : PSpec} {p : PropVal} (ht : sp.typed p = true) (e : Err) : sp.valid p = .err e ↔ PropRefused sp p e := by
  obtain ⟨n, sh⟩ := sp
  cases sh with
  | enum names =>
    cases p with
    | enum k =>
      simp only [PSpec.valid, PropRefused, guard_refuse, decide_eq_false_iff_not, Nat.not_lt]
      exact ⟨fun h => ⟨h.2, h.1⟩, fun h => ⟨h.2, h.1⟩⟩
    | fields ps vs => simp [PSpec.typed] at ht
  | fields params vals =>
    cases p with
    | enum k => simp [PSpec.typed] at ht
    | fields ps vs =>
      have hfine := prop_fine_iff ht
      simp only [PSpec.valid, PropFine, unit_bind_ok] at hfine
      simp only [PSpec.valid, PropRefused, Res.bind_eq_err]
      have hP : validParams params ps = .ok () ↔ ∀ x ∈ propParams ⟨n, .fields params vals⟩ (.fields ps vs), ParamFine x.1.kind x.2 := by
        rw [validParams_iff]; simp only [param_fine_iff, propParams]
      have hPe : validParams params ps = .err e ↔ First (fun x => ParamFine x.1.kind x.2) (fun x => ParamRefused x.1.kind x.2)
          (propParams ⟨n, .fields params vals⟩ (.fields ps vs)) e := by
        rw [validParams_inTurn]
        exact inTurn_map_err (fun x _ => param_fine_iff _ _) (fun x _ e => param_refused _ _ e)
      have hV : validVals vs = .ok () ↔ ∀ v ∈ propVals (.fields ps vs), ValFine v := by
        rw [validVals_iff]
        simp only [val_fine_iff, propVals, List.mem_filterMap, id, exists_eq_right]
      have hVe : validVals vs = .err e ↔ First ValFine ValRefused (propVals (.fields ps vs)) e := by
        rw [validVals_inTurn]
        exact inTurn_map_err (fun x _ => val_fine_iff _) (fun x _ e => val_refused _ e)
      have hcount : (vs.filter (·.isSome)).length = (propVals (.fields ps vs)).length := by
        unfold propVals
        clear hfine ht hP hPe hV hVe
        induction vs with
        | nil => rfl
        | cons v vs ih => cases v <;> simpa using ih
      have hone : vals.length = 1 → (propVals (.fields ps vs)).length = 1 := by
        intro h1
        simp only [PSpec.typed, Bool.and_eq_true] at ht
        obtain ⟨⟨_, h2⟩, h3⟩ := ht
        match vals, vs, h1, h2, h3 with
        | [(_, _)], [some v], _, _, _ => rfl
        | [(_, _)], [none], _, _, h3 => simp at h3
        | [(_, _)], [], _, h2, _ => simp [typedVals] at h2
        | [(_, _)], _ :: _ :: _, _, h2, _ => simp [typedVals] at h2
      have hG : (if vals.length = 1 then Res.ok () else Res.guard .invalidValue (decide ((vs.filter (·.isSome)).length = 1))) = .err e ↔
          (propVals (.fields ps vs)).length ≠ 1 ∧ e = .invalidValue := by
        by_cases h1 : vals.length = 1
        · rw [if_pos h1]
          simp [hone h1]
        · rw [if_neg h1, guard_refuse, hcount, decide_eq_false_iff_not]
      rw [hPe]
      constructor
      · rintro (h | ⟨_, h1, h | ⟨_, h2, h3⟩⟩)
        · exact .inl h
        · exact .inr ⟨hP.1 h1, .inl (hVe.1 h)⟩
        · exact .inr ⟨hP.1 h1, .inr ⟨hV.1 h2, hG.1 h3⟩⟩
      · rintro (h | ⟨h1, h | ⟨h2, h3⟩⟩)
        · exact .inl h
        · exact .inr ⟨(), hP.2 h1, .inl (hVe.2 h)⟩
        · exact .inr ⟨(), hP.2 h1, .inr ⟨(), hV.2 h2, hG.2 h3⟩⟩

/-! ## The calendar -/

/-- Validation of an entry. -/
def Spec.Entry.valid : Entry → Res _root_.Unit
  | .prop f p => f.spec.valid p
  | .noAlarm => .err .invalidAlarm

theorem validFields_inTurn : ∀ (fs : List SField) (vs : List (List PropVal)), validFields fs vs =
    inTurn (((fs.zip vs).flatMap fun x => x.2.map fun p => (x.1, p)).map fun x => x.1.spec.valid x.2) := by
  intro fs
  induction fs with
  | nil => intro vs; simp [validFields, inTurn]
  | cons f fs ih =>
    intro vs
    cases vs with
    | nil => simp [validFields, inTurn]
    | cons v vs =>
      rw [validFields, ih, checks_inTurn, List.zip_cons_cons, List.flatMap_cons, List.map_append, inTurn_append, List.map_map]
      rfl

theorem validSubs_inTurn {κ σ : Type} (val : κ → σ → Res Unit) (g : κ → σ → List Entry) (h : ∀ k s, val k s = inTurn ((g k s).map Entry.valid)) :
    ∀ (ks : List (Str × κ)) (vs : List (List σ)), validSubs val ks vs = inTurn (((ks.zip vs).flatMap fun x => x.2.flatMap (g x.1.2)).map Entry.valid) := by
  intro ks
  induction ks with
  | nil => intro vs; simp [validSubs, inTurn]
  | cons k ks ih =>
    intro vs
    cases vs with
    | nil => simp [validSubs, inTurn]
    | cons v vs =>
      obtain ⟨n, k⟩ := k
      rw [validSubs, ih, checks_inTurn, List.zip_cons_cons, List.flatMap_cons, List.map_append, inTurn_append]
      have : v.map (val k) = v.map fun x => inTurn ((g k x).map Entry.valid) := List.map_congr_left fun x _ => h k x
      rw [this, ← inTurn_flatMap, ← List.map_flatMap]

theorem sectEntries_valid {κ σ : Type} (T : Tab κ) (s : Sect σ) : validFields T.fields s.fields = inTurn ((sectEntries T s).map Entry.valid) := by
  rw [validFields_inTurn, sectEntries, sectProps, List.map_map]
  rfl

theorem Tab.valid_inTurn {κ σ : Type} (T : Tab κ) (val : κ → σ → Res Unit) (g : κ → σ → List Entry) (h : ∀ k s, val k s = inTurn ((g k s).map Entry.valid)) (s : Sect σ) :
    T.valid val s = inTurn ((sectEntries T s ++ below g T s).map Entry.valid) := by
  rw [Tab.valid, sectEntries_valid, validSubs_inTurn val g h, List.map_append, inTurn_append]
  rfl

theorem leaf_entries (T : Tab Empty) (s : Leaf) : T.valid noVal s = inTurn ((sectEntries T s).map Entry.valid) := by
  rw [Tab.valid_inTurn T noVal (fun _ _ => []) (fun k _ => nomatch k)]
  have : below (fun _ _ => []) T s = ([] : List Entry) := by
    unfold below
    rw [List.flatMap_eq_nil_iff]
    intro x _
    simp
  rw [this, List.append_nil]

theorem sub_entries (k : SubKind) (s : Sub) : subValid k s = inTurn ((subEntries k s).map Entry.valid) := by
  unfold subValid subEntries
  split
  · rfl
  · exact leaf_entries _ _
  · exact leaf_entries _ _
  · next h1 h2 h3 => split <;> simp_all [inTurn]

theorem Cal.valid_inTurn (c : Cal) : c.valid = inTurn ((calEntries c).map Entry.valid) :=
  Tab.valid_inTurn _ _ compEntries (fun T s => Tab.valid_inTurn T subValid subEntries sub_entries s) c

/-- The properties among the entries are those of the calendar. -/
theorem calEntries_prop {c : Cal} {f : SField} {p : PropVal} (h : Entry.prop f p ∈ calEntries c) : (f, p) ∈ calProps c := by
  have sect : ∀ {κ σ : Type} {T : Tab κ} {s : Sect σ}, Entry.prop f p ∈ sectEntries T s → (f, p) ∈ sectProps T s := by
    intro κ σ T s h
    obtain ⟨x, hx, he⟩ := List.mem_map.1 h
    injection he with h1 h2
    subst h1; subst h2
    exact hx
  unfold calEntries at h
  unfold calProps
  rw [List.mem_append, mem_below] at h ⊢
  rcases h with h | ⟨k, hk, y, hy, h⟩
  · exact .inl (sect h)
  · refine .inr ⟨k, hk, y, hy, ?_⟩
    unfold compEntries at h
    unfold compProps
    rw [List.mem_append, mem_below] at h ⊢
    rcases h with h | ⟨j, hj, z, hz, h⟩
    · exact .inl (sect h)
    · refine .inr ⟨j, hj, z, hz, ?_⟩
      revert h
      generalize j.1.2 = jk
      intro h
      unfold subEntries at h
      unfold subProps
      split at h
      · exact sect h
      · exact sect h
      · simp at h
      · cases h

/-- The first entry that is refused decides. -/
theorem cal_refused {c : Cal} (ht : c.typed = true) (e : Err) : c.valid = .err e ↔ First EntryFine EntryRefused (calEntries c) e := by
  rw [Cal.valid_inTurn]
  refine inTurn_map_err ?_ ?_
  · intro x hx
    cases x with
    | prop f p => exact prop_fine_iff (Cal.typed_props ht _ (calEntries_prop hx))
    | noAlarm => simp [Entry.valid, EntryFine]
  · intro x hx e
    cases x with
    | prop f p => exact prop_refused (Cal.typed_props ht _ (calEntries_prop hx)) e
    | noAlarm => simp [Entry.valid, EntryRefused, eq_comm]

end Ics
