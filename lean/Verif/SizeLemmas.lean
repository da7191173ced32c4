import Verif.Spec.Size
import Verif.DecodedLemmas
/-!
# Lemmas for the size of what Decode keeps
-/

namespace Ics
open Spec

/-! ## Values -/

theorem decodeText_size (s : Str) : (decodeText s).1.length + (decodeText s).2.length ≤ s.length + 1 ∧
    ((decodeText s).2 ≠ [] → (decodeText s).1.length + (decodeText s).2.length ≤ s.length) := by
  fun_induction decodeText s
  all_goals simp_all +zetaDelta [List.length_cons]
  all_goals try omega
  all_goals
    rename_i ih
    exact ⟨by omega, fun h => by have := ih.2 h; omega⟩

theorem Text.decode_size {s t : Str} (h : Text.decode s = .ok t) : t.length ≤ s.length + 1 := by
  unfold Text.decode at h
  have := (decodeText_size s).1
  split at h
  · rename_i t' e
    rw [e] at this; cases h; simpa using this
  · cases h

theorem MText.decodeF_size : ∀ (f : Nat) {s : Str} {ts : List Str}, MText.decodeF f s = .ok ts → listSize ts ≤ s.length + 2 := by
  intro f
  induction f with
  | zero => intro s ts h; cases h
  | succ f ih =>
    intro s ts h
    unfold MText.decodeF at h
    have hs := decodeText_size s
    split at h
    · rename_i t e
      rw [e] at hs; cases h; simp [listSize] at *; omega
    · rename_i t r e
      rw [e] at hs
      cases hr : MText.decodeF f r with
      | ok ts' =>
        rw [hr] at h; cases h
        have := ih hr
        have := hs.2 (by simp)
        simp [listSize] at *; omega
      | err e => rw [hr] at h; cases h
      | panic => rw [hr] at h; cases h
    · cases h

theorem b64Groups_size (s : Str) : ∀ b, b64Groups s = some b → b.length ≤ s.length := by
  fun_induction b64Groups s
  all_goals intro b' h
  · cases h; simp
  all_goals try simp only [Option.bind_eq_bind, Option.bind_eq_some_iff, Option.some.injEq] at h
  · obtain ⟨_, _, _, _, rfl⟩ := h; simp
  · obtain ⟨_, _, _, _, _, _, rfl⟩ := h; simp
  · rename_i ih
    obtain ⟨_, _, _, _, _, _, _, _, bs, hb, rfl⟩ := h
    have := ih _ hb
    simp; omega
  · cases h

theorem Binary.decode_size {enc s : Str} {b : Bytes} (h : Binary.decode enc s = .ok b) : b.length ≤ s.length := by
  unfold Binary.decode at h
  split at h
  · cases h
  · cases hb : b64Decode s with
    | none => rw [hb] at h; cases h
    | some b' =>
      rw [hb] at h; cases h
      exact Nat.le_trans (b64Groups_size _ _ hb) (List.length_filter_le _ _)

/-! ## Lists -/

theorem mapRes_size {α β : Type} (f : α → Res β) : ∀ {l : List α} {m : List β}, mapRes f l = .ok m → m.length = l.length := by
  intro l
  induction l with
  | nil => intro m h; cases h; rfl
  | cons a l ih =>
    intro m h
    unfold mapRes at h
    cases ha : f a with
    | ok b =>
      cases hl : mapRes f l with
      | ok bs =>
        rw [ha, hl] at h; cases h
        simp [ih hl]
      | err e => rw [ha, hl] at h; cases h
      | panic => rw [ha, hl] at h; cases h
    | err e => rw [ha] at h; cases h
    | panic => rw [ha] at h; cases h

theorem splitOn_size (c : Char) (s : Str) : (splitOn c s).length ≤ s.length + 1 := by
  induction s with
  | nil => simp [splitOn]
  | cons x s ih =>
    unfold splitOn
    split
    · simp; omega
    · split <;> simp_all; omega

theorem splitOn_total (c : Char) (s : Str) : listSize (splitOn c s) = s.length + 1 := by
  induction s with
  | nil => simp [splitOn, listSize]
  | cons x s ih =>
    unfold splitOn
    split
    · simp [listSize, ih]; omega
    · split
      · rename_i e; rw [e] at ih; simp [listSize] at ih
      · rename_i e; rw [e] at ih; simp [listSize] at ih ⊢; omega

theorem split2_size (c : Char) (s : Str) : ∀ {v : Str}, (split2 c s).2 = some v → v.length + 1 ≤ s.length := by
  induction s with
  | nil => intro v h; cases h
  | cons x s ih =>
    intro v h
    unfold split2 at h
    split at h
    · cases h; simp
    · have := ih (v := v) (by simpa using h)
      simp; omega

/-! ## Recurrence rules -/

theorem once_mapRes {α β γ : Type} {l : List γ} {f : α → Res β} {as : List α} {g : List β → RState} {st : RState}
    (h : once l (do let m ← mapRes f as; return g m) = .ok st) : ∃ m, m.length = as.length ∧ st = g m := by
  unfold once at h
  split at h
  · cases hm : mapRes f as with
    | ok m => rw [hm] at h; cases h; exact ⟨m, mapRes_size f hm, rfl⟩
    | err e => rw [hm] at h; cases h
    | panic => rw [hm] at h; cases h
  · cases h

theorem Recur.part_size {E : Env} {ptr : Nat} {tz : Option Str} {st st' : RState} {v : Str} {k : RKey}
    (h : Recur.part E ptr tz st v k = .ok st') : recurSize st'.1 ≤ recurSize st.1 + v.length + 1 := by
  have hs := splitOn_size ',' v
  cases k <;> simp only [Recur.part] at h
  all_goals first
    | (obtain ⟨m, hm, rfl⟩ := once_mapRes h; simp only [recurSize]; omega)
    | (repeat' split at h
       all_goals cases h
       all_goals (simp only [recurSize]; omega))

theorem Recur.loop_size {E : Env} {ptr : Nat} {tz : Option Str} : ∀ (ps : List Str) {st st' : RState},
    Recur.loop E ptr tz st ps = .ok st' → recurSize st'.1 ≤ recurSize st.1 + listSize ps := by
  intro ps
  induction ps with
  | nil => intro st st' h; cases h; simp [listSize]
  | cons p ps ih =>
    intro st st' h
    unfold Recur.loop at h
    split at h
    · cases h
    · rename_i name v e
      have hv := split2_size '=' p (v := v) (by rw [e])
      split at h
      · cases h
      · rename_i k _
        cases hp : Recur.part E ptr tz st v k with
        | ok st1 =>
          rw [hp] at h
          have h1 := Recur.part_size hp
          have h2 := ih h
          simp only [listSize]; omega
        | err e => rw [hp] at h; cases h
        | panic => rw [hp] at h; cases h

theorem Recur.decode_size {E : Env} {ptr : Nat} {tz : Option Str} {s : Str} {r : Recur} (h : Recur.decode E ptr tz s = .ok r) :
    recurSize r ≤ s.length + 1 := by
  unfold Recur.decode at h
  cases hl : Recur.loop E ptr tz ({}, false) (splitOn ';' s) with
  | ok x =>
    rw [hl] at h
    have h1 := Recur.loop_size _ hl
    rw [splitOn_total] at h1
    have h0 : recurSize ({} : Recur) = 0 := rfl
    obtain ⟨r', b⟩ := x
    change (if b then Res.ok r' else .err .invalidRecur) = .ok r at h
    split at h
    · cases h; simp only [h0] at h1; omega
    · cases h
  | err e => rw [hl] at h; cases h
  | panic => rw [hl] at h; cases h

theorem Res.of_map {α β : Type} {f : α → β} {x : Res α} {b : β} (h : (f <$> x) = .ok b) : ∃ a, x = .ok a ∧ b = f a := by
  cases x with
  | ok a => cases h; exact ⟨a, rfl, rfl⟩
  | err e => cases h
  | panic => cases h

theorem Val.decode_size {E : Env} {op : Str → Option Str} {k : Kind} {s : Str} {v : Val} (h : Val.decode E op k s = .ok v) :
    valSize v ≤ s.length + 2 := by
  cases k <;> obtain ⟨a, ha, rfl⟩ := Res.of_map h <;> simp only [valSize]
  case binary => have := Binary.decode_size ha; omega
  case mtext => exact MText.decodeF_size _ ha
  case recur => have := Recur.decode_size ha; omega
  case text => have := Text.decode_size ha; omega
  all_goals omega

/-! ## Parameters -/

theorem decode6868F_size : ∀ (f : Nat) (s p : Str), (decode6868F f p s).length ≤ p.length + s.length + min s.length (2 * s.count '^') := by
  intro f
  induction f with
  | zero => intro s p; simp [decode6868F]
  | succ f ih =>
    intro s p
    have h1 : s = s.takeWhile (· ≠ '^') ++ s.dropWhile (· ≠ '^') := (List.takeWhile_append_dropWhile ..).symm
    have hl := congrArg List.length h1
    have hc := congrArg (List.count '^') h1
    have hh : ∀ x r, s.dropWhile (· ≠ '^') = x :: r → x = '^' := by
      intro x r e
      have := List.head_dropWhile_not (p := fun c : Char => decide (c ≠ '^')) (l := s) (by rw [e]; simp)
      simp only [e, List.head_cons] at this
      simpa using this
    rw [List.length_append] at hl
    rw [List.count_append] at hc
    unfold decode6868F
    simp only [List.length_append]
    split
    · rename_i e
      rw [e] at hl; simp at hl ⊢; omega
    · rename_i e
      rw [e] at hl; simp at hl ⊢; omega
    · rename_i r e
      rw [e, hh _ _ e] at hc; rw [e] at hl
      have := ih r c!"^n"
      simp at hl hc this ⊢; omega
    · rename_i r e
      rw [e, hh _ _ e] at hc; rw [e] at hl
      have := ih r c!"^'"
      simp at hl hc this ⊢; omega
    · rename_i r e
      rw [e, hh _ _ e] at hc; rw [e] at hl
      have := ih r c!"^^"
      simp at hl hc this ⊢; omega
    · rename_i c r _ _ _ e
      rw [e, hh _ _ e] at hc; rw [e] at hl
      have := ih r ['^', c]
      simp [List.count_cons] at hl hc this ⊢; split at hc <;> omega

theorem decode6868_size (s : Str) : (decode6868 s).length ≤ s.length + min s.length (2 * s.count '^') := by
  have := decode6868F_size (s.length + 1) s []
  simpa [decode6868] using this

/-- The cost of the values of a parameter: with a bound for what `decode6868` makes of each. -/
structure Measure where
  /-- The cost of a text. -/
  m : Str → Nat
  len : ∀ s, s.length ≤ m s
  app : ∀ s t, m s + m t ≤ m (s ++ t)
  dec : ∀ s, (decode6868 s).length ≤ m s

/-- Twice the length. -/
def twice : Measure := ⟨fun s => 2 * s.length, fun s => by omega, fun s t => by simp; omega,
  fun s => by have := decode6868_size s; omega⟩

/-- The length and two for every caret. -/
def carets : Measure := ⟨fun s => s.length + 2 * s.count '^', fun s => by omega, fun s t => by simp; omega,
  fun s => by have := decode6868_size s; omega⟩

theorem Measure.app3 (M : Measure) (s t u : Str) : M.m s + M.m t + M.m u ≤ M.m (s ++ t ++ u) := by
  have := M.app s t
  have := M.app (s ++ t) u
  omega

theorem Measure.cons (M : Measure) (c : Char) (s : Str) : 1 + M.m s ≤ M.m (c :: s) := by
  have := M.app [c] s
  have := M.len [c]
  simp at *; omega

theorem Measure.quoted (M : Measure) {v : PVal} (h : v.quoted = true) : M.m v.data + 2 ≤ M.m (printVal v) := by
  unfold printVal
  rw [if_pos h]
  have := M.cons '"' (v.data ++ ['"'])
  have := M.app v.data ['"']
  have := M.len ['"']
  simp at *; omega

theorem Measure.val (M : Measure) (v : PVal) : M.m v.data ≤ M.m (printVal v) := by
  cases h : v.quoted with
  | true => have := M.quoted h; omega
  | false => unfold printVal; rw [h]; exact Nat.le_refl _

theorem Measure.vals (M : Measure) : ∀ vs : List PVal, (vs.map fun v => M.m (printVal v)).sum ≤ M.m (printVals vs)
  | [] => by simp
  | [v] => by simp [printVals]
  | v :: w :: vs => by
    have h1 := M.vals (w :: vs)
    have h2 := M.app (printVal v) (',' :: printVals (w :: vs))
    have h3 := M.cons ',' (printVals (w :: vs))
    simp only [List.map_cons, List.sum_cons, printVals] at *; omega

theorem Measure.dec1 (M : Measure) {α : Type} {vs : List PVal} {f : PVal → Res α} {x : α} (h : (oneVal vs >>= f) = .ok x) :
    ∃ v, vs = [v] ∧ f v = .ok x ∧ M.m v.data ≤ M.m (printVals vs) := by
  unfold oneVal at h
  split at h
  · exact ⟨_, rfl, h, M.val _⟩
  · cases h

theorem Measure.strs (M : Measure) : ∀ {vs : List PVal} {ss : List Str},
    mapRes (fun v => do wantQuoted v; return decode6868 v.data) vs = .ok ss → listSize ss ≤ (vs.map fun v => M.m (printVal v)).sum := by
  intro vs
  induction vs with
  | nil => intro ss h; cases h; simp [listSize]
  | cons v vs ih =>
    intro ss h
    unfold mapRes at h
    cases hq : v.quoted with
    | false => simp only [wantQuoted, Res.guard, hq] at h; cases h
    | true =>
      simp only [wantQuoted, Res.guard, hq] at h
      cases hr : mapRes (fun v => do wantQuoted v; return decode6868 v.data) vs with
      | ok bs =>
        simp only [wantQuoted, Res.guard] at hr
        erw [hr] at h
        cases h
        have h1 := ih (by simpa only [wantQuoted, Res.guard] using hr)
        have h2 := M.quoted hq
        have h3 := M.dec v.data
        simp only [listSize, List.map_cons, List.sum_cons]; omega
      | err e => simp only [wantQuoted, Res.guard] at hr; erw [hr] at h; cases h
      | panic => simp only [wantQuoted, Res.guard] at hr; erw [hr] at h; cases h

theorem PKind.decode_size (M : Measure) {E : Env} {k : PKind} {vs : List PVal} {p : ParamVal} (h : k.decode E vs = .ok p) :
    paramSize p ≤ M.m (printVals vs) + 1 := by
  cases k <;> simp only [PKind.decode] at h
  case str q =>
    obtain ⟨v, rfl, h, hm⟩ := M.dec1 h
    have := M.dec v.data
    cases q <;> cases hq : v.quoted <;> simp only [wantQuoted, Res.guard, hq] at h <;> cases h <;> (simp only [paramSize]; omega)
  case fmt =>
    obtain ⟨v, rfl, h, hm⟩ := M.dec1 h
    have := M.len v.data
    cases hq : fmtMatch v.data <;> simp only [Res.guard, hq] at h <;> cases h
    simp only [paramSize]; omega
  case url =>
    obtain ⟨v, rfl, h, hm⟩ := M.dec1 h
    cases hq : v.quoted <;> simp only [wantQuoted, Res.guard, hq] at h
    · cases h
    · cases hu : URI.decode E v.data with
      | ok u => rw [hu] at h; cases h; simp [paramSize]
      | err e => rw [hu] at h; cases h
      | panic => rw [hu] at h; cases h
  case urls =>
    have h0 : vs.length ≤ (printVals vs).length + 1 := printVals_length vs
    have h1 := M.len (printVals vs)
    generalize hg : (fun v : PVal => (do wantQuoted v; URI.decode E v.data : Res Url)) = g at h
    cases hm : mapRes g vs with
    | ok us =>
      rw [hm] at h; cases h
      have := mapRes_size _ hm
      simp only [paramSize]; omega
    | err e => rw [hm] at h; cases h
    | panic => rw [hm] at h; cases h
  case strs =>
    cases hm : mapRes (fun v : PVal => (do wantQuoted v; return decode6868 v.data : Res Str)) vs with
    | ok ss =>
      rw [hm] at h; cases h
      have := M.strs hm
      have := M.vals vs
      simp only [paramSize]; omega
    | err e => rw [hm] at h; cases h
    | panic => rw [hm] at h; cases h
  case enum names =>
    obtain ⟨v, rfl, h, hm⟩ := M.dec1 h
    split at h <;> cases h <;> simp [paramSize]
  case range =>
    obtain ⟨v, rfl, h, hm⟩ := M.dec1 h
    by_cases hq : upper v.data = c!"THISANDFUTURE" <;> simp only [Res.guard, hq] at h <;> cases h
    simp [paramSize]
  case bool =>
    obtain ⟨v, rfl, h, hm⟩ := M.dec1 h
    cases hu : Boolean.decode v.data with
    | ok u => rw [hu] at h; cases h; simp [paramSize]
    | err e => rw [hu] at h; cases h
    | panic => rw [hu] at h; cases h

theorem paramsSize_set : ∀ (ps : List (Option ParamVal)) (i : Nat) (v : ParamVal),
    paramsSize (ps.set i (some v)) ≤ paramsSize ps + 1 + paramSize v
  | [], _, _ => by simp [paramsSize]
  | none :: ps, 0, v => by simp [paramsSize]; omega
  | some _ :: ps, 0, v => by simp [paramsSize]; omega
  | none :: ps, i + 1, v => by simpa [paramsSize] using paramsSize_set ps i v
  | some _ :: ps, i + 1, v => by have := paramsSize_set ps i v; simp [paramsSize]; omega

theorem paramsSize_none : ∀ ds : List PDef, paramsSize (ds.map fun _ => none) = 0
  | [] => rfl
  | _ :: ds => by simpa [paramsSize] using paramsSize_none ds

theorem valsSize_set : ∀ (k i : Nat) (v : Val), valsSize (oneOf k i v) ≤ valSize v
  | 0, _, _ => by simp [oneOf, valsSize]
  | k + 1, 0, v => by
    have : ∀ k, valsSize (List.replicate k none) = 0 := by
      intro k
      induction k with
      | zero => rfl
      | succ k ih => simpa [List.replicate_succ, valsSize] using ih
    simp [oneOf, List.replicate_succ, valsSize, this]
  | k + 1, i + 1, v => by simpa [oneOf, List.replicate_succ, valsSize] using valsSize_set k i v

theorem PState.step_size (M : Measure) {E : Env} {ds : List PDef} {vals : List (Str × Kind)} {st st' : PState} {p : Str × List PVal}
    (h : st.step E ds vals p = .ok st') : paramsSize st'.ps ≤ paramsSize st.ps + 2 + M.m (printVals p.2) := by
  unfold PState.step at h
  dsimp only at h
  split at h
  · split at h
    · cases h
    · rename_i i _ _
      cases hd : (ds.getD i ⟨[], .range⟩).kind.decode E p.2 with
      | ok v =>
        rw [hd] at h; cases h
        have h1 := PKind.decode_size M hd
        have h2 := paramsSize_set st.ps i v
        dsimp only; omega
      | err e => rw [hd] at h; cases h
      | panic => rw [hd] at h; cases h
  · repeat' split at h
    all_goals cases h
    all_goals (dsimp only; omega)

theorem PState.steps_size (M : Measure) {E : Env} {ds : List PDef} {vals : List (Str × Kind)} : ∀ (ps : List (Str × List PVal)) {st st' : PState},
    PState.steps E ds vals st ps = .ok st' → paramsSize st'.ps ≤ paramsSize st.ps + M.m (printParams ps) := by
  intro ps
  induction ps with
  | nil => intro st st' h; cases h; omega
  | cons p ps ih =>
    intro st st' h
    unfold PState.steps at h
    cases hs : st.step E ds vals p with
    | ok st1 =>
      rw [hs] at h
      have h1 := PState.step_size M hs
      have h2 := ih h
      obtain ⟨n, vs⟩ := p
      have h3 := M.cons ';' (n ++ '=' :: printVals vs ++ printParams ps)
      have h4 := M.app n ('=' :: printVals vs ++ printParams ps)
      have h5 := M.cons '=' (printVals vs ++ printParams ps)
      have h6 := M.app (printVals vs) (printParams ps)
      simp only [printParams, List.append_assoc, List.cons_append] at *
      omega
    | err e => rw [hs] at h; cases h
    | panic => rw [hs] at h; cases h

theorem PSpec.decode_size (M : Measure) {E : Env} {sp : PSpec} {l : Line} {v : PropVal} (h : sp.decode E l.params l.value = .ok v) :
    propSize v ≤ M.m (printLine l) := by
  have hl : M.m (printParams l.params) + l.value.length + 3 ≤ M.m (printLine l) := by
    have h1 := M.app (l.name ++ printParams l.params ++ ':' :: l.value) ['\r', '\n']
    have h2 := M.len ['\r', '\n']
    have h3 := M.app3 l.name (printParams l.params) (':' :: l.value)
    have h4 := M.cons ':' l.value
    have h5 := M.len l.value
    simp only [printLine, printBare, List.length_cons, List.length_nil] at *
    omega
  unfold PSpec.decode at h
  split at h
  · split at h <;> cases h
    simp only [propSize]; omega
  · rename_i ds vals _
    cases hs : PState.steps E ds vals { ps := ds.map fun _ => none } l.params with
    | ok st =>
      rw [hs] at h
      change (Val.decode E (opGet st.op) (vals.getD (st.vtype.getD 0) ([], .text)).2 l.value >>= fun v =>
        Res.ok (.fields st.ps (oneOf vals.length (st.vtype.getD 0) v))) = .ok v at h
      cases hv : Val.decode E (opGet st.op) (vals.getD (st.vtype.getD 0) ([], .text)).2 l.value with
      | ok x =>
        rw [hv] at h; cases h
        have h1 := PState.steps_size M _ hs
        have h2 := Val.decode_size hv
        have h3 := valsSize_set vals.length (st.vtype.getD 0) x
        have h4 : paramsSize (ds.map fun _ => none) = 0 := paramsSize_none ds
        simp only [propSize] at *; omega
      | err e => rw [hv] at h; cases h
      | panic => rw [hv] at h; cases h
    | err e => rw [hs] at h; cases h
    | panic => rw [hs] at h; cases h

/-! ## Sections -/

/-- The cost of lines. -/
def Measure.lines (M : Measure) (ls : List Line) : Nat := (ls.map fun l => M.m (printLine l)).sum

theorem Measure.lines_cons (M : Measure) (l : Line) (ls : List Line) : M.lines ls + 1 ≤ M.lines (l :: ls) := by
  have h1 := M.len (printLine l)
  have h2 : 1 ≤ (printLine l).length := by simp [printLine]
  simp only [Measure.lines, List.map_cons, List.sum_cons]; omega

theorem Measure.lines_text (M : Measure) : ∀ ls : List Line, M.lines ls ≤ M.m (ls.flatMap printLine)
  | [] => by simp [Measure.lines]
  | l :: ls => by
    have h1 := M.lines_text ls
    have h2 := M.app (printLine l) (ls.flatMap printLine)
    simp only [Measure.lines, List.map_cons, List.sum_cons, List.flatMap_cons] at *; omega

theorem dummy_size (M : Measure) {t : Term} : ∀ (f : Nat) {n : Str} {ls r : List Line}, dummy t f n ls = .ok r → M.lines r ≤ M.lines ls := by
  intro f
  induction f with
  | zero => intro n ls r h; cases h
  | succ f ih =>
    intro n ls r h
    cases ls with
    | nil => cases h
    | cons l ls =>
      have hc := M.lines_cons l ls
      unfold dummy at h
      split at h
      · cases hd : dummy t f l.value ls with
        | ok r1 => rw [hd] at h; have h1 := ih hd; have h2 := ih h; omega
        | err e => rw [hd] at h; cases h
        | panic => rw [hd] at h; cases h
      · split at h
        · split at h <;> cases h
          omega
        · have := ih h; omega

theorem sumSize_add {α : Type} (w : α → Nat) (x : α) : ∀ (ls : List (List α)) (i : Nat), sumSize w (ls.modify i (· ++ [x])) ≤ sumSize w ls + w x
  | [], _ => by simp [sumSize]
  | l :: ls, 0 => by simp [sumSize, List.sum_append]; omega
  | l :: ls, i + 1 => by
    have := sumSize_add w x ls i
    simp only [sumSize, List.modify_succ_cons, List.map_cons, List.sum_cons] at *; omega

theorem sumSize_nil {α β : Type} (w : α → Nat) : ∀ l : List β, sumSize w (l.map fun _ => []) = 0
  | [] => rfl
  | _ :: l => by have := sumSize_nil w l; simp only [sumSize, List.map_cons, List.sum_cons] at *; simpa using this

theorem Sect.loop_size {κ σ : Type} (M : Measure) (w : σ → Nat) {E : Env} {T : Tab κ} {sub : κ → List Line → Res (σ × List Line)} {t : Term}
    (hsub : ∀ k ls x r, sub k ls = .ok (x, r) → w x + M.lines r ≤ M.lines ls + 1) : ∀ (f : Nat) {s s' : Sect σ} {ls r : List Line},
    Sect.loop E T sub t f s ls = .ok (s', r) → sectSize w s' + M.lines r ≤ sectSize w s + M.lines ls := by
  intro f
  induction f with
  | zero => intro s s' ls r h; cases h
  | succ f ih =>
    intro s s' ls r h
    cases ls with
    | nil => cases h
    | cons l ls =>
      have hc := M.lines_cons l ls
      unfold Sect.loop at h
      split at h
      · split at h
        · rename_i i _
          split at h
          · rename_i n k _
            cases hx : sub k ls with
            | ok xr =>
              obtain ⟨x, r1⟩ := xr
              rw [hx] at h
              have h1 := hsub _ _ _ _ hx
              have h2 := ih h
              have h3 := sumSize_add w x s.subs i
              simp only [sectSize, Sect.addSub] at *; omega
            | err e => rw [hx] at h; cases h
            | panic => rw [hx] at h; cases h
          · cases h
        · cases hd : dummy t (ls.length + 1) (upper l.value) ls with
          | ok r1 =>
            rw [hd] at h
            have h1 := dummy_size M _ hd
            have h2 := ih h
            omega
          | err e => rw [hd] at h; cases h
          | panic => rw [hd] at h; cases h
      · split at h
        · rename_i i _
          split at h
          · rename_i fd _
            cases ha : s.addProp E i fd l with
            | ok s1 =>
              rw [ha] at h
              have h2 := ih h
              unfold Sect.addProp at ha
              split at ha
              · cases ha
              · cases hv : fd.spec.decode E l.params l.value with
                | ok v =>
                  rw [hv] at ha; cases ha
                  have h1 := PSpec.decode_size M hv
                  have h3 := sumSize_add propSize v s.fields i
                  simp only [sectSize, Measure.lines, List.map_cons, List.sum_cons] at *; omega
                | err e => rw [hv] at ha; cases ha
                | panic => rw [hv] at ha; cases ha
            | err e => rw [ha] at h; cases h
            | panic => rw [ha] at h; cases h
          · cases h
        · split at h
          · split at h <;> cases h
            omega
          · have := ih h; omega

theorem Tab.decode_size {κ σ : Type} (M : Measure) (w : σ → Nat) {E : Env} {T : Tab κ} {sub : κ → List Line → Res (σ × List Line)} {t : Term}
    (hsub : ∀ k ls x r, sub k ls = .ok (x, r) → w x + M.lines r ≤ M.lines ls + 1) {ls r : List Line} {s : Sect σ}
    (h : T.decode E sub t ls = .ok (s, r)) : sectSize w s + M.lines r ≤ M.lines ls + 1 := by
  unfold Tab.decode at h
  cases hl : Sect.loop E T sub t (ls.length + 1) (T.start σ) ls with
  | ok x =>
    obtain ⟨s1, r1⟩ := x
    rw [hl] at h
    cases hf : T.finish s1 with
    | ok u =>
      change ((T.finish s1) >>= fun _ => Res.ok (s1, r1)) = _ at h
      rw [hf] at h; cases h
      have h1 := Sect.loop_size M w hsub _ hl
      have h2 : sectSize w (T.start σ) = 1 := by
        simp only [sectSize, Tab.start, sumSize_nil]
      omega
    | err e => change ((T.finish s1) >>= fun _ => Res.ok (s1, r1)) = _ at h; rw [hf] at h; cases h
    | panic => change ((T.finish s1) >>= fun _ => Res.ok (s1, r1)) = _ at h; rw [hf] at h; cases h
  | err e => rw [hl] at h; cases h
  | panic => rw [hl] at h; cases h

theorem alarmCollect_size (M : Measure) {t : Term} : ∀ (ls : List Line) {a a' : Option AKind} {pt r : List Line},
    alarmCollect t a ls = .ok (a', pt, r) → M.lines pt + M.lines r = M.lines ls := by
  intro ls
  induction ls with
  | nil => intro a a' pt r h; unfold alarmCollect at h; split at h <;> cases h
  | cons l ls ih =>
    intro a a' pt r h
    unfold alarmCollect at h
    split at h
    · cases h
    · split at h
      · split at h
        · cases h
        · cases hc : alarmCollect t (AKind.ofAction l.value) ls with
          | ok x =>
            obtain ⟨a1, p1, r1⟩ := x
            rw [hc] at h; cases h
            have := ih hc
            simp only [Measure.lines, List.map_cons, List.sum_cons] at *; omega
          | err e => rw [hc] at h; cases h
          | panic => rw [hc] at h; cases h
      · split at h
        · cases h; simp [Measure.lines]
        · cases hc : alarmCollect t a ls with
          | ok x =>
            obtain ⟨a1, p1, r1⟩ := x
            rw [hc] at h; cases h
            have := ih hc
            simp only [Measure.lines, List.map_cons, List.sum_cons] at *; omega
          | err e => rw [hc] at h; cases h
          | panic => rw [hc] at h; cases h

theorem noSub_size (M : Measure) (w : Empty → Nat) : ∀ k ls x r, noSub k ls = .ok (x, r) → w x + M.lines r ≤ M.lines ls + 1 := nofun

theorem subDecode_size (M : Measure) {E : Env} {t : Term} : ∀ k ls x r, subDecode E t k ls = .ok (x, r) →
    subSize x + M.lines r ≤ M.lines ls + 1 := by
  intro k ls x r h
  cases k with
  | alarm =>
    change alarmDecode E t ls = _ at h
    unfold alarmDecode at h
    cases hc : alarmCollect t none ls with
    | ok y =>
      obtain ⟨a, pt, r1⟩ := y
      rw [hc] at h
      have h1 := alarmCollect_size M _ hc
      cases a with
      | none => cases h
      | some k =>
        cases hd : k.tab.decode E noSub (.error .unexpectedEOF) pt with
        | ok z =>
          obtain ⟨s, q⟩ := z
          change (k.tab.decode E noSub (.error .unexpectedEOF) pt >>= fun z => Res.ok (Sub.alarm (some (k, z.1)), r1)) = _ at h
          rw [hd] at h; cases h
          have h2 := Tab.decode_size M noSize (noSub_size M _) hd
          simp only [subSize]; omega
        | err e =>
          change (k.tab.decode E noSub (.error .unexpectedEOF) pt >>= fun z => Res.ok (Sub.alarm (some (k, z.1)), r1)) = _ at h
          rw [hd] at h; cases h
        | panic =>
          change (k.tab.decode E noSub (.error .unexpectedEOF) pt >>= fun z => Res.ok (Sub.alarm (some (k, z.1)), r1)) = _ at h
          rw [hd] at h; cases h
    | err e => rw [hc] at h; cases h
    | panic => rw [hc] at h; cases h
  | leaf T =>
    change (T.decode E noSub t ls >>= fun z => Res.ok (Sub.leaf z.1, z.2)) = _ at h
    cases hd : T.decode E noSub t ls with
    | ok z =>
      rw [hd] at h; cases h
      exact Tab.decode_size M noSize (noSub_size M _) hd
    | err e => rw [hd] at h; cases h
    | panic => rw [hd] at h; cases h

theorem decodeStream_size (M : Measure) {E : Env} {st : Stream} {c : Cal} (h : decodeStream E st = .ok c) :
    calSize c + 16 ≤ M.lines st.lines := by
  unfold decodeStream at h
  split at h
  · cases h
  · rename_i l r hl
    split at h
    · rename_i hb
      cases hd : tabCalendar.decode E (compDecode E st.term) st.term r with
      | ok z =>
        obtain ⟨c1, q⟩ := z
        rw [hd] at h; cases h
        have h1 := Tab.decode_size M compSize (fun k ls x r h => Tab.decode_size M subSize (subDecode_size M) h) hd
        have h2 := M.len (printLine l)
        have h3 : (upper l.name).length = 5 := by rw [hb.1]; rfl
        have h4 : (upper l.value).length = 9 := by rw [hb.2]; rfl
        have h5 : l.name.length = 5 := by simpa [upper] using h3
        have h6 : l.value.length = 9 := by simpa [upper] using h4
        have h7 : 17 ≤ (printLine l).length := by simp [printLine, printBare, h5, h6]; omega
        rw [hl]
        simp only [calSize, Measure.lines, List.map_cons, List.sum_cons] at *; omega
      | err e => rw [hd] at h; cases h
      | panic => rw [hd] at h; cases h
    · cases h

theorem tokenise_size (M : Measure) (s : Str) : M.lines (tokenise s).lines ≤ M.m (s ++ crlf) := by
  have h := (tokenise_front (s := s) (pre := (tokenise s).lines) (r := []) (by simp)).2
  have ht := M.lines_text (tokenise s).lines
  rcases h with ⟨q, h⟩ | h
  · have h1 := M.app ((tokenise s).lines.flatMap printLine) q
    have h2 := M.app s crlf
    rw [← h] at h1
    omega
  · rw [h]; exact ht

theorem decodeDoc_size (M : Measure) {E : Env} {s : Str} {c : Cal} (h : decodeDoc E s = .ok c) : calSize c + 16 ≤ M.m (s ++ crlf) :=
  Nat.le_trans (decodeStream_size M h) (tokenise_size M s)

end Ics
