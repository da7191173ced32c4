import Verif.VerdictLemmas
import Verif.Spec.Errors
/-!
# Lemmas: the errors of Decode
-/

namespace Ics

open Spec

variable {α β : Type}

/-! ## Errors of values -/

/-- The errors of a result are among these. -/
def Errs (es : List Err) (r : Res α) : Prop := ∀ e, r = .err e → e ∈ es

theorem errs_ok (es : List Err) (a : α) : Errs es (.ok a) := fun _ h => nomatch h
theorem errs_panic (es : List Err) : Errs es (.panic : Res α) := fun _ h => nomatch h
theorem errs_err {es : List Err} {e : Err} (h : e ∈ es) : Errs es (.err e : Res α) := fun _ h' => by cases h'; exact h

theorem errs_bind {es : List Err} {r : Res α} {f : α → Res β} (h : Errs es r) (hf : ∀ a, Errs es (f a)) : Errs es (r >>= f) := by
  cases r with
  | ok a => exact hf a
  | err e => exact fun e' h' => h e' (by cases h'; rfl)
  | panic => exact errs_panic es

theorem errs_map {es : List Err} {r : Res α} {f : α → β} (h : Errs es r) : Errs es (f <$> r) := by
  cases r with
  | ok a => exact errs_ok _ _
  | err e => exact fun e' h' => h e' (by cases h'; rfl)
  | panic => exact errs_panic es

theorem errs_ofOption {es : List Err} {e : Err} (h : e ∈ es) (o : Option α) : Errs es (Res.ofOption e o) := by
  cases o with
  | none => exact errs_err h
  | some a => exact errs_ok _ _

theorem errs_guard {es : List Err} {e : Err} (h : e ∈ es) (b : Bool) : Errs es (Res.guard e b) := by
  cases b with
  | false => exact errs_err h
  | true => exact errs_ok _ _

theorem errs_mapRes {es : List Err} {f : α → Res β} (h : ∀ a, Errs es (f a)) : ∀ l : List α, Errs es (mapRes f l) := by
  intro l
  induction l with
  | nil => exact errs_ok _ _
  | cons a l ih => exact errs_bind (h a) fun b => errs_bind ih fun bs => errs_ok _ _

theorem Errs.mono {es es' : List Err} {r : Res α} (h : Errs es r) (hs : ∀ e ∈ es, e ∈ es') : Errs es' r := fun e he => hs e (h e he)

theorem DateTime.decode_errs (E : Env) (ptr : Nat) (tz : Option Str) (s : Str) : Errs [.ext] (DateTime.decode E ptr tz s) := by
  unfold DateTime.decode
  split
  · exact errs_bind (errs_ofOption (by simp) _) fun l => errs_ofOption (by simp) _
  · split <;> exact errs_ofOption (by simp) _

theorem Duration.loop_errs : ∀ (fuel level : Nat) (d : Duration) (s : Str), Errs [.invalidDuration, .ext] (Duration.loop fuel level d s) := by
  intro fuel
  induction fuel with
  | zero => intro level d s; exact errs_err (by simp)
  | succ fuel ih =>
    intro level d s
    unfold Duration.loop
    dsimp only
    split
    · split
      · exact errs_err (by simp)
      · exact errs_ok _ _
    · generalize (if s.head? = some 'T' then 1 else level) = lv
      generalize (if s.head? = some 'T' then s.tail else s) = s'
      split
      · exact errs_err (by simp)
      · split
        · split
          · exact errs_err (by simp)
          · split
            · exact errs_err (by simp)
            · exact errs_ok _ _
        · split
          · exact errs_err (by simp)
          · exact ih _ _ _
        · split
          · exact errs_err (by simp)
          · exact ih _ _ _
        · split
          · exact errs_err (by simp)
          · exact ih _ _ _
        · split
          · exact errs_err (by simp)
          · split
            · exact errs_err (by simp)
            · exact ih _ _ _
        · exact errs_err (by simp)

theorem Duration.decode_errs (s : Str) : Errs [.invalidDuration, .ext] (Duration.decode s) := by
  unfold Duration.decode
  dsimp only
  split
  · exact Duration.loop_errs _ _ _ _
  · exact errs_err (by simp)

theorem MText.decodeF_errs : ∀ (fuel : Nat) (s : Str), Errs [.invalidText] (MText.decodeF fuel s) := by
  intro fuel
  induction fuel with
  | zero => intro s; exact errs_err (by simp)
  | succ fuel ih =>
    intro s
    unfold MText.decodeF
    split
    · exact errs_ok _ _
    · exact errs_bind (ih _) fun _ => errs_ok _ _
    · exact errs_err (by simp)

theorem decDay_errs (s : Str) : Errs [.invalidRecur] (decDay s) := by
  have hname : ∀ n d, Errs [.invalidRecur] (decDayName n d) := by
    intro n d
    unfold decDayName
    split
    · exact errs_ok _ _
    · exact errs_err (by simp)
  have hnum : ∀ a b d, Errs [.invalidRecur] (decDayNum a b d) := by
    intro a b d
    unfold decDayNum
    split
    · exact errs_panic _
    · split
      · split
        · exact errs_panic _
        · split
          split
          · exact errs_err (by simp)
          · exact hname _ _
      · split
        · exact hname _ _
        · exact errs_err (by simp)
  unfold decDay
  split
  · exact errs_err (by simp)
  · split
    · exact hnum _ _ _
    · split
      · exact errs_err (by simp)
      · exact hnum _ _ _
    · exact hnum _ _ _

theorem Recur.part_errs (E : Env) (ptr : Nat) (tz : Option Str) (st : RState) (v : Str) (k : RKey) : Errs [.invalidRecur] (Recur.part E ptr tz st v k) := by
  have hu : ∀ a b s, Errs [.invalidRecur] (decU a b s) := by
    intro a b s
    unfold decU
    split
    · split
      · exact errs_ok _ _
      · exact errs_err (by simp)
    · exact errs_err (by simp)
  have hi : ∀ a b s, Errs [.invalidRecur] (decI a b s) := by
    intro a b s
    unfold decI
    split
    · split
      · exact errs_ok _ _
      · exact errs_err (by simp)
    · exact errs_err (by simp)
  have honce : ∀ {γ δ : Type} (l : List γ) {x : Res δ}, Errs [.invalidRecur] x → Errs [.invalidRecur] (once l x) := by
    intro γ δ l x hx
    cases l with
    | nil => exact hx
    | cons a l => exact errs_err (by simp)
  cases k with
  | freq =>
    unfold Recur.part
    dsimp only
    split
    · exact errs_ok _ _
    · exact errs_err (by simp)
  | «until» =>
    unfold Recur.part
    dsimp only
    split
    · exact errs_err (by simp)
    · split
      · split
        · exact errs_ok _ _
        · exact errs_err (by simp)
        · exact errs_panic _
      · split
        · exact errs_ok _ _
        · exact errs_err (by simp)
        · exact errs_panic _
  | count =>
    unfold Recur.part
    dsimp only
    split
    · exact errs_err (by simp)
    · split
      · exact errs_ok _ _
      · exact errs_err (by simp)
  | interval =>
    unfold Recur.part
    dsimp only
    split
    · exact errs_err (by simp)
    · split
      · exact errs_ok _ _
      · exact errs_err (by simp)
  | weekStart =>
    unfold Recur.part
    dsimp only
    split
    · exact errs_err (by simp)
    · split
      · exact errs_ok _ _
      · exact errs_err (by simp)
  | bySecond => exact honce _ (errs_bind (errs_mapRes (hu _ _) _) fun _ => errs_ok _ _)
  | byMinute => exact honce _ (errs_bind (errs_mapRes (hu _ _) _) fun _ => errs_ok _ _)
  | byHour => exact honce _ (errs_bind (errs_mapRes (hu _ _) _) fun _ => errs_ok _ _)
  | byDay => exact honce _ (errs_bind (errs_mapRes decDay_errs _) fun _ => errs_ok _ _)
  | byMonthDay => exact honce _ (errs_bind (errs_mapRes (hi _ _) _) fun _ => errs_ok _ _)
  | byYearDay => exact honce _ (errs_bind (errs_mapRes (hi _ _) _) fun _ => errs_ok _ _)
  | byWeekNum => exact honce _ (errs_bind (errs_mapRes (hi _ _) _) fun _ => errs_ok _ _)
  | byMonth => exact honce _ (errs_bind (errs_mapRes (hu _ _) _) fun _ => errs_ok _ _)
  | bySetPos => exact honce _ (errs_bind (errs_mapRes (hi _ _) _) fun _ => errs_ok _ _)

theorem Recur.decode_errs (E : Env) (ptr : Nat) (tz : Option Str) (s : Str) : Errs [.invalidRecur] (Recur.decode E ptr tz s) := by
  have hl : ∀ (l : List Str) (st : RState), Errs [.invalidRecur] (Recur.loop E ptr tz st l) := by
    intro l
    induction l with
    | nil => intro st; exact errs_ok _ _
    | cons p ps ih =>
      intro st
      unfold Recur.loop
      split
      · exact errs_err (by simp)
      · split
        · exact errs_err (by simp)
        · exact errs_bind (Recur.part_errs _ _ _ _ _ _) fun st' => ih st'
  unfold Recur.decode
  refine errs_bind (hl _ _) fun x => ?_
  dsimp only
  split
  · exact errs_ok _ _
  · exact errs_err (by simp)

/-- The errors of a value, by its type. -/
theorem Val.decode_errs (E : Env) (op : Str → Option Str) (k : Kind) (s : Str) : Errs (Kind.errors k) (Val.decode E op k s) := by
  cases k with
  | binary =>
    refine errs_map ?_
    unfold Binary.decode
    split
    · exact errs_err (by simp [Kind.errors])
    · exact errs_ofOption (by simp [Kind.errors]) _
  | boolean =>
    refine errs_map ?_
    unfold Boolean.decode
    split
    · exact errs_ok _ _
    · split
      · exact errs_ok _ _
      · exact errs_err (by simp [Kind.errors])
  | calAddress => exact errs_map (errs_ofOption (by simp [Kind.errors]) _)
  | date => exact errs_map (errs_ofOption (by simp [Kind.errors]) _)
  | dateTime => exact errs_map (DateTime.decode_errs _ _ _ _)
  | duration => exact errs_map (Duration.decode_errs _)
  | integer => exact errs_map (errs_ofOption (by simp [Kind.errors]) _)
  | mtext => exact errs_map (MText.decodeF_errs _ _)
  | period =>
    refine errs_map ?_
    unfold Period.decode
    split
    · exact errs_err (by simp [Kind.errors])
    · exact errs_err (by simp [Kind.errors])
    · refine errs_bind ((DateTime.decode_errs _ _ _ _).mono (by simp [Kind.errors])) fun a => ?_
      split
      · exact errs_bind ((Duration.decode_errs _).mono (by simp [Kind.errors])) fun _ => errs_ok _ _
      · exact errs_bind ((DateTime.decode_errs _ _ _ _).mono (by simp [Kind.errors])) fun _ => errs_ok _ _
  | recur => exact errs_map (Recur.decode_errs _ _ _ _)
  | text =>
    refine errs_map ?_
    unfold Text.decode
    split
    · exact errs_ok _ _
    · exact errs_err (by simp [Kind.errors])
  | tfloat =>
    refine errs_map ?_
    unfold TFloat.decode
    split
    · exact errs_err (by simp [Kind.errors])
    · exact errs_bind (errs_ofOption (by simp [Kind.errors]) _) fun _ => errs_bind (errs_ofOption (by simp [Kind.errors]) _) fun _ => errs_ok _ _
  | uri => exact errs_map (errs_ofOption (by simp [Kind.errors]) _)
  | utcOffset =>
    refine errs_map ?_
    unfold UTCOffset.decode
    dsimp only
    split
    · exact errs_err (by simp [Kind.errors])
    · split
      · split
        · exact errs_err (by simp [Kind.errors])
        · exact errs_ok _ _
      · exact errs_ok _ _

theorem PKind.decode_errs (E : Env) (k : PKind) (vs : List PVal) : Errs paramErrors (k.decode E vs) := by
  have h1 : Errs paramErrors (oneVal vs) := by
    unfold oneVal
    split
    · exact errs_ok _ _
    · exact errs_err (by simp [paramErrors])
  have h2 : ∀ v, Errs paramErrors (wantQuoted v) := fun v => errs_guard (by simp [paramErrors]) _
  cases k with
  | url => exact errs_bind h1 fun v => errs_bind (h2 v) fun _ => errs_bind (errs_ofOption (by simp [paramErrors]) _) fun _ => errs_ok _ _
  | urls => exact errs_bind (errs_mapRes (fun v => errs_bind (h2 v) fun _ => errs_ofOption (by simp [paramErrors]) _) _) fun _ => errs_ok _ _
  | str q =>
    refine errs_bind h1 fun v => ?_
    dsimp only
    split
    · exact errs_bind (h2 v) fun _ => errs_ok _ _
    · exact errs_ok _ _
  | fmt => exact errs_bind h1 fun v => errs_bind (errs_guard (by simp [paramErrors]) _) fun _ => errs_ok _ _
  | enum names =>
    refine errs_bind h1 fun v => ?_
    split <;> exact errs_ok _ _
  | strs => exact errs_bind (errs_mapRes (fun v => errs_bind (h2 v) fun _ => errs_ok _ _) _) fun _ => errs_ok _ _
  | range => exact errs_bind h1 fun v => errs_bind (errs_guard (by simp [paramErrors]) _) fun _ => errs_ok _ _
  | bool =>
    refine errs_bind h1 fun v => errs_bind ?_ fun _ => errs_ok _ _
    unfold Boolean.decode
    split
    · exact errs_ok _ _
    · split
      · exact errs_ok _ _
      · exact errs_err (by simp [paramErrors])

theorem PState.steps_errs (E : Env) (params : List PDef) (vals : List (Str × Kind)) : ∀ (ps : List (Str × List PVal)) (st : PState), Errs paramErrors (PState.steps E params vals st ps) := by
  intro ps
  induction ps with
  | nil => intro st; exact errs_ok _ _
  | cons p ps ih =>
    intro st
    refine errs_bind ?_ fun st' => ih st'
    unfold PState.step
    dsimp only
    split
    · split
      · exact errs_err (by simp [paramErrors])
      · exact errs_bind (PKind.decode_errs _ _ _) fun _ => errs_ok _ _
    · split
      · split
        · split
          · exact errs_err (by simp [paramErrors])
          · split
            · exact errs_ok _ _
            · exact errs_err (by simp [paramErrors])
        · exact errs_err (by simp [paramErrors])
      · exact errs_ok _ _

/-- VALUE picks one of the alternatives. -/
theorem PState.steps_vtype {E : Env} {params : List PDef} {vals : List (Str × Kind)} : ∀ {ps : List (Str × List PVal)} {st st' : PState}, (∀ i, st.vtype = some i → i < vals.length) →
    PState.steps E params vals st ps = .ok st' → ∀ i, st'.vtype = some i → i < vals.length := by
  intro ps
  induction ps with
  | nil => intro st st' h h1; cases h1; exact h
  | cons p ps ih =>
    intro st st' h h1
    obtain ⟨st1, h2, h3⟩ := Res.bind_eq_ok.1 h1
    refine ih ?_ h3
    unfold PState.step at h2
    dsimp only at h2
    split at h2
    · split at h2
      · cases h2
      · obtain ⟨v, _, h2⟩ := Res.bind_eq_ok.1 h2
        cases h2
        exact h
    · split at h2
      · split at h2
        · split at h2
          · cases h2
          · split at h2
            · next i hi =>
              cases h2
              intro j hj
              cases hj
              have := indexOf_some _ _ _ hi
              have := (List.getElem?_eq_some_iff.1 this).1
              simpa using this
            · cases h2
        · cases h2
      · cases h2
        exact h

theorem PSpec.decode_errs (E : Env) (sp : PSpec) (hw : sp.wf = true) (ps : List (Str × List PVal)) (v : Str) : Errs (shapeErrors sp) (sp.decode E ps v) := by
  unfold PSpec.decode shapeErrors
  cases hs : sp.shape with
  | enum names =>
    dsimp only
    split
    · exact errs_ok _ _
    · exact errs_err (by simp)
  | fields params vals =>
    dsimp only
    intro e he
    rcases Res.bind_eq_err.1 he with he | ⟨st, hst, he⟩
    · exact List.mem_append_left _ (PState.steps_errs _ _ _ _ _ e he)
    · rcases Res.bind_eq_err.1 he with he | ⟨w, _, he⟩
      · refine List.mem_append_right _ ?_
        have hlt : st.vtype.getD 0 < vals.length := by
          have hv := PState.steps_vtype (by intro i h; cases h) hst
          cases hvt : st.vtype with
          | none =>
            have hne : vals ≠ [] := by
              intro e
              unfold PSpec.wf at hw
              rw [hs, e] at hw
              simp at hw
            exact List.length_pos_iff.2 hne
          | some i => exact hv i hvt
        have hg : vals.getD (st.vtype.getD 0) ([], .text) = vals[st.vtype.getD 0] := by
          rw [List.getD_eq_getElem?_getD, List.getElem?_eq_getElem hlt]
          rfl
        rw [hg] at he
        exact List.mem_flatMap.2 ⟨_, List.getElem_mem hlt, Val.decode_errs _ _ _ _ e he⟩
      · cases he

theorem shapeErrors_value (sp : PSpec) : ∀ e ∈ shapeErrors sp, e ∈ valueErrors := by
  intro e he
  unfold shapeErrors at he
  cases hs : sp.shape with
  | enum names => rw [hs] at he; simp [valueErrors] at he ⊢; simp [he]
  | fields params vals =>
    rw [hs] at he
    rcases List.mem_append.1 he with he | he
    · exact (show ∀ e ∈ paramErrors, e ∈ valueErrors by decide) e he
    · obtain ⟨x, _, hx⟩ := List.mem_flatMap.1 he
      have : ∀ k : Kind, ∀ e ∈ Kind.errors k, e ∈ valueErrors := by intro k; cases k <;> decide
      exact this _ _ hx

/-! ## Errors of content lines -/

theorem parseVals_errs : ∀ (fuel : Nat) (s : Str), Errs lineErrors (parseVals fuel s) := by
  intro fuel
  induction fuel with
  | zero => intro s; exact errs_err (by simp [lineErrors])
  | succ fuel ih =>
    intro s
    refine errs_bind ?_ fun x => ?_
    · unfold parseOneVal
      split
      · split
        · exact errs_ok _ _
        · exact errs_err (by simp [lineErrors])
      · exact errs_ok _ _
    · obtain ⟨v, r⟩ := x
      dsimp only
      split
      · exact errs_bind (ih _) fun _ => errs_ok _ _
      · exact errs_ok _ _
      · exact errs_ok _ _
      · exact errs_err (by simp [lineErrors])

theorem parseParams_errs : ∀ (fuel : Nat) (s : Str), Errs lineErrors (parseParams fuel s) := by
  intro fuel
  induction fuel with
  | zero => intro s; exact errs_err (by simp [lineErrors])
  | succ fuel ih =>
    intro s
    unfold parseParams
    split
    · exact errs_ok _ _
    · split
      · exact errs_bind (parseVals_errs _ _) fun _ => errs_bind (ih _) fun _ => errs_ok _ _
      · exact errs_err (by simp [lineErrors])
    · exact errs_err (by simp [lineErrors])

theorem parseValue_errs (s : Str) : Errs lineErrors (parseValue s) := by
  unfold parseValue
  split
  · exact errs_ok _ _
  · exact errs_ok _ _
  · exact errs_err (by simp [lineErrors])

theorem parseLine_error {s : Str} {e : Err} (h : parseLine s = .error e) : e ∈ lineErrors := by
  unfold parseLine at h
  have hres : ∀ (n r : Str), Errs lineErrors (do
      let (ps, r) ← parseParams (r.length + 1) r
      let (v, r) ← parseValue r
      .ok (Phrase.line ⟨n, ps, v⟩ r) : Res Phrase) := by
    intro n r
    exact errs_bind (parseParams_errs _ _) fun _ => errs_bind (parseValue_errs _) fun _ => errs_ok _ _
  dsimp only at h
  split at h
  · split at h
    · cases h
    · cases h; simp [lineErrors]
  · split at h
    · split at h
      · next p hp =>
        exfalso
        subst h
        obtain ⟨x, _, hp⟩ := Res.bind_eq_ok.1 hp
        obtain ⟨y, _, hp⟩ := Res.bind_eq_ok.1 hp
        cases hp
      · next e' hp => cases h; exact hres _ _ _ hp
      · cases h
    · split at h
      · next p hp =>
        exfalso
        subst h
        obtain ⟨x, _, hp⟩ := Res.bind_eq_ok.1 hp
        obtain ⟨y, _, hp⟩ := Res.bind_eq_ok.1 hp
        cases hp
      · next e' hp => cases h; exact hres _ _ _ hp
      · cases h
    · cases h; simp [lineErrors]

theorem tokenise_error {s : Str} {e : Err} (h : (tokenise s).term = .error e) : e ∈ lineErrors := by
  have : ∀ (fuel : Nat) (s : Str), (streamF fuel s).term = .error e → e ∈ lineErrors := by
    intro fuel
    induction fuel with
    | zero => intro s h; cases h
    | succ fuel ih =>
      intro s h
      unfold streamF at h
      split at h
      · exact ih _ h
      · cases h
      · next hp => cases h; exact parseLine_error hp
  exact this _ _ h

/-! ## Lines that are looked at -/

theorem looked_fields {E : Env} {ls : List Line} {p : Level} {l : Line} (h : Looked E ls p l) : p.frame ≠ .alarm ∧ ∀ f ∈ p.frame.fields, FieldWf f := by
  cases h with
  | direct _ hr hp =>
    refine ⟨hp, ?_⟩
    obtain ⟨B, hB, hp⟩ := chain_known (chain_reading hr)
    rw [hp]
    cases B with
    | cal => exact calTab_wf.field
    | comp T => obtain ⟨n, hn⟩ := hB; exact (compTab_good _ hn).1.field
    | leaf T =>
      obtain ⟨x, hx, n, hn⟩ := hB
      exact ((compTab_good _ hx).2.2 _ hn).1.field
    | alarm k => exact fun g hg => (by cases hg)
    | unknown => exact fun g hg => (by cases hg)
  | alarm _ _ _ _ _ _ hs =>
    rcases alarm_frames hs with h | h
    · rw [h]
      exact ⟨by simp, (aTab_wf _).field⟩
    · rw [h]
      exact ⟨by simp, fun g hg => (by cases hg)⟩

theorem looked_fault {E : Env} {ls : List Line} {p : Level} {l : Line} {x : Option Err} (h : Looked E ls p l) (hf : SectFault E p l x) :
    ∃ pre m r q sq, ls = pre ++ m :: r ∧ Midway E pre (q :: sq) ∧ Fault E q m x := by
  cases h with
  | direct e hr hp => exact ⟨_, _, _, _, _, e, hr, .sect hp hf⟩
  | alarm e hr hp hl ha ho hs => exact ⟨_, _, _, _, _, e, hr, .alarm hp hl ha ho hs hf⟩

/-- The errors of values are those of values. -/
theorem looked_value {E : Env} {ls : List Line} {p : Level} {l : Line} (h : Looked E ls p l) {f : SField} (hf : f ∈ p.frame.fields) {e : Err}
    (hd : f.spec.decode E l.params l.value = .err e) : e ∈ shapeErrors f.spec := PSpec.decode_errs E _ ((looked_fields h).2 f hf).spec _ _ e hd

/-- An error of a line that is looked at, by its kind. -/
theorem sectFault_err {E : Env} {ls : List Line} {p : Level} {l : Line} {e : Err} (h : Looked E ls p l) (hf : SectFault E p l (some e)) (s : Stream) (hs : s.lines = ls) : Means E s e := by
  subst hs
  cases hf with
  | again h1 h2 h3 h4 => exact ⟨p, l, _, h, h1, h2, h3, h4⟩
  | value h1 h2 h3 h4 =>
    have hv := shapeErrors_value _ e (looked_value h h1 h4)
    have : ∀ {Q : Prop}, Q ∨ (e ∈ valueErrors ∧ ∃ p l f, Looked E s.lines p l ∧ f ∈ p.frame.fields ∧ f.key = upper l.name ∧ (f.mult = .many ∨ ¬ HasLine p.own f.key) ∧
      f.spec.decode E l.params l.value = .err e) := Or.inr ⟨hv, p, l, _, h, h1, h2, h3, h4⟩
    simp only [valueErrors, List.mem_cons, List.not_mem_nil, or_false] at hv
    rcases hv with rfl | rfl | rfl | rfl | rfl | rfl | rfl | rfl | rfl | rfl | rfl | rfl <;> exact this
  | wrongEnd h1 h2 h3 => exact ⟨p, l, h, h2, Or.inl ⟨h1, h3⟩⟩
  | wrongEndUnknown h1 h2 h3 => exact ⟨p, l, h, h2, Or.inr ⟨h1, h3⟩⟩
  | missing h1 h2 h3 h4 h5 => exact ⟨p, l, _, h, h1, h2, h3, h4, h5⟩
  | rule h1 h2 h3 h4 h5 => exact ⟨p, l, _, h, h1, h2, h3, h4, h5⟩

/-- Each error means what it says. -/
theorem decodeStream_means {E : Env} {s : Stream} (ht : ∀ e, s.term = .error e → e ∈ lineErrors) {e : Err} : decodeStream E s = .err e ↔ Means E s e := by
  rw [decodeStream_err_iff]
  have hterm : (s.lines = [] ∨ ∃ p st, Midway E s.lines (p :: st) ∧ (p.frame = .alarm → s.term ≠ .done)) → s.term.err = e → Means E s e := by
    intro h1 h2
    cases hs : s.term with
    | done =>
      rw [hs] at h2
      cases h2
      refine Or.inl ⟨hs, ?_⟩
      rcases h1 with h1 | ⟨p, st, h1, h3⟩
      · exact Or.inl h1
      · exact Or.inr ⟨p, st, h1, fun h => h3 h hs⟩
    | error e' =>
      have hm := ht e' hs
      rw [hs] at h2
      change e' = e at h2
      subst h2
      have : ∀ {Q : Prop}, (e' ∈ lineErrors ∧ s.term = .error e' ∧ (s.lines = [] ∨ ∃ st, Midway E s.lines st)) ∨ Q := by
        refine Or.inl ⟨hm, hs, ?_⟩
        rcases h1 with h1 | ⟨p, st, h1, _⟩
        · exact Or.inl h1
        · exact Or.inr ⟨_, h1⟩
      simp only [lineErrors, List.mem_cons, List.not_mem_nil, or_false] at hm
      rcases hm with rfl | rfl | rfl | rfl | rfl | rfl <;> exact this
  constructor
  · rintro (⟨h1, h2⟩ | ⟨l, r, h1, h2, rfl⟩ | ⟨p, st, h1, h2, h3⟩ | ⟨pre, l, r, p, st, h1, h2, h3⟩)
    · exact hterm (Or.inl h1) h2
    · exact ⟨l, r, h1, h2⟩
    · exact hterm (Or.inr ⟨p, st, h1, h3⟩) h2
    · cases h3 with
      | sect hp hf => exact sectFault_err (.direct h1 h2 hp) hf s rfl
      | block hp hb => exact ⟨p, l, ⟨pre, r, st, h1, h2, hp⟩, Or.inl hb⟩
      | twoActions hp hb ha => exact ⟨p, l, ⟨pre, r, st, h1, h2, hp⟩, Or.inr ⟨hb, _, ha⟩⟩
      | noAction hp hb ha => exact ⟨p, l, ⟨pre, r, st, h1, h2, hp⟩, hb, ha⟩
      | alarm hp hb ha ho hs hf => exact sectFault_err (.alarm h1 h2 hp hb ha ho hs) hf s rfl
      | unclosed hp hb ha hs => exact Or.inr ⟨p, l, _, _, ⟨pre, r, st, h1, h2, hp⟩, hb, ha, hs⟩
  · intro h
    have hsect : ∀ {p : Level} {l : Line}, Looked E s.lines p l → SectFault E p l (some e) →
        ∃ pre l r p st, s.lines = pre ++ l :: r ∧ Midway E pre (p :: st) ∧ Fault E p l (some e) := fun h1 h2 => looked_fault h1 h2
    have hrest : ∀ {Q : Prop}, ((e ∈ lineErrors ∧ s.term = .error e ∧ (s.lines = [] ∨ ∃ st, Midway E s.lines st)) ∨
        (e ∈ valueErrors ∧ ∃ p l f, Looked E s.lines p l ∧ f ∈ p.frame.fields ∧ f.key = upper l.name ∧ (f.mult = .many ∨ ¬ HasLine p.own f.key) ∧
          f.spec.decode E l.params l.value = .err e)) → (s.lines = [] ∧ s.term.err = e) ∨ Q ∨ (∃ p st, Midway E s.lines (p :: st) ∧ s.term.err = e ∧ (p.frame = .alarm → s.term ≠ .done)) ∨
        ∃ pre l r p st, s.lines = pre ++ l :: r ∧ Midway E pre (p :: st) ∧ Fault E p l (some e) := by
      rintro Q (⟨_, h1, h2⟩ | ⟨_, p, l, f, h1, h2, h3, h4, h5⟩)
      · have he : s.term.err = e := by rw [h1]; rfl
        rcases h2 with h2 | ⟨st, h2⟩
        · exact Or.inl ⟨h2, he⟩
        · cases st with
          | nil => exact absurd rfl (midway_ne h2).2
          | cons p st => exact Or.inr (Or.inr (Or.inl ⟨p, st, h2, he, fun _ h => by rw [h1] at h; cases h⟩))
      · exact Or.inr (Or.inr (Or.inr (hsect h1 (.value h2 h3 h4 h5))))
    cases e
    case invalidCalendar => obtain ⟨l, r, h1, h2⟩ := h; exact Or.inr (Or.inl ⟨l, r, h1, h2, rfl⟩)
    case unexpectedEOF =>
      rcases h with ⟨h1, h2 | ⟨p, st, h2, h3⟩⟩ | ⟨p, l, a, st, ⟨pre, r, sq, h1, h2, h3⟩, h4, h5, h6⟩
      · exact Or.inl ⟨h2, by rw [h1]; rfl⟩
      · exact Or.inr (Or.inr (Or.inl ⟨p, st, h2, by rw [h1]; rfl, fun h => absurd h h3⟩))
      · exact Or.inr (Or.inr (Or.inr ⟨pre, l, r, p, sq, h1, h2, .unclosed h3 h4 h5 h6⟩))
    case multiple => obtain ⟨p, l, f, h1, h2, h3, h4, h5⟩ := h; exact Or.inr (Or.inr (Or.inr (hsect h1 (.again h2 h3 h4 h5))))
    case missingRequired => obtain ⟨p, l, f, h1, h2, h3, h4, h5, h6⟩ := h; exact Or.inr (Or.inr (Or.inr (hsect h1 (.missing h2 h3 h4 h5 h6))))
    case requirementNotMet => obtain ⟨p, l, f, h1, h2, h3, h4, h5, h6⟩ := h; exact Or.inr (Or.inr (Or.inr (hsect h1 (.rule h2 h3 h4 h5 h6))))
    case invalidEnd =>
      obtain ⟨p, l, h1, h2, h3 | h3⟩ := h
      · exact Or.inr (Or.inr (Or.inr (hsect h1 (.wrongEnd h3.1 h2 h3.2))))
      · exact Or.inr (Or.inr (Or.inr (hsect h1 (.wrongEndUnknown h3.1 h2 h3.2))))
    case invalidStructure =>
      obtain ⟨p, l, ⟨pre, r, sq, h1, h2, h3⟩, h4 | ⟨h4, a, h5⟩⟩ := h
      · exact Or.inr (Or.inr (Or.inr ⟨pre, l, r, p, sq, h1, h2, .block h3 h4⟩))
      · exact Or.inr (Or.inr (Or.inr ⟨pre, l, r, p, sq, h1, h2, .twoActions h3 h4 h5⟩))
    case missingAlarmAction =>
      obtain ⟨p, l, ⟨pre, r, sq, h1, h2, h3⟩, h4, h5⟩ := h
      exact Or.inr (Or.inr (Or.inr ⟨pre, l, r, p, sq, h1, h2, .noAction h3 h4 h5⟩))
    all_goals exact hrest h

end Ics
