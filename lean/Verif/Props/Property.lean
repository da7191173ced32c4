import Verif.PropertyLemmas
import Verif.Props.Params
/-!
# C32 parameters of a property, C33 value alternatives
-/

namespace Ics.Props

open Spec

/-- All properties of the tables. -/
def allProps : List PSpec :=
  [propVersion, propProductID, propDateTimeStamp, propUID, propDateTimeStart, propClass, propCreated, propDescription, propGeo,
   propLastModified, propLocation, propOrganizer, propPriority, propSequence, propStatus, propSummary, propTimeTransparency, propURL,
   propRecurrenceID, propRecurrenceRule, propDateTimeEnd, propDuration, propAttachment, propAttendee, propCategories, propComment,
   propContact, propExceptionDateTime, propRequestStatus, propRelatedTo, propResources, propRecurrenceDateTimes, propCompleted,
   propPercentComplete, propDue, propFreeBusy, propTimezoneID, propTimezoneURL, propTimezoneOffsetTo, propTimezoneOffsetFrom,
   propTimezoneName, propTrigger, propRepeat, propAlarmAgent, propAlarmStatus, propLastTriggered, propAcknowledged, propProximity,
   propGeoLocation, propDefaultAlarm, propURI]

theorem allProps_wf : ∀ sp ∈ allProps, sp.wf = true := by decide

/-! ## C32 -/

/-- The parameter name is one the property knows: in its table, or VALUE if there are alternatives. -/
def Knows (sp : PSpec) (n : Str) : Prop :=
  match sp.shape with
  | .enum _ => False
  | .fields params vals => n ∈ params.map (·.name) ∨ (n = c!"VALUE" ∧ 2 ≤ vals.length)

/-- A step keeps what was set. -/
theorem step_mono {E : Env} {params : List PDef} {vals : List (Str × Kind)} {st st' : PState} {p : Str × List PVal}
    (hs : st.step E params vals p = .ok st') :
    (∀ i, (st.ps.getD i none).isSome = true → (st'.ps.getD i none).isSome = true) ∧ (st.vtype.isSome = true → st'.vtype.isSome = true) ∧
      st'.ps.length = st.ps.length := by
  unfold PState.step at hs
  dsimp only at hs
  split at hs
  · next i hi =>
    split at hs
    · cases hs
    · cases hd : (params.getD i ⟨[], .range⟩).kind.decode E p.2 with
      | ok v =>
        rw [hd] at hs
        simp only [Res.ok_bind, Res.pure_eq] at hs
        injection hs with hs
        subst hs
        refine ⟨?_, fun h => h, by simp⟩
        intro j hj
        dsimp only
        rw [List.getD_eq_getElem?_getD, List.getElem?_set] at *
        split
        · next e =>
          subst e
          split
          · rfl
          · next hl =>
            rw [List.getElem?_eq_none (by omega)] at hj
            simp at hj
        · exact hj
      | err e => rw [hd] at hs; cases hs
      | panic => rw [hd] at hs; cases hs
  · split at hs
    · split at hs
      · split at hs
        · cases hs
        · split at hs
          · injection hs with hs; subst hs; exact ⟨fun _ h => h, fun _ => rfl, rfl⟩
          · cases hs
      · cases hs
    · injection hs with hs; subst hs; exact ⟨fun _ h => h, fun h => h, rfl⟩

theorem steps_mono {E : Env} {params : List PDef} {vals : List (Str × Kind)} : ∀ {ps : List (Str × List PVal)} {st st' : PState},
    PState.steps E params vals st ps = .ok st' →
    (∀ i, (st.ps.getD i none).isSome = true → (st'.ps.getD i none).isSome = true) ∧ (st.vtype.isSome = true → st'.vtype.isSome = true) ∧
      st'.ps.length = st.ps.length := by
  intro ps
  induction ps with
  | nil => intro st st' h; injection h with h; subst h; exact ⟨fun _ h => h, fun h => h, rfl⟩
  | cons p ps ih =>
    intro st st' h
    rw [PState.steps] at h
    obtain ⟨s1, h1, h2⟩ := Res.bind_eq_ok.1 h
    obtain ⟨a1, a2, a3⟩ := step_mono h1
    obtain ⟨b1, b2, b3⟩ := ih h2
    exact ⟨fun i hi => b1 i (a1 i hi), fun hv => b2 (a2 hv), b3.trans a3⟩

theorem step_sets {E : Env} {params : List PDef} {vals : List (Str × Kind)} {st st' : PState} {p : Str × List PVal}
    (hl : st.ps.length = params.length) (hs : st.step E params vals p = .ok st') :
    (∀ i, paramIdx (upper p.1) params = some i → (st.ps.getD i none).isSome = false ∧ (st'.ps.getD i none).isSome = true) ∧
    (paramIdx (upper p.1) params = none → upper p.1 = c!"VALUE" → 2 ≤ vals.length → st.vtype.isSome = false ∧ st'.vtype.isSome = true) := by
  unfold PState.step at hs
  dsimp only at hs
  split at hs
  · next i hi =>
    refine ⟨?_, fun h => by rw [h] at hi; cases hi⟩
    intro j hj
    rw [hi] at hj
    injection hj with hj
    subst hj
    split at hs
    · cases hs
    · next hn =>
      refine ⟨by simpa using hn, ?_⟩
      cases hd : (params.getD i ⟨[], .range⟩).kind.decode E p.2 with
      | ok v =>
        rw [hd] at hs
        simp only [Res.ok_bind, Res.pure_eq] at hs
        injection hs with hs
        subst hs
        obtain ⟨d, hd, _⟩ := paramIdx_some hi
        have : i < st.ps.length := by
          rw [hl]
          rcases Nat.lt_or_ge i params.length with h | h
          · exact h
          · rw [List.getElem?_eq_none h] at hd; cases hd
        simp [this]
      | err e => rw [hd] at hs; cases hs
      | panic => rw [hd] at hs; cases hs
  · next hi =>
    refine ⟨fun i h => (by rw [h] at hi; cases hi), fun _ hv h2 => ?_⟩
    rw [if_pos ⟨hv, h2⟩] at hs
    split at hs
    · split at hs
      · cases hs
      · next hn =>
        refine ⟨by simpa using hn, ?_⟩
        split at hs
        · injection hs with hs; subst hs; rfl
        · cases hs
    · cases hs

/-- C32.  A known parameter that occurs twice makes decoding fail, wherever the two stand and however they are written. -/
theorem C32_no_repeated_parameter (E : Env) (sp : PSpec) (a b c : List (Str × List PVal)) (p q : Str × List PVal) (value : Str)
    (hk : Knows sp (upper p.1)) (hq : upper q.1 = upper p.1) (r : PropVal) :
    sp.decode E (a ++ p :: (b ++ q :: c)) value ≠ .ok r := by
  intro h
  unfold PSpec.decode at h
  unfold Knows at hk
  split at h
  · next hs => rw [hs] at hk; exact hk
  · next params vals hs =>
    rw [hs] at hk
    dsimp only at hk
    obtain ⟨st, h1, _⟩ := Res.bind_eq_ok.1 h
    rw [PState.steps_append] at h1
    obtain ⟨s1, h2, h3⟩ := Res.bind_eq_ok.1 h1
    rw [PState.steps] at h3
    obtain ⟨s2, h4, h5⟩ := Res.bind_eq_ok.1 h3
    rw [PState.steps_append] at h5
    obtain ⟨s3, h6, h7⟩ := Res.bind_eq_ok.1 h5
    rw [PState.steps] at h7
    obtain ⟨s4, h8, _⟩ := Res.bind_eq_ok.1 h7
    have l1 : s1.ps.length = params.length := by rw [(steps_mono h2).2.2]; simp
    have l2 : s2.ps.length = params.length := by rw [(step_mono h4).2.2, l1]
    have l3 : s3.ps.length = params.length := by rw [(steps_mono h6).2.2, l2]
    have m := steps_mono h6
    have a1 := step_sets l1 h4
    have a2 := step_sets l3 h8
    rw [hq] at a2
    cases hi : paramIdx (upper p.1) params with
    | some i =>
      have := m.1 i (a1.1 i hi).2
      rw [(a2.1 i hi).1] at this
      cases this
    | none =>
      rcases hk with hk | ⟨hk, hl⟩
      · exact paramIdx_none.1 hi hk
      · have := m.2.1 (a1.2 hi hk hl).2
        rw [(a2.2 hi hk hl).1] at this
        cases this

/-- C32.  The error says so: if the line can be read without the second one, the error is that the parameter is repeated, whatever comes behind it (a second VALUE must have a single
value). -/
theorem C32_repeated_error (E : Env) (sp : PSpec) (a b c : List (Str × List PVal)) (p q : Str × List PVal) (value : Str) (r : PropVal)
    (hk : Knows sp (upper p.1)) (hq : upper q.1 = upper p.1) (h1 : q.2.length = 1) (h : sp.decode E (a ++ p :: b) value = .ok r) :
    sp.decode E (a ++ p :: (b ++ q :: c)) value = .err .duplicateParam := by
  unfold PSpec.decode at h ⊢
  unfold Knows at hk
  split at h
  · next hs => rw [hs] at hk; exact hk.elim
  · next params vals hs =>
    rw [hs] at hk
    dsimp only at hk ⊢
    obtain ⟨st, h2, _⟩ := Res.bind_eq_ok.1 h
    rw [show a ++ p :: (b ++ q :: c) = (a ++ p :: b) ++ q :: c by simp, PState.steps_append, h2]
    rw [PState.steps_append] at h2
    obtain ⟨s1, h2, h3⟩ := Res.bind_eq_ok.1 h2
    rw [PState.steps] at h3
    obtain ⟨s2, h4, h5⟩ := Res.bind_eq_ok.1 h3
    have l1 : s1.ps.length = params.length := by rw [(steps_mono h2).2.2]; simp
    have m := steps_mono h5
    have a1 := step_sets l1 h4
    have key : st.step E params vals q = .err .duplicateParam := by
      unfold PState.step
      dsimp only
      rw [hq]
      cases hi : paramIdx (upper p.1) params with
      | some i => exact if_pos (m.1 i (a1.1 i hi).2)
      | none =>
        dsimp only
        rcases hk with hk | ⟨hk, hl⟩
        · exact absurd hk (paramIdx_none.1 hi)
        · rw [if_pos ⟨hk, hl⟩]
          obtain ⟨v, hv⟩ := List.length_eq_one_iff.1 h1
          rw [hv]
          exact if_pos (m.2.1 (a1.2 hi hk hl).2)
    show (((PState.steps E params vals st (q :: c))).bind _) = _
    rw [PState.steps, key]
    rfl

example : propAttachment.decode sampleEnv [(c!"Value", [⟨false, c!"URI"⟩]), (c!"X", [⟨true, []⟩]), (c!"VALUE", [⟨false, c!"URI"⟩])] c!"mailto:a" = .err .duplicateParam := by
  decide

example : Knows propOrganizer (upper c!"cn") ∧ Knows propAttachment (upper c!"Value") := by
  constructor
  · exact Or.inl (by decide)
  · exact Or.inr (by decide)

example : propOrganizer.decode sampleEnv [(c!"cn", [⟨false, c!"Ann"⟩])] c!"mailto:a" =
    .ok (.fields [some (.str c!"Ann"), none, none, none] [some (.calAddress ⟨c!"mailto:a"⟩)]) := by decide

example : propOrganizer.decode sampleEnv [(c!"cn", [⟨false, c!"Ann"⟩]), (c!"X", [⟨true, []⟩]), (c!"CN", [⟨false, c!"Bob"⟩])] c!"mailto:a" =
    .err .duplicateParam := by decide

/-- The value decoders look at two other parameters only. -/
theorem Val.decode_congr {E : Env} {op op' : Str → Option Str} (h1 : op c!"TZID" = op' c!"TZID")
    (h2 : op c!"ENCODING" = op' c!"ENCODING") (k : Kind) (s : Str) : Val.decode E op k s = Val.decode E op' k s := by
  cases k <;> simp only [Val.decode, h1, h2]

theorem step_unknown {E : Env} {params : List PDef} {vals : List (Str × Kind)} {n : Str} {vs : List PVal}
    (hn : paramIdx (upper n) params = none) (hv : ¬ (upper n = c!"VALUE" ∧ 2 ≤ vals.length)) (st : PState) :
    st.step E params vals (n, vs) = .ok { st with op := (upper n, join [','] (vs.map (·.data))) :: st.op } := by
  unfold PState.step
  simp only [hn, if_neg hv]

/-- Two states that differ in other parameters than TZID and ENCODING only. -/
structure SameState (s t : PState) : Prop where
  ps : s.ps = t.ps
  vt : s.vtype = t.vtype
  tz : opGet s.op c!"TZID" = opGet t.op c!"TZID"
  en : opGet s.op c!"ENCODING" = opGet t.op c!"ENCODING"

theorem opGet_cons (n v : Str) (op : List (Str × Str)) (m : Str) : opGet ((n, v) :: op) m = if n = m then some v else opGet op m := by
  unfold opGet
  rw [List.find?_cons]
  by_cases h : n = m
  · subst h; simp
  · have : (n == m) = false := by simp [h]
    simp [this, h]

theorem step_same {E : Env} {params : List PDef} {vals : List (Str × Kind)} {s t : PState} (h : SameState s t) (p : Str × List PVal) :
    (∃ s' t', s.step E params vals p = .ok s' ∧ t.step E params vals p = .ok t' ∧ SameState s' t') ∨
    (∃ e, s.step E params vals p = .err e ∧ t.step E params vals p = .err e) ∨
    (s.step E params vals p = .panic ∧ t.step E params vals p = .panic) := by
  obtain ⟨sp, sv, so⟩ := s
  obtain ⟨tp, tv, to⟩ := t
  obtain ⟨h1, h2, h3, h4⟩ := h
  dsimp only at h1 h2 h3 h4
  subst h1 h2
  unfold PState.step
  dsimp only
  split
  · next i hi =>
    split
    · exact Or.inr (Or.inl ⟨_, rfl, rfl⟩)
    · cases (params.getD i ⟨[], .range⟩).kind.decode E p.2 with
      | ok v => exact Or.inl ⟨_, _, rfl, rfl, rfl, rfl, h3, h4⟩
      | err e => exact Or.inr (Or.inl ⟨e, rfl, rfl⟩)
      | panic => exact Or.inr (Or.inr ⟨rfl, rfl⟩)
  · split
    · split
      · split
        · exact Or.inr (Or.inl ⟨_, rfl, rfl⟩)
        · split
          · exact Or.inl ⟨_, _, rfl, rfl, rfl, rfl, h3, h4⟩
          · exact Or.inr (Or.inl ⟨_, rfl, rfl⟩)
      · exact Or.inr (Or.inl ⟨_, rfl, rfl⟩)
    · refine Or.inl ⟨_, _, rfl, rfl, rfl, rfl, ?_, ?_⟩
      · dsimp only; rw [opGet_cons, opGet_cons, h3]
      · dsimp only; rw [opGet_cons, opGet_cons, h4]

theorem steps_same {E : Env} {params : List PDef} {vals : List (Str × Kind)} : ∀ (ps : List (Str × List PVal)) {s t : PState},
    SameState s t →
    (∃ s' t', PState.steps E params vals s ps = .ok s' ∧ PState.steps E params vals t ps = .ok t' ∧ SameState s' t') ∨
    (∃ e, PState.steps E params vals s ps = .err e ∧ PState.steps E params vals t ps = .err e) ∨
    (PState.steps E params vals s ps = .panic ∧ PState.steps E params vals t ps = .panic) := by
  intro ps
  induction ps with
  | nil => intro s t h; exact Or.inl ⟨s, t, rfl, rfl, h⟩
  | cons p ps ih =>
    intro s t h
    rw [PState.steps, PState.steps]
    rcases step_same (E := E) (params := params) (vals := vals) h p with ⟨s', t', h1, h2, h3⟩ | ⟨e, h1, h2⟩ | ⟨h1, h2⟩
    · rw [h1, h2]; exact ih h3
    · rw [h1, h2]; exact Or.inr (Or.inl ⟨e, rfl, rfl⟩)
    · rw [h1, h2]; exact Or.inr (Or.inr ⟨rfl, rfl⟩)

/-- C32.  A parameter the property does not know makes no difference at all, unless it is TZID or ENCODING, which say how to read the
value. -/
theorem C32_unknown_parameters_ignored (E : Env) (sp : PSpec) (a b : List (Str × List PVal)) (n : Str) (vs : List PVal) (value : Str)
    (hk : ¬ Knows sp (upper n)) (hn : upper n ≠ c!"TZID" ∧ upper n ≠ c!"ENCODING") :
    sp.decode E (a ++ (n, vs) :: b) value = sp.decode E (a ++ b) value := by
  unfold PSpec.decode
  split
  · rfl
  · next params vals hs =>
    unfold Knows at hk
    rw [hs] at hk
    dsimp only at hk
    rw [not_or] at hk
    rw [PState.steps_append, PState.steps_append]
    cases PState.steps E params vals _ a with
    | err e => rfl
    | panic => rfl
    | ok st =>
      show (PState.steps E params vals st ((n, vs) :: b)) >>= _ = (PState.steps E params vals st b) >>= _
      rw [PState.steps, step_unknown (paramIdx_none.2 hk.1) hk.2]
      simp only [Res.ok_bind]
      have hss : SameState { st with op := (upper n, join [','] (vs.map (·.data))) :: st.op } st := by
        refine ⟨rfl, rfl, ?_, ?_⟩
        · exact (opGet_cons _ _ _ _).trans (if_neg hn.1)
        · exact (opGet_cons _ _ _ _).trans (if_neg hn.2)
      rcases steps_same (E := E) (params := params) (vals := vals) b hss with ⟨s', t', h1, h2, h3⟩ | ⟨e, h1, h2⟩ | ⟨h1, h2⟩
      · rw [h1, h2]
        simp only [Res.ok_bind]
        rw [h3.ps, h3.vt, Val.decode_congr h3.tz h3.en]
      · rw [h1, h2]
      · rw [h1, h2]

example : ¬ Knows propDateTimeStart (upper c!"x-foo") ∧ ¬ Knows propUID (upper c!"VALUE") := by
  simp only [Knows, propDateTimeStart, propUID]
  decide

/-- C32.  The exception is real: TZID decides how a time is read. -/
theorem C32_tzid_matters :
    ¬ Knows propDateTimeStart c!"TZID" ∧
    (propDateTimeStart.decode sampleEnv [(c!"TZID", [⟨false, c!"Nowhere"⟩])] c!"20200101T000000").isOk = false ∧
    (propDateTimeStart.decode sampleEnv [] c!"20200101T000000").isOk = true := by
  refine ⟨?_, ?_, ?_⟩
  · simp only [Knows, propDateTimeStart]; decide
  · decide +kernel
  · decide +kernel

/-! ## C33 -/

/-- The alternative that VALUE names: number `i` of `vals` is chosen by the parameters `ps`. -/
def Chosen (vals : List (Str × Kind)) (ps : List (Str × List PVal)) (i : Nat) : Prop :=
  ((∀ p ∈ ps, upper p.1 ≠ c!"VALUE") ∧ i = 0) ∨
  ∃ a p b t k, ps = a ++ p :: b ∧ upper p.1 = c!"VALUE" ∧ (∀ q ∈ a ++ b, upper q.1 ≠ c!"VALUE") ∧ p.2 = [t] ∧
    vals[i]? = some (upper t.data, k)

theorem step_vtype {E : Env} {params : List PDef} {vals : List (Str × Kind)} (hl : 2 ≤ vals.length) (hw : FieldsWf params vals)
    {st st' : PState} {p : Str × List PVal} (hs : st.step E params vals p = .ok st') :
    (upper p.1 ≠ c!"VALUE" ∧ st'.vtype = st.vtype) ∨
    (upper p.1 = c!"VALUE" ∧ st.vtype = none ∧ ∃ t i k, p.2 = [t] ∧ st'.vtype = some i ∧ vals[i]? = some (upper t.data, k)) := by
  have hv : paramIdx c!"VALUE" params = none := by
    rw [paramIdx_none]
    intro hm
    obtain ⟨d, hd, hn⟩ := List.mem_map.1 hm
    exact (hw.known d hd).nv hn
  unfold PState.step at hs
  dsimp only at hs
  by_cases hn : upper p.1 = c!"VALUE"
  · rw [hn] at hs
    simp only [hv, true_and, hl, if_true] at hs
    split at hs
    · next v he =>
      split at hs
      · cases hs
      · next hnn =>
        split at hs
        · next i hi =>
          injection hs with hs
          subst hs
          have hg := indexOf_some _ _ _ hi
          rw [List.getElem?_map] at hg
          obtain ⟨x, hx, hx2⟩ := Option.map_eq_some_iff.1 hg
          obtain ⟨x1, k⟩ := x
          dsimp only at hx2
          subst hx2
          exact Or.inr ⟨hn, by simpa using hnn, v, i, k, he, rfl, hx⟩
        · cases hs
    · cases hs
  · left
    refine ⟨hn, ?_⟩
    split at hs
    · split at hs
      · cases hs
      · next i _ _ =>
        cases hd : (params.getD i ⟨[], .range⟩).kind.decode E p.2 with
        | ok v => rw [hd] at hs; simp only [Res.ok_bind, Res.pure_eq] at hs; injection hs with hs; subst hs; rfl
        | err e => rw [hd] at hs; cases hs
        | panic => rw [hd] at hs; cases hs
    · rw [if_neg (fun h => hn h.1)] at hs
      injection hs with hs
      subst hs
      rfl

theorem steps_vtype {E : Env} {params : List PDef} {vals : List (Str × Kind)} (hl : 2 ≤ vals.length) (hw : FieldsWf params vals) :
    ∀ {ps : List (Str × List PVal)} {st st' : PState}, PState.steps E params vals st ps = .ok st' →
      ((∀ p ∈ ps, upper p.1 ≠ c!"VALUE") ∧ st'.vtype = st.vtype) ∨
      (st.vtype = none ∧ ∃ i, st'.vtype = some i ∧ ∃ a p b t k, ps = a ++ p :: b ∧ upper p.1 = c!"VALUE" ∧
        (∀ q ∈ a ++ b, upper q.1 ≠ c!"VALUE") ∧ p.2 = [t] ∧ vals[i]? = some (upper t.data, k)) := by
  intro ps
  induction ps with
  | nil => intro st st' h; injection h with h; subst h; exact Or.inl ⟨by simp, rfl⟩
  | cons p ps ih =>
    intro st st' h
    rw [PState.steps] at h
    obtain ⟨s1, h1, h2⟩ := Res.bind_eq_ok.1 h
    rcases step_vtype hl hw h1 with ⟨n1, e1⟩ | ⟨n1, e0, t, i, k, e1, e2, e3⟩
    · rcases ih h2 with ⟨n2, e2⟩ | ⟨e2, i, e3, a, q, b, t, k, e4, e5, e6, e7, e8⟩
      · left
        refine ⟨?_, e2.trans e1⟩
        intro x hx
        rcases List.mem_cons.1 hx with rfl | hx
        · exact n1
        · exact n2 x hx
      · right
        refine ⟨e1 ▸ e2, i, e3, p :: a, q, b, t, k, by rw [e4]; rfl, e5, ?_, e7, e8⟩
        intro x hx
        rcases List.mem_cons.1 hx with rfl | hx
        · exact n1
        · exact e6 x hx
    · rcases ih h2 with ⟨n2, e4⟩ | ⟨e4, _⟩
      · right
        exact ⟨e0, i, e4.trans e2, [], p, ps, t, k, rfl, n1, by simpa using n2, e1, e3⟩
      · rw [e2] at e4; cases e4

/-- C33.  After decoding a property with alternatives, exactly the alternative chosen by VALUE is set, and it has that type. -/
theorem C33_decode_one_alternative (E : Env) (sp : PSpec) (hsp : sp ∈ allProps) (params : List PDef) (vals : List (Str × Kind))
    (hs : sp.shape = .fields params vals) (h2 : 2 ≤ vals.length) (ps : List (Str × List PVal)) (value : Str) (r : PropVal)
    (h : sp.decode E ps value = .ok r) :
    ∃ qs vs i v k n, r = .fields qs vs ∧ Chosen vals ps i ∧ vs.length = vals.length ∧ vs[i]? = some (some v) ∧
      (∀ j, j ≠ i → j < vs.length → vs[j]? = some none) ∧ vals[i]? = some (n, k) ∧ v.kind = k := by
  obtain ⟨n, sh⟩ := sp
  dsimp only at hs
  subst hs
  have hw := PSpec.wf_fields (allProps_wf _ hsp)
  unfold PSpec.decode at h
  dsimp only at h
  obtain ⟨st, h1, h3⟩ := Res.bind_eq_ok.1 h
  obtain ⟨v, h4, h5⟩ := Res.bind_eq_ok.1 h3
  injection h5 with h5
  subst h5
  have hc : Chosen vals ps (st.vtype.getD 0) ∧ st.vtype.getD 0 < vals.length := by
    rcases steps_vtype h2 hw h1 with ⟨n2, e2⟩ | ⟨_, i, e3, a, q, b, t, k, e4, e5, e6, e7, e8⟩
    · dsimp only at e2
      rw [e2]
      exact ⟨Or.inl ⟨n2, rfl⟩, by simp; omega⟩
    · rw [e3]
      refine ⟨Or.inr ⟨a, q, b, t, k, e4, e5, e6, e7, e8⟩, ?_⟩
      rcases Nat.lt_or_ge i vals.length with h | h
      · exact h
      · rw [List.getElem?_eq_none h] at e8; cases e8
  obtain ⟨hc1, hc2⟩ := hc
  have hk := Val.decode_kind h4
  rw [List.getD_eq_getElem?_getD, List.getElem?_eq_getElem hc2, Option.getD_some] at hk
  refine ⟨_, _, st.vtype.getD 0, v, _, _, rfl, hc1, by simp [oneOf], ?_, ?_, List.getElem?_eq_getElem hc2, hk⟩
  · simp [oneOf, hc2]
  · intro j hj hl
    have hl2 : j < vals.length := by simpa [oneOf] using hl
    simp [oneOf, hl2, Ne.symm hj]

example : propAttachment ∈ allProps ∧ (propAttachment.decode sampleEnv [(c!"encoding", [⟨false, c!"BASE64"⟩]), (c!"value", [⟨false, c!"Binary"⟩])] c!"AAAA") =
    .ok (.fields [none] [none, some (.binary [0, 0, 0])]) := by decide +kernel

/-- C33.  Validation accepts a property with alternatives exactly if its parameters and values are valid and exactly one is set. -/
theorem C33_valid_one_alternative (n : Str) (params : List PDef) (vals : List (Str × Kind)) (h2 : 2 ≤ vals.length)
    (ps : List (Option ParamVal)) (vs : List (Option Val)) :
    (PSpec.mk n (.fields params vals)).valid (.fields ps vs) = .ok () ↔
      validParams params ps = .ok () ∧ (∀ v, some v ∈ vs → v.valid = .ok ()) ∧
      ∃ a v b, vs = a ++ some v :: b ∧ ∀ x ∈ a ++ b, x = none := by
  have hv : ∀ vs : List (Option Val), validVals vs = .ok () ↔ ∀ v, some v ∈ vs → v.valid = .ok () := by
    intro vs
    induction vs with
    | nil => simp [validVals]
    | cons x vs ih =>
      cases x with
      | none => simp only [validVals, Res.ok_bind, ih]; simp
      | some w =>
        constructor
        · intro h
          simp only [validVals] at h
          obtain ⟨u, h1, h2⟩ := Res.bind_eq_ok.1 h
          intro v hm
          rcases List.mem_cons.1 hm with e | hm
          · injection e with e; subst e; exact h1
          · exact ih.1 h2 v hm
        · intro h
          have h1 := h w List.mem_cons_self
          simp only [validVals, h1, Res.ok_bind]
          exact ih.2 (fun v hm => h v (List.mem_cons_of_mem _ hm))
  have hf : ∀ vs : List (Option Val), (vs.filter (·.isSome)).length = 1 ↔ ∃ a v b, vs = a ++ some v :: b ∧ ∀ x ∈ a ++ b, x = none := by
    intro vs
    induction vs with
    | nil => simp
    | cons x vs ih =>
      cases x with
      | none =>
        simp only [List.filter_cons, Option.isSome_none, Bool.false_eq_true, if_false, ih]
        constructor
        · rintro ⟨a, v, b, rfl, h⟩
          exact ⟨none :: a, v, b, rfl, by simpa using h⟩
        · rintro ⟨a, v, b, h1, h2⟩
          cases a with
          | nil => simp at h1
          | cons y a =>
            simp only [List.cons_append, List.cons.injEq] at h1
            exact ⟨a, v, b, h1.2, fun x hx => h2 x (by simp at hx ⊢; exact Or.inr hx)⟩
      | some w =>
        simp only [List.filter_cons, Option.isSome_some, if_true, List.length_cons, Nat.add_eq_right, List.length_eq_zero_iff,
          List.filter_eq_nil_iff]
        constructor
        · intro h
          refine ⟨[], w, vs, rfl, ?_⟩
          intro x hx
          have := h x (by simpa using hx)
          simpa using this
        · rintro ⟨a, v, b, h1, h2⟩ x hx
          cases a with
          | nil =>
            simp only [List.nil_append, List.cons.injEq] at h1
            rw [h2 x (by simpa [← h1.2] using hx)]
            simp
          | cons y a =>
            simp only [List.cons_append, List.cons.injEq] at h1
            have := h2 y (by simp)
            rw [← h1.1] at this
            cases this
  unfold PSpec.valid
  dsimp only
  rw [if_neg (by omega), ← hf vs, ← hv vs]
  constructor
  · intro h
    obtain ⟨_, h1, h⟩ := Res.bind_eq_ok.1 h
    obtain ⟨_, h3, h⟩ := Res.bind_eq_ok.1 h
    exact ⟨h1, h3, by simpa [Res.guard_eq_ok] using h⟩
  · rintro ⟨h1, h3, h4⟩
    rw [h1, h3]
    simp [Res.guard, h4]

example : propDateTimeStart.valid (.fields [] [none, some (.date ⟨86400, 0, .utc⟩)]) = .ok () ∧
    propDateTimeStart.valid (.fields [] [none, none]) = .err .invalidValue := by decide

end Ics.Props
