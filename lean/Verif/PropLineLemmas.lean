import Verif.Spec.PropertyLine
import Verif.StructureLemmas
import Verif.ValidLemmas
import Verif.MeaningLemmas
/-!
# A property line is read as Spec/PropertyLine says
-/

namespace Ics

open Spec

theorem valuesOf_cons (p : Str × List PVal) (ps : List (Str × List PVal)) (n : Str) :
    valuesOf (p :: ps) n = if upper p.1 = n then p.2 :: valuesOf ps n else valuesOf ps n := by
  unfold valuesOf
  by_cases h : upper p.1 = n <;> simp [h]

/-- As `ParamReads`, from a state in which the parameter is `q0`. -/
def GParam (E : Env) (k : PKind) (q0 : Option ParamVal) (vss : List (List PVal)) (q : Option ParamVal) : Prop :=
  match vss with
  | [] => q = q0
  | [vs] => q0 = none ∧ ∃ v, k.decode E vs = .ok v ∧ q = some v
  | _ => False

/-- As `UsesType`, from a state. -/
def GAlt (vals : List (Str × Kind)) (v0 : Option Nat) (vss : List (List PVal)) (vt : Option Nat) : Prop :=
  if vals.length < 2 then vt = v0
  else match vss with
    | [] => vt = v0
    | [[t]] => v0 = none ∧ ∃ i, vt = some i ∧ indexOf (upper t.data) (vals.map (·.1)) = some i
    | _ => False

structure GState (E : Env) (params : List PDef) (vals : List (Str × Kind)) (st : PState) (ps : List (Str × List PVal))
    (qs : List (Option ParamVal)) (vt : Option Nat) : Prop where
  len : qs.length = params.length
  par : ∀ (i : Nat) (d : PDef), params[i]? = some d → GParam E d.kind (st.ps.getD i none) (valuesOf ps d.name) (qs.getD i none)
  alt : GAlt vals st.vtype (valuesOf ps c!"VALUE") vt

theorem getD_ext' {α : Type} {a : α} {l m : List α} (hl : l.length = m.length) (h : ∀ i, i < l.length → l.getD i a = m.getD i a) : l = m := by
  refine List.ext_getElem hl fun i h1 h2 => ?_
  have := h i h1
  rwa [List.getD_eq_getElem?_getD, List.getD_eq_getElem?_getD, List.getElem?_eq_getElem h1, List.getElem?_eq_getElem h2] at this

theorem GState.nil_iff {E : Env} {params : List PDef} {vals : List (Str × Kind)} {st : PState} (hl : st.ps.length = params.length)
    {qs : List (Option ParamVal)} {vt : Option Nat} : GState E params vals st [] qs vt ↔ qs = st.ps ∧ vt = st.vtype := by
  constructor
  · rintro ⟨h1, h2, h3⟩
    refine ⟨getD_ext' (a := none) (by omega) fun i hi => ?_, ?_⟩
    · exact h2 i _ (List.getElem?_eq_getElem (by omega))
    · unfold GAlt at h3
      split at h3
      · exact h3
      · exact h3
  · rintro ⟨rfl, rfl⟩
    refine ⟨hl, fun i d _ => rfl, ?_⟩
    unfold GAlt
    split <;> rfl

theorem names_inj {params : List PDef} (h : (params.map (·.name)).Nodup) {i j : Nat} {d e : PDef} (hi : params[i]? = some d) (hj : params[j]? = some e)
    (hn : d.name = e.name) : i = j := by
  refine nodup_inj h (a := d.name) ?_ ?_
  · rw [List.getElem?_map, hi]; rfl
  · rw [List.getElem?_map, hj, hn]; rfl

theorem opGet_cons' (n v : Str) (op : List (Str × Str)) (m : Str) : opGet ((n, v) :: op) m = if n = m then some v else opGet op m := by
  unfold opGet
  rw [List.find?_cons]
  by_cases h : n = m
  · subst h; simp
  · have : (n == m) = false := by simp [h]
    simp [this, h]

/-- A step, and what it leaves to the others. -/
theorem GState.cons_iff {E : Env} {params : List PDef} {vals : List (Str × Kind)} (hw : FieldsWf params vals) {st : PState}
    (hl : st.ps.length = params.length) {p : Str × List PVal} {ps : List (Str × List PVal)} {qs : List (Option ParamVal)} {vt : Option Nat} :
    GState E params vals st (p :: ps) qs vt ↔ ∃ st1, st.step E params vals p = .ok st1 ∧ GState E params vals st1 ps qs vt := by
  have hvn : ∀ (i : Nat) (d : PDef), params[i]? = some d → d.name ≠ c!"VALUE" := fun i d h => (hw.known d (List.mem_of_getElem? h)).nv
  unfold PState.step
  dsimp only
  cases hi : paramIdx (upper p.1) params with
  | some i =>
    obtain ⟨d, hd, hn⟩ := paramIdx_some hi
    have hlt : i < st.ps.length := by
      rw [hl]
      exact paramIdx_lt hi
    have hgd : params.getD i ⟨[], .range⟩ = d := by rw [List.getD_eq_getElem?_getD, hd]; rfl
    have hval : valuesOf (p :: ps) c!"VALUE" = valuesOf ps c!"VALUE" := by
      rw [valuesOf_cons, if_neg]
      rw [← hn]
      exact hvn i d hd
    have hown : valuesOf (p :: ps) d.name = p.2 :: valuesOf ps d.name := by rw [valuesOf_cons, if_pos hn.symm]
    have hoth : ∀ (j : Nat) (e : PDef), params[j]? = some e → j ≠ i → valuesOf (p :: ps) e.name = valuesOf ps e.name := by
      intro j e he hji
      rw [valuesOf_cons, if_neg]
      intro h
      exact hji (names_inj hw.nodup he hd (by rw [hn, h]))
    simp only [hgd]
    constructor
    · rintro ⟨h1, h2, h3⟩
      have h4 := h2 i d hd
      rw [hown] at h4
      unfold GParam at h4
      split at h4
      · next h => cases h
      · next vs he =>
        injection he with he1 he2
        obtain ⟨h5, v, h6, h7⟩ := h4
        subst he1
        rw [if_neg (by rw [h5]; simp)]
        refine ⟨_, by rw [h6]; rfl, h1, fun j e he => ?_, by rw [← hval]; exact h3⟩
        by_cases hji : j = i
        · subst hji
          rw [hd] at he
          injection he with he
          subst he
          rw [he2]
          dsimp only
          rw [List.getD_eq_getElem?_getD (l := st.ps.set j (some v)), List.getElem?_set_self hlt]
          exact h7
        · have := h2 j e he
          rw [hoth j e he hji] at this
          dsimp only
          rw [List.getD_eq_getElem?_getD (l := st.ps.set i (some v)), List.getElem?_set_ne (Ne.symm hji), ← List.getD_eq_getElem?_getD]
          exact this
      · exact absurd h4 id
    · rintro ⟨st1, h1, h2⟩
      split at h1
      · cases h1
      · next hs =>
        obtain ⟨v, h3, h4⟩ := Res.bind_eq_ok.1 h1
        injection h4 with h4
        subst h4
        refine ⟨h2.len, fun j e he => ?_, by rw [hval]; exact h2.alt⟩
        have h5 := h2.par j e he
        dsimp only at h5
        by_cases hji : j = i
        · subst hji
          rw [hd] at he
          injection he with he
          subst he
          rw [List.getD_eq_getElem?_getD (l := st.ps.set j (some v)), List.getElem?_set_self hlt] at h5
          rw [hown]
          unfold GParam at h5
          split at h5
          · next hz => rw [hz]; exact ⟨by simpa using hs, v, h3, h5⟩
          · exact absurd h5.1 (by simp)
          · exact absurd h5 id
        · rw [hoth j e he hji]
          rw [List.getD_eq_getElem?_getD (l := st.ps.set i (some v)), List.getElem?_set_ne (Ne.symm hji), ← List.getD_eq_getElem?_getD] at h5
          exact h5
  | none =>
    have hnk := paramIdx_none.1 hi
    have hoth : ∀ (j : Nat) (e : PDef), params[j]? = some e → valuesOf (p :: ps) e.name = valuesOf ps e.name := by
      intro j e he
      rw [valuesOf_cons, if_neg]
      intro h
      exact hnk (List.mem_map.2 ⟨e, List.mem_of_getElem? he, h.symm⟩)
    dsimp only
    by_cases hv : upper p.1 = c!"VALUE" ∧ 2 ≤ vals.length
    · rw [if_pos hv]
      have hval : valuesOf (p :: ps) c!"VALUE" = p.2 :: valuesOf ps c!"VALUE" := by rw [valuesOf_cons, if_pos hv.1]
      have hge : ¬ vals.length < 2 := by omega
      constructor
      · rintro ⟨h1, h2, h3⟩
        rw [hval] at h3
        unfold GAlt at h3
        rw [if_neg hge] at h3
        split at h3
        · next h => cases h
        · next t he =>
          injection he with he1 he2
          obtain ⟨h4, i, h5, h6⟩ := h3
          rw [he1]
          dsimp only
          rw [if_neg (by rw [h4]; simp), h6]
          refine ⟨_, rfl, h1, fun j e he => ?_, ?_⟩
          · have := h2 j e he
            rw [hoth j e he] at this
            exact this
          · unfold GAlt
            rw [if_neg hge, he2]
            exact h5
        · exact absurd h3 id
      · rintro ⟨st1, h1, h2⟩
        split at h1
        · next t he =>
          split at h1
          · cases h1
          · next hs =>
            split at h1
            · next i hx =>
              injection h1 with h1
              subst h1
              refine ⟨h2.len, fun j e he => ?_, ?_⟩
              · rw [hoth j e he]; exact h2.par j e he
              · have h5 := h2.alt
                rw [hval, he]
                unfold GAlt at h5 ⊢
                rw [if_neg hge] at h5 ⊢
                split at h5
                · next hz => rw [hz]; exact ⟨by simpa using hs, i, h5, hx⟩
                · exact absurd h5.1 (by simp)
                · exact absurd h5 id
            · cases h1
        · cases h1
    · rw [if_neg hv]
      have hval : vals.length < 2 ∨ valuesOf (p :: ps) c!"VALUE" = valuesOf ps c!"VALUE" := by
        by_cases h : vals.length < 2
        · exact Or.inl h
        · right
          rw [valuesOf_cons, if_neg fun hh => hv ⟨hh, by omega⟩]
      have halt : ∀ (w : Option Nat), GAlt vals st.vtype (valuesOf (p :: ps) c!"VALUE") w ↔ GAlt vals st.vtype (valuesOf ps c!"VALUE") w := by
        intro w
        rcases hval with h | h
        · unfold GAlt; rw [if_pos h, if_pos h]
        · rw [h]
      constructor
      · rintro ⟨h1, h2, h3⟩
        refine ⟨_, rfl, h1, fun j e he => ?_, (halt vt).1 h3⟩
        have := h2 j e he
        rwa [hoth j e he] at this
      · rintro ⟨st1, h1, h2⟩
        injection h1 with h1
        subst h1
        refine ⟨h2.len, fun j e he => ?_, (halt vt).2 h2.alt⟩
        rw [hoth j e he]
        exact h2.par j e he

theorem step_length {E : Env} {params : List PDef} {vals : List (Str × Kind)} {st st1 : PState} {p : Str × List PVal}
    (h : st.step E params vals p = .ok st1) : st1.ps.length = st.ps.length := by
  unfold PState.step at h
  dsimp only at h
  split at h
  · split at h
    · cases h
    · obtain ⟨v, _, h4⟩ := Res.bind_eq_ok.1 h
      injection h4 with h4
      subst h4
      simp
  · split at h
    · split at h
      · split at h
        · cases h
        · split at h
          · injection h with h; subst h; rfl
          · cases h
      · cases h
    · injection h with h; subst h; rfl

theorem steps_iff {E : Env} {params : List PDef} {vals : List (Str × Kind)} (hw : FieldsWf params vals) : ∀ (ps : List (Str × List PVal)) {st : PState},
    st.ps.length = params.length → ∀ {qs : List (Option ParamVal)} {vt : Option Nat},
    GState E params vals st ps qs vt ↔ ∃ op, PState.steps E params vals st ps = .ok ⟨qs, vt, op⟩ := by
  intro ps
  induction ps with
  | nil =>
    intro st hl qs vt
    rw [GState.nil_iff hl]
    constructor
    · rintro ⟨rfl, rfl⟩; exact ⟨st.op, rfl⟩
    · rintro ⟨op, h⟩; injection h with h; rw [h]; exact ⟨rfl, rfl⟩
  | cons p ps ih =>
    intro st hl qs vt
    rw [GState.cons_iff hw hl]
    constructor
    · rintro ⟨st1, h1, h2⟩
      obtain ⟨op, h3⟩ := (ih (by rw [step_length h1, hl])).1 h2
      exact ⟨op, by rw [PState.steps, h1]; exact h3⟩
    · rintro ⟨op, h⟩
      rw [PState.steps] at h
      obtain ⟨st1, h1, h2⟩ := Res.bind_eq_ok.1 h
      exact ⟨st1, h1, (ih (by rw [step_length h1, hl])).2 ⟨op, h2⟩⟩

theorem otherParam_cons (p : Str × List PVal) (ps : List (Str × List PVal)) (n : Str) :
    otherParam (p :: ps) n = if upper p.1 = n then some ((otherParam ps n).getD (join [','] (p.2.map (·.data)))) else otherParam ps n := by
  unfold otherParam
  rw [valuesOf_cons]
  split
  · cases h : valuesOf ps n with
    | nil => rfl
    | cons x xs => rw [List.getLast?_cons_cons, List.getLast?_cons]; rfl
  · rfl

/-- The other parameters after the loop: TZID and ENCODING (no property stores them). -/
theorem steps_op {E : Env} {params : List PDef} {vals : List (Str × Kind)} {n : Str} (hn : n ∉ params.map (·.name)) (hv : n ≠ c!"VALUE") :
    ∀ (ps : List (Str × List PVal)) {st st' : PState}, PState.steps E params vals st ps = .ok st' →
    opGet st'.op n = (otherParam ps n).or (opGet st.op n) := by
  intro ps
  induction ps with
  | nil => intro st st' h; injection h with h; subst h; rfl
  | cons p ps ih =>
    intro st st' h
    rw [PState.steps] at h
    obtain ⟨st1, h1, h2⟩ := Res.bind_eq_ok.1 h
    rw [ih h2, otherParam_cons]
    unfold PState.step at h1
    dsimp only at h1
    split at h1
    · next i hi =>
      have : upper p.1 ≠ n := by
        intro he
        rw [he] at hi
        have := paramIdx_none.2 hn
        rw [this] at hi
        cases hi
      rw [if_neg this]
      split at h1
      · cases h1
      · obtain ⟨v, _, h4⟩ := Res.bind_eq_ok.1 h1
        injection h4 with h4
        subst h4
        rfl
    · split at h1
      · next hc =>
        have : upper p.1 ≠ n := by rw [hc.1]; exact Ne.symm hv
        rw [if_neg this]
        split at h1
        · split at h1
          · cases h1
          · split at h1
            · injection h1 with h1; subst h1; rfl
            · cases h1
        · cases h1
      · injection h1 with h1
        subst h1
        dsimp only
        rw [opGet_cons']
        split
        · cases otherParam ps n <;> rfl
        · rfl

theorem pairwise2_iff {α β : Type} (b0 : β) {R : α → β → Prop} : ∀ {as : List α} {bs : List β},
    Pairwise2 R as bs ↔ bs.length = as.length ∧ ∀ (i : Nat) (a : α), as[i]? = some a → R a (bs.getD i b0) := by
  intro as
  induction as with
  | nil =>
    intro bs
    constructor
    · intro h; cases h; exact ⟨rfl, fun i a h => by simp at h⟩
    · rintro ⟨h, _⟩
      rw [List.length_eq_zero_iff.1 h]
      exact .nil
  | cons a as ih =>
    intro bs
    constructor
    · intro h
      cases h with
      | cons h1 h2 =>
        obtain ⟨h3, h4⟩ := ih.1 h2
        refine ⟨by simp [h3], fun i x hx => ?_⟩
        cases i with
        | zero => simp only [List.getElem?_cons_zero, Option.some.injEq] at hx; subst hx; exact h1
        | succ i => simpa using h4 i x (by simpa using hx)
    · rintro ⟨h1, h2⟩
      cases bs with
      | nil => simp at h1
      | cons b bs =>
        refine .cons (h2 0 a rfl) (ih.2 ⟨by simpa using h1, fun i x hx => ?_⟩)
        simpa using h2 (i + 1) x (by simpa using hx)

theorem Val.decode_same {E : Env} {op op' : Str → Option Str} (h1 : op c!"TZID" = op' c!"TZID") (h2 : op c!"ENCODING" = op' c!"ENCODING") (k : Kind)
    (s : Str) : Val.decode E op k s = Val.decode E op' k s := by
  cases k <;> simp only [Val.decode, h1, h2]

theorem indexOf_iff {n : Str} : ∀ {l : List Str} {i : Nat}, l.Nodup → (indexOf n l = some i ↔ l[i]? = some n) := by
  intro l i hn
  constructor
  · exact indexOf_some _ _ _
  · intro h
    obtain ⟨j, hj⟩ := indexOf_mem (List.mem_of_getElem? h)
    rw [hj, nodup_inj hn h (indexOf_some _ _ _ hj)]

/-- Decoding a property line is what the specification says. -/
theorem PSpec.decode_iff {E : Env} {sp : PSpec} (hw : sp.wf = true) (ps : List (Str × List PVal)) (value : Str) (r : PropVal) :
    sp.decode E ps value = .ok r ↔ PropReads E sp.shape ps value r := by
  obtain ⟨name, sh⟩ := sp
  cases sh with
  | enum names =>
    have hnd : names.Nodup := by
      unfold PSpec.wf at hw
      simp only [Bool.and_eq_true, decide_eq_true_eq] at hw
      exact hw.2.1
    unfold PSpec.decode PropReads
    dsimp only
    constructor
    · intro h
      split at h
      · next n hn => injection h with h; exact ⟨n, h.symm, (indexOf_iff hnd).1 hn⟩
      · cases h
    · rintro ⟨n, rfl, hn⟩
      rw [(indexOf_iff hnd).2 hn]
  | fields params vals =>
    have hw := PSpec.wf_fields hw
    have hnot : ∀ n : Str, (∀ d ∈ params, d.name ≠ n) → n ∉ params.map (·.name) := by
      intro n h hm
      obtain ⟨d, hd, he⟩ := List.mem_map.1 hm
      exact h d hd he
    have hlen : ({ ps := params.map fun _ => none } : PState).ps.length = params.length := by simp
    have hinit : ∀ i : Nat, (params.map fun _ => (none : Option ParamVal)).getD i none = none := by
      intro i
      rw [List.getD_eq_getElem?_getD, List.getElem?_map]
      cases params[i]? <;> rfl
    have hpos : 0 < vals.length := List.length_pos_iff.2 hw.ne
    have hG : ∀ {qs : List (Option ParamVal)} {vt : Option Nat}, GState E params vals { ps := params.map fun _ => none } ps qs vt →
        Pairwise2 (ParamReads E ps) params qs ∧ UsesType vals ps (vt.getD 0) ∧ vt.getD 0 < vals.length := by
      rintro qs vt ⟨h1, h2, h3⟩
      refine ⟨(pairwise2_iff none).2 ⟨h1, fun i d hd => ?_⟩, ?_⟩
      · have := h2 i d hd
        dsimp only at this
        rw [hinit i] at this
        unfold ParamReads
        unfold GParam at this
        split at this
        · next h => rw [h]; exact this
        · next h =>
          rw [h]
          obtain ⟨_, v, h1, h2⟩ := this
          exact ⟨v, (PKind.decode_iff ..).1 h1, h2⟩
        · exact absurd this id
      · unfold GAlt at h3
        unfold UsesType
        split at h3
        · next h => rw [if_pos h, h3]; exact ⟨rfl, hpos⟩
        · next h =>
          rw [if_neg h]
          split at h3
          · next hz => rw [hz, h3]; exact ⟨rfl, hpos⟩
          · next t hz =>
            obtain ⟨_, i, rfl, hi⟩ := h3
            rw [hz]
            have hi' := (indexOf_iff hw.vnodup).1 hi
            rw [List.getElem?_map, Option.map_eq_some_iff] at hi'
            obtain ⟨⟨a, k⟩, hx, he⟩ := hi'
            refine ⟨⟨k, by dsimp only at he; rw [← he]; exact hx⟩, ?_⟩
            have := indexOf_lt hi
            simpa using this
          · exact absurd h3 id
    have hG' : ∀ {qs : List (Option ParamVal)} {i : Nat}, Pairwise2 (ParamReads E ps) params qs → UsesType vals ps i →
        ∃ vt, GState E params vals { ps := params.map fun _ => none } ps qs vt ∧ vt.getD 0 = i := by
      intro qs i h1 h2
      obtain ⟨h3, h4⟩ := (pairwise2_iff none).1 h1
      have hp : ∀ (i : Nat) (d : PDef), params[i]? = some d →
          GParam E d.kind (({ ps := params.map fun _ => none } : PState).ps.getD i none) (valuesOf ps d.name) (qs.getD i none) := by
        intro j d hd
        have := h4 j d hd
        dsimp only
        rw [hinit j]
        unfold ParamReads at this
        unfold GParam
        split at this
        · next h => rw [h]; exact this
        · next h =>
          rw [h]
          obtain ⟨v, h1, h2⟩ := this
          exact ⟨rfl, v, (PKind.decode_iff ..).2 h1, h2⟩
        · exact absurd this id
      unfold UsesType at h2
      split at h2
      · next h => exact ⟨none, ⟨h3, hp, by unfold GAlt; rw [if_pos h]⟩, h2.symm⟩
      · next h =>
        split at h2
        · next hz => exact ⟨none, ⟨h3, hp, by unfold GAlt; rw [if_neg h, hz]⟩, h2.symm⟩
        · next t hz =>
          obtain ⟨k, hk⟩ := h2
          refine ⟨some i, ⟨h3, hp, ?_⟩, rfl⟩
          unfold GAlt
          rw [if_neg h, hz]
          refine ⟨rfl, i, rfl, (indexOf_iff hw.vnodup).2 ?_⟩
          rw [List.getElem?_map, hk]
          rfl
        · exact absurd h2 id
    have hop : ∀ {st : PState}, PState.steps E params vals { ps := params.map fun _ => none } ps = .ok st → ∀ k,
        Val.decode E (opGet st.op) k value = Val.decode E (otherParam ps) k value := by
      intro st h k
      refine Val.decode_same ?_ ?_ k value
      · rw [steps_op (hnot _ fun d hd => (hw.known d hd).nt) (by decide) ps h]
        show (otherParam ps c!"TZID").or none = _
        cases otherParam ps c!"TZID" <;> rfl
      · rw [steps_op (hnot _ fun d hd => (hw.known d hd).ne) (by decide) ps h]
        show (otherParam ps c!"ENCODING").or none = _
        cases otherParam ps c!"ENCODING" <;> rfl
    unfold PSpec.decode PropReads
    dsimp only
    constructor
    · intro h
      obtain ⟨⟨qs, vt, op⟩, h1, h2⟩ := Res.bind_eq_ok.1 h
      obtain ⟨v, h3, h4⟩ := Res.bind_eq_ok.1 h2
      injection h4 with h4
      obtain ⟨h5, h6, h7⟩ := hG ((steps_iff hw ps hlen).2 ⟨op, h1⟩)
      rw [hop h1] at h3
      rw [List.getD_eq_getElem?_getD, List.getElem?_eq_getElem h7, Option.getD_some] at h3
      exact ⟨qs, vt.getD 0, _, _, v, h4.symm, h5, h6, List.getElem?_eq_getElem h7, (Val.decode_iff ..).1 h3⟩
    · rintro ⟨qs, i, n, k, v, rfl, h1, h2, h3, h4⟩
      have h4 := (Val.decode_iff ..).2 h4
      obtain ⟨vt, h5, rfl⟩ := hG' h1 h2
      obtain ⟨op, h6⟩ := (steps_iff hw ps hlen).1 h5
      rw [h6]
      simp only [Res.ok_bind]
      rw [hop h6, List.getD_eq_getElem?_getD, h3, Option.getD_some, h4]
      rfl

end Ics
