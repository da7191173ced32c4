import Verif.StuckLemmas
import Verif.CallSizeLemmas
import Verif.UnbrokenLemmas
import Verif.FineLemmas
/-!
# Lemmas: the calls of an Encode that does not return
-/

namespace Ics

open Spec

/-- The texts that stand in are accepted where the others are. -/
structure Gentle (f : Str → Str) : Prop extends StandIn f where
  text : ∀ s, NoControl s → NoControl (f s)
  format : ∀ s, FormatType s → FormatType (f s)
  clear : ∀ s, (∀ c ∈ s, NoCtl c) → ∀ c ∈ f s, NoCtl c

variable {f : Str → Str}

theorem mendParam_typed (k : PKind) (v : ParamVal) (h : k.typed v = true) : k.typed (mendParam f v) = true := by
  cases k <;> cases v <;> first | exact h | rfl | cases h

theorem mendParam_valid (hf : Gentle f) (k : PKind) (v : ParamVal) (h : k.valid v = .ok ()) : k.valid (mendParam f v) = .ok () := by
  rw [param_fine_iff] at h ⊢
  cases k <;> cases v <;> first
    | exact h
    | exact hf.text _ h
    | exact hf.format _ h
    | trivial
    | (intro s hs
       obtain ⟨t, ht, rfl⟩ := List.mem_map.1 hs
       exact hf.text _ (h t ht))

theorem mendParam_unbroken (hf : Gentle f) {E : Env} (k : PKind) (v : ParamVal) (h : UnbrokenParam E k v) : UnbrokenParam E k (mendParam f v) := by
  cases k <;> cases v <;> first
    | exact h
    | exact hf.clear _ h
    | trivial

theorem mem_mendProp {sp : PSpec} {p : PropVal} {y : PDef × ParamVal} (h : y ∈ propParams sp (mendProp f p)) : ∃ v, (y.1, v) ∈ propParams sp p ∧ y.2 = mendParam f v := by
  rcases sp with ⟨name, names | ⟨params, vals⟩⟩ <;> cases p with
  | enum n => simp [propParams, mendProp] at h
  | fields ps vs =>
    first
    | (simp [propParams, mendProp] at h; done)
    | simp only [propParams, mendProp, List.zip_map_right, List.filterMap_map, List.mem_filterMap] at h ⊢
      obtain ⟨⟨d, o⟩, hx, h⟩ := h
      cases o with
      | none => cases h
      | some v =>
        cases h
        exact ⟨v, ⟨(d, some v), hx, rfl⟩, rfl⟩

theorem mendParams_typed : ∀ (ds : List PDef) (ps : List (Option ParamVal)), typedParams ds ps = true → typedParams ds (ps.map fun p => p.map (mendParam f)) = true
  | [], [], _ => rfl
  | [], _ :: _, h => by cases h
  | _ :: _, [], h => by cases h
  | d :: ds, p :: ps, h => by
    simp only [typedParams, List.map_cons, Bool.and_eq_true] at h ⊢
    refine ⟨?_, mendParams_typed ds ps h.2⟩
    cases p with
    | none => rfl
    | some v => exact mendParam_typed _ _ h.1

theorem mendProp_typed {sp : PSpec} {p : PropVal} (h : sp.typed p = true) : sp.typed (mendProp f p) = true := by
  rcases sp with ⟨name, names | ⟨params, vals⟩⟩ <;> cases p with
  | enum n => exact h
  | fields ps vs =>
    first
    | exact h
    | simp only [PSpec.typed, mendProp, Bool.and_eq_true] at h ⊢
      exact ⟨⟨mendParams_typed _ _ h.1.1, h.1.2⟩, h.2⟩

theorem mendProp_valid (hf : Gentle f) {sp : PSpec} {p : PropVal} (h : sp.valid p = .ok ()) : sp.valid (mendProp f p) = .ok () := by
  have hm : ∀ y ∈ propParams sp (mendProp f p), (∀ z ∈ propParams sp p, z.1.kind.valid z.2 = .ok ()) → y.1.kind.valid y.2 = .ok () := by
    intro y hy hz
    obtain ⟨v, hv, e⟩ := mem_mendProp hy
    rw [e]
    exact mendParam_valid hf _ _ (hz _ hv)
  rcases sp with ⟨name, names | ⟨params, vals⟩⟩ <;> cases p with
  | enum n => exact h
  | fields ps vs =>
    first
    | exact h
    | simp only [PSpec.valid, mendProp, unit_bind_ok] at h ⊢
      refine ⟨?_, h.2⟩
      rw [validParams_iff] at *
      intro y hy
      exact hm y hy h.1

theorem mendProp_vals (p : PropVal) : propVals (mendProp f p) = propVals p := by
  cases p <;> rfl

/-- The calls for one property, whether they come to an end or not. -/
theorem prop_shaped_any (hf : Gentle f) {E : Env} {sp : PSpec} {p : PropVal} (hw : sp.wf = true) (ht : sp.typed p = true) (hv : sp.valid p = .ok ())
    (hu : (∀ y ∈ propParams sp p, UnbrokenParam E y.1.kind y.2) ∧ ∀ v ∈ propVals p, UnbrokenVal E v) : ∀ q ∈ (sp.said E p).calls, Shaped q := by
  have hs := PSpec.stuck E hf.toStandIn sp p ht
  have hu' : (∀ y ∈ propParams sp (mendProp f p), UnbrokenParam E y.1.kind y.2) ∧ ∀ v ∈ propVals (mendProp f p), UnbrokenVal E v := by
    refine ⟨fun y hy => ?_, by rw [mendProp_vals]; exact hu.2⟩
    obtain ⟨v, hv, e⟩ := mem_mendProp hy
    rw [e]
    exact mendParam_unbroken hf _ _ (hu.1 _ hv)
  have line : ∀ {t : Str}, sp.encode E (mendProp f p) = some t → ∃ b, t = b ++ crlf ∧ ∀ c ∈ b, NoCtl c := by
    intro t he
    obtain ⟨a, b, k⟩ := PSpec.encode_any E sp (mendProp f p) hw (mendProp_typed ht) (mendProp_valid hf hv) (by rw [he]; nofun)
    refine ⟨printBare (toLine E sp (mendProp f p)), ?_, (lineClear_iff b).1 (k.1 hu')⟩
    rw [he] at a
    exact Option.some.inj a
  unfold StuckAt at hs
  split at hs
  · obtain ⟨h1, h2⟩ := hs
    obtain ⟨b, hb, hc⟩ := line h2
    refine prop_shaped ht (b := b) ?_ hc
    rw [← PSpec.said_text, Said.text, if_pos h1, hb]
  · rename_i s hfind
    obtain ⟨_, r, h2⟩ := hs
    obtain ⟨b, hb, hc⟩ := line h2
    have hm : Marked s = true := List.find?_some hfind
    have hlen : (sp.said E p).calls.flatten.length ≤ b.length := by
      by_cases h : (sp.said E p).calls.flatten.length ≤ b.length
      · exact h
      · exfalso
        have hn : (f s).length ≠ 0 := by simpa using hf.some s hm
        have hl := congrArg List.length hb
        simp only [List.length_append, crlf, List.length_cons, List.length_nil] at hl
        have h0 : (sp.said E p).calls.flatten.length = b.length + 1 := by omega
        have e := congrArg (fun l : List Char => l[b.length + 1]?) hb
        simp only [List.append_assoc] at e
        rw [List.getElem?_append_right (by omega), h0, Nat.sub_self, List.getElem?_append_left (by omega), List.getElem?_append_right (by omega)] at e
        have e : (f s)[0]? = some '\n' := by rw [e]; simp [crlf]
        have hp := hf.plain s hm
        rw [Marked, List.any_eq_false] at hp
        exact hp '\n' (List.mem_of_getElem? e) (by decide)
    have hpre : (sp.said E p).calls.flatten <+: b := by
      rw [List.append_assoc] at hb
      exact List.prefix_of_prefix_length_le ⟨_, hb⟩ ⟨_, rfl⟩ hlen
    intro q hq
    refine shaped_of fun c hcq => ?_
    have := hc c (hpre.subset (List.mem_flatten.2 ⟨q, hq, hcq⟩))
    constructor <;> (rintro rfl; revert this; unfold NoCtl; decide)

end Ics
