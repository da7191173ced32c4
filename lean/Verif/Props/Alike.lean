import Verif.Spec.Alike
import Verif.Props.Property
import Verif.Props.Scalars
import Verif.Props.Rfc
import Verif.Props.Edits
/-!
# C55: lines that say the same in another way
-/

namespace Ics.Props

open Spec Spec.Rfc

/-- The values of one parameter, if they are read alike. -/
theorem decode_param (E : Env) (sp : PSpec) (a b : List (Str × List PVal)) (n : Str) (vs vs' : List PVal) (value : Str)
    (h1 : ∀ params vals, sp.shape = .fields params vals → ∀ d ∈ params, d.name = upper n → d.kind.decode E vs = d.kind.decode E vs')
    (h2 : upper n = c!"VALUE" → vs.map (fun v => upper v.data) = vs'.map fun v => upper v.data)
    (h3 : upper n = c!"TZID" ∨ upper n = c!"ENCODING" → vs.map (·.data) = vs'.map (·.data)) :
    sp.decode E (a ++ (n, vs) :: b) value = sp.decode E (a ++ (n, vs') :: b) value := by
  unfold PSpec.decode
  split
  · rfl
  · next params vals hs =>
    rw [PState.steps_append, PState.steps_append]
    cases PState.steps E params vals _ a with
    | err e => rfl
    | panic => rfl
    | ok st =>
      show (PState.steps E params vals st ((n, vs) :: b)) >>= _ = (PState.steps E params vals st ((n, vs') :: b)) >>= _
      rw [PState.steps, PState.steps]
      have key : (st.step E params vals (n, vs) = st.step E params vals (n, vs')) ∨
          ∃ s t, st.step E params vals (n, vs) = .ok s ∧ st.step E params vals (n, vs') = .ok t ∧ SameState s t := by
        unfold PState.step
        dsimp only
        split
        · next i hi =>
          left
          obtain ⟨d, hd, hn⟩ := paramIdx_some hi
          have hg : params.getD i ⟨[], .range⟩ = d := by rw [List.getD_eq_getElem?_getD, hd]; rfl
          rw [hg, h1 params vals hs d (List.mem_of_getElem? hd) hn]
        · split
          · next hv =>
            left
            have := h2 hv.1
            match vs, vs', this with
            | [], [], _ => rfl
            | [v], [v'], e => 
              simp only [List.map_cons, List.map_nil, List.cons.injEq, and_true] at e
              dsimp only
              rw [e]
            | _ :: _ :: _, _ :: _ :: _, _ => rfl
            | [], _ :: _, e => cases e
            | _ :: _, [], e => cases e
            | [_], _ :: _ :: _, e => simp at e
            | _ :: _ :: _, [_], e => simp at e
          · right
            refine ⟨_, _, rfl, rfl, rfl, rfl, ?_, ?_⟩
            · dsimp only; rw [opGet_cons, opGet_cons]
              split
              · next h => rw [h3 (.inl h)]
              · rfl
            · dsimp only; rw [opGet_cons, opGet_cons]
              split
              · next h => rw [h3 (.inr h)]
              · rfl
      rcases key with e | ⟨s, t, e1, e2, hss⟩
      · rw [e]
      · rw [e1, e2]
        simp only [Res.ok_bind]
        rcases steps_same (E := E) (params := params) (vals := vals) b hss with ⟨s', t', h1, h2, h3⟩ | ⟨e, h1, h2⟩ | ⟨h1, h2⟩
        · rw [h1, h2]
          simp only [Res.ok_bind]
          rw [h3.ps, h3.vt, Val.decode_congr h3.tz h3.en]
        · rw [h1, h2]
        · rw [h1, h2]

/-- Every field is one of RFC 5545. -/
theorem allFields_content : ∀ f ∈ allFields, ∃ p ∈ allParts, (content p f.key).map Content.shape = some f.spec.shape := by decide +kernel

theorem field_content {f : SField} (hf : f ∈ allFields) : ∃ p t, content p f.key = some t ∧ f.spec.shape = t.shape := by
  obtain ⟨p, _, h⟩ := allFields_content f hf
  obtain ⟨t, h1, h2⟩ := Option.map_eq_some_iff.1 h
  exact ⟨p, t, h1, h2.symm⟩

theorem allFields_wf : ∀ f ∈ allFields, f.spec.wf = true := by decide +kernel

theorem quotes_not_needed : ∀ f ∈ allFields, ∀ params vals, f.spec.shape = .fields params vals → ∀ d ∈ params, d.name ∉ quotedParams →
    d.kind ≠ .url ∧ d.kind ≠ .urls ∧ d.kind ≠ .strs ∧ d.kind ≠ .str true := by
  have : ∀ f ∈ allFields, (match f.spec.shape with
    | .fields params _ => params.all fun d => decide (d.name ∉ quotedParams → d.kind ≠ .url ∧ d.kind ≠ .urls ∧ d.kind ≠ .strs ∧ d.kind ≠ .str true)
    | _ => true) = true := by decide +kernel
  intro f hf params vals hs d hd
  have := this f hf
  rw [hs] at this
  exact of_decide_eq_true (List.all_eq_true.1 this d hd)

theorem names_only : ∀ f ∈ allFields, ∀ params vals, f.spec.shape = .fields params vals → ∀ d ∈ params, d.name ∈ nameParams →
    (∃ ns, d.kind = .enum ns) ∨ d.kind = .range := by
  have : ∀ f ∈ allFields, (match f.spec.shape with
    | .fields params _ => params.all fun d => decide (d.name ∈ nameParams → (match d.kind with | .enum _ => true | .range => true | _ => false) = true)
    | _ => true) = true := by decide +kernel
  intro f hf params vals hs d hd hn
  have := this f hf
  rw [hs] at this
  have := List.all_eq_true.1 this d hd
  simp only [decide_eq_true_eq] at this
  have := this hn
  split at this
  · next ns h => exact .inl ⟨ns, h⟩
  · next h => exact .inr h
  · cases this

theorem kind_data {E : Env} {k : PKind} (h : k ≠ .url ∧ k ≠ .urls ∧ k ≠ .strs ∧ k ≠ .str true) {vs vs' : List PVal} (hd : vs.map (·.data) = vs'.map (·.data)) :
    k.decode E vs = k.decode E vs' := by
  have h1 : ∀ {β : Type} (f : Str → Res β), (oneVal vs >>= fun v => f v.data) = (oneVal vs' >>= fun v => f v.data) := by
    intro β f
    match vs, vs', hd with
    | [], [], _ => rfl
    | [v], [v'], e =>
      simp only [List.map_cons, List.map_nil, List.cons.injEq, and_true] at e
      show f v.data = f v'.data
      rw [e]
    | _ :: _ :: _, _ :: _ :: _, _ => rfl
    | [], _ :: _, e => cases e
    | _ :: _, [], e => cases e
    | [_], _ :: _ :: _, e => simp at e
    | _ :: _ :: _, [_], e => simp at e
  cases k with
  | url => exact absurd rfl h.1
  | urls => exact absurd rfl h.2.1
  | strs => exact absurd rfl h.2.2.1
  | str q =>
    cases q
    · exact h1 fun s => Res.ok () >>= fun _ => pure (ParamVal.str (decode6868 s))
    · exact absurd rfl h.2.2.2
  | fmt => exact h1 fun s => Res.guard .invalidParam (fmtMatch s) >>= fun _ => pure (ParamVal.str s)
  | enum names => exact h1 fun s => match indexOf (upper s) names with | some n => pure (ParamVal.enum (n + 1)) | none => pure (ParamVal.enum 0)
  | range => exact h1 fun s => Res.guard .invalidParam (upper s = c!"THISANDFUTURE") >>= fun _ => pure ParamVal.unit
  | bool => exact h1 fun s => Boolean.decode s >>= fun b => pure (ParamVal.bool b)

theorem ResAlike.symm {w : Bool} {α : Type} {x y : Res α} (h : ResAlike w x y) : ResAlike w y x := by
  unfold ResAlike at *
  split at h
  · next hw => rw [if_pos hw]; exact fun a => (h a).symm
  · next hw => rw [if_neg hw]; exact h.symm

theorem ResAlike.trans {w : Bool} {α : Type} {x y z : Res α} (h : ResAlike w x y) (h' : ResAlike w y z) : ResAlike w x z := by
  unfold ResAlike at *
  split at h
  · next hw => rw [if_pos hw] at h' ⊢; exact fun a => (h a).trans (h' a)
  · next hw => rw [if_neg hw] at h' ⊢; exact h.trans h'

theorem ResAlike.of_eq {w : Bool} {α : Type} {x y : Res α} (h : x = y) : ResAlike w x y := h ▸ ResAlike.refl w x

theorem step_one {E : Env} {params : List PDef} {vals : List (Str × Kind)} (hl : vals.length < 2) {st st' : PState} {p : Str × List PVal}
    (h : st.step E params vals p = .ok st') : st'.vtype = st.vtype := by
  unfold PState.step at h
  dsimp only at h
  split at h
  · split at h
    · cases h
    · obtain ⟨v, _, h⟩ := Res.bind_eq_ok.1 h
      cases h; rfl
  · rw [if_neg fun h => by omega] at h
    cases h; rfl

theorem steps_one {E : Env} {params : List PDef} {vals : List (Str × Kind)} (hl : vals.length < 2) : ∀ (ps : List (Str × List PVal)) {st st' : PState},
    PState.steps E params vals st ps = .ok st' → st'.vtype = st.vtype := by
  intro ps
  induction ps with
  | nil => intro st st' h; cases h; rfl
  | cons p ps ih =>
    intro st st' h
    rw [PState.steps] at h
    obtain ⟨s1, h1, h2⟩ := Res.bind_eq_ok.1 h
    rw [ih h2, step_one hl h1]

/-- A field whose value is of one type. -/
theorem decode_value {E : Env} {sp : PSpec} {params : List PDef} {n : Str} {k : Kind} (hs : sp.shape = .fields params [(n, k)]) {s s' : Str}
    (h : ∀ op, Val.decode E op k s = Val.decode E op k s') (ps : List (Str × List PVal)) : sp.decode E ps s = sp.decode E ps s' := by
  unfold PSpec.decode
  rw [hs]
  dsimp only
  cases hst : PState.steps E params [(n, k)] { ps := params.map fun _ => none } ps with
  | err e => rfl
  | panic => rfl
  | ok st =>
    have hv := steps_one (by simp) ps hst
    simp only [Res.ok_bind, hv, Option.getD_none]
    show (Val.decode E (opGet st.op) k s >>= _) = (Val.decode E (opGet st.op) k s' >>= _)
    rw [h]

theorem same_of {w : Bool} {E : Env} {name s s' : Str} {ps ps' : List (Str × List PVal)} (hc : upper name ∈ control → s' = s)
    (h : ∀ f ∈ allFields, f.key = upper name → ResAlike w (f.spec.decode E ps s) (f.spec.decode E ps' s')) : SameRead w E ⟨name, ps, s⟩ ⟨name, ps', s'⟩ :=
  ⟨rfl, fun h => ⟨rfl, hc h⟩, h⟩

theorem Alike.same {w : Bool} {E : Env} {l m : Line} (h : Alike w l m) : SameRead w E l m := by
  induction h with
  | refl l => exact SameRead.refl w E l
  | symm _ ih =>
    refine ⟨ih.name.symm, fun hc => ?_, fun f hf hk => ResAlike.symm (ih.read f hf (hk.trans ih.name))⟩
    have := ih.control (ih.name ▸ hc)
    exact ⟨this.1.symm, this.2.symm⟩
  | trans _ _ ih1 ih2 =>
    refine ⟨ih2.name.trans ih1.name, fun hc => ?_, fun f hf hk => ResAlike.trans (ih1.read f hf hk) (ih2.read f hf (hk.trans ih1.name.symm))⟩
    have g1 := ih1.control hc
    have g2 := ih2.control (ih1.name ▸ hc)
    exact ⟨g2.1.trans g1.1, g2.2.trans g1.2⟩
  | case h => exact ⟨h.name, fun hc => ⟨h.control hc, h.value⟩, fun f _ _ => ResAlike.of_eq (h.decode E f.spec).symm⟩
  | @ignored name value a b n vs h1 h2 =>
    refine same_of (fun _ => rfl) fun f hf hk => ResAlike.of_eq (C32_unknown_parameters_ignored E f.spec a b n vs value ?_ ?_).symm
    · obtain ⟨p, t, hc, hs⟩ := field_content hf
      unfold Knows
      rw [hs]
      cases t with
      | name ns => exact id
      | value types params =>
        rintro (hp | hp)
        · rw [hk] at hc
          refine h1 ⟨p, types, params, hc, ?_⟩
          simpa using hp
        · exact h2 (by rw [hp.1]; decide)
    · simp only [List.mem_cons, List.not_mem_nil, or_false, not_or] at h2
      exact ⟨h2.2.1, h2.2.2⟩
  | @quotes name value a b n vs vs' hq hd =>
    refine same_of (fun _ => rfl) fun f hf hk => ResAlike.of_eq (decode_param E f.spec a b n vs vs' value ?_ ?_ fun _ => hd)
    · intro params vals hs d hd' hn
      exact kind_data (quotes_not_needed f hf params vals hs d hd' (hn ▸ hq)) hd
    · intro _
      have := congrArg (List.map upper) hd
      simpa [List.map_map, Function.comp_def] using this
  | @paramCase name value a b n v v' hn hu =>
    refine same_of (fun _ => rfl) fun f hf hk => ResAlike.of_eq (decode_param E f.spec a b n [v] [v'] value ?_ ?_ ?_)
    · intro params vals hs d hd hdn
      rcases names_only f hf params vals hs d hd (hdn ▸ hn) with ⟨ns, h⟩ | h
      · rw [h]
        show (match indexOf (upper v.data) ns with | some n => Res.ok (ParamVal.enum (n + 1)) | none => .ok (.enum 0)) = _
        rw [hu]; rfl
      · rw [h]
        show (Res.guard .invalidParam (upper v.data = c!"THISANDFUTURE") >>= fun _ => pure ParamVal.unit) = _
        rw [hu]; rfl
    · intro _; simp [hu]
    · rintro (h | h) <;> rw [h] at hn <;> exact absurd hn (by decide)
  | @text name s s' t ps hh h1 h2 =>
    refine same_of (fun hc => absurd hc hh.1) fun f hf hk => ResAlike.of_eq ?_
    obtain ⟨p, t', hc, hs⟩ := field_content hf
    rw [hk] at hc
    obtain ⟨ps', rfl⟩ := hh.2 p t' hc
    refine decode_value hs (fun op => ?_) ps
    show Val.text <$> Text.decode s = Val.text <$> Text.decode s'
    rw [Text.decode_iff.2 h1, Text.decode_iff.2 h2]
  | @texts name s s' ts ps hh h1 h2 =>
    refine same_of (fun hc => absurd hc hh.1) fun f hf hk => ResAlike.of_eq ?_
    obtain ⟨p, t', hc, hs⟩ := field_content hf
    rw [hk] at hc
    obtain ⟨ps', rfl⟩ := hh.2 p t' hc
    refine decode_value hs (fun op => ?_) ps
    show Val.mtext <$> MText.decode s = Val.mtext <$> MText.decode s'
    rw [(C17_decoding_exact _ _).2 h1, (C17_decoding_exact _ _).2 h2]
  | @valueCase name s s' ps hh hu =>
    refine same_of (fun hc => absurd hc hh.1) fun f hf hk => ResAlike.of_eq ?_
    obtain ⟨p, t', hc, hs⟩ := field_content hf
    rw [hk] at hc
    obtain ⟨ns, rfl⟩ := hh.2 p t' hc
    unfold PSpec.decode
    rw [hs]
    show (match indexOf (upper s) ns with | some n => Res.ok (PropVal.enum n) | none => .err .invalidValue) = _
    rw [hu]; rfl
  | @order name value ps qs hw hp hn =>
    refine same_of (fun _ => rfl) fun f hf hk => ?_
    unfold ResAlike
    rw [if_pos hw]
    intro r
    rw [PSpec.decode_iff (allFields_wf f hf), PSpec.decode_iff (allFields_wf f hf)]
    exact propReads_congr (valuesOf_perm hp hn)

/-- C55.  Documents whose lines say the same, line by line, give the same calendar, or the same error or panic; if parameters are in another order also, the same
calendar or both none. -/
theorem C55_alike (w : Bool) (E : Env) (s s' : Str) (a b : List Line) (t : Term) (h : tokenise s = ⟨a, t⟩) (h' : tokenise s' = ⟨b, t⟩)
    (hr : Pairwise2 (Alike w) a b) : ResAlike w (decodeDoc E s) (decodeDoc E s') := by
  have hv : ∀ {a b : List Line}, Pairwise2 (Alike w) a b → Variant (SameRead w E) a b := by
    intro a b h
    induction h with
    | nil => exact .nil
    | cons h _ ih => exact .line (Alike.same h) ih
  unfold decodeDoc
  rw [h, h']
  cases hr with
  | nil => exact ResAlike.refl _ _
  | cons hl hr => exact decodeStream_variant (Alike.same hl) (hv hr)

/-- A line with all of these changes, but for the order. -/
def plainComment : Line := ⟨c!"COMMENT", [(c!"LANGUAGE", [⟨false, c!"en"⟩])], c!"a\\nb"⟩
def oddComment : Line := ⟨c!"comment", [(c!"X-Y", [⟨false, c!"1"⟩]), (c!"language", [⟨true, c!"en"⟩])], c!"a\\Nb"⟩

theorem contents_text : ∀ p ∈ allParts, ∀ n ∈ [c!"COMMENT", c!"SUMMARY", c!"DESCRIPTION", c!"UID"], (match content p n with
    | some (.value [.text] _) => true
    | _ => false) = true := by decide +kernel

theorem comment_is_text : holds c!"COMMENT" Content.text := by
  refine ⟨by decide, fun p t h => ?_⟩
  have := contents_text p (mem_allParts p) c!"COMMENT" (by simp)
  rw [h] at this
  match t, this with
  | .value [.text] ps, _ => exact ⟨ps, rfl⟩

example : Alike false plainComment oddComment := by
  refine .trans (m := ⟨c!"comment", [(c!"language", [⟨false, c!"en"⟩])], c!"a\\nb"⟩) (.case ⟨by decide, by decide, .cons ⟨by decide, rfl⟩ .nil, rfl⟩) ?_
  refine .trans (m := ⟨c!"comment", [(c!"language", [⟨true, c!"en"⟩])], c!"a\\nb"⟩) (.quotes (a := []) (b := []) (by decide) rfl) ?_
  refine .trans (m := ⟨c!"comment", [(c!"language", [⟨true, c!"en"⟩])], c!"a\\Nb"⟩) (.text (t := c!"a\nb") comment_is_text ?_ ?_) ?_
  · exact .inl (.plain _ (by decide) (by decide) (by decide) (.newline _ (by decide) (.plain _ (by decide) (by decide) (by decide) .nil)))
  · exact .inl (.plain _ (by decide) (by decide) (by decide) (.newline _ (by decide) (.plain _ (by decide) (by decide) (by decide) .nil)))
  · refine .ignored (a := []) ?_ (by decide)
    rintro ⟨p, types, ps, h, hp⟩
    have : ∀ p ∈ allParts, (match content p (upper c!"comment") with
      | some (.value _ ps) => !ps.contains (upper c!"X-Y")
      | _ => true) = true := by decide +kernel
    have := this p (mem_allParts p)
    rw [h] at this
    simp at this
    exact this hp

/-- It is read alike. -/
example : ∃ f ∈ partFields .event, f.key = c!"COMMENT" ∧ (f.spec.decode sampleEnv plainComment.params plainComment.value).isOk = true ∧
    f.spec.decode sampleEnv oddComment.params oddComment.value = f.spec.decode sampleEnv plainComment.params plainComment.value := by decide +kernel

/-- With the order of parameters changed, there may be another error: which of two is reported is up to the order. -/
example : ∃ f ∈ partFields .event, f.key = c!"ATTACH" ∧
    f.spec.decode sampleEnv [(c!"FMTTYPE", [⟨false, c!"c"⟩]), (c!"VALUE", [⟨false, c!"d"⟩])] c!"mailto:a" ≠
    f.spec.decode sampleEnv [(c!"VALUE", [⟨false, c!"d"⟩]), (c!"FMTTYPE", [⟨false, c!"c"⟩])] c!"mailto:a" := by decide +kernel

end Ics.Props
