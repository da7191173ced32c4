import Verif.ReturnExactLemmas
import Verif.VariantLemmas
import Verif.WholeLemmas
import Verif.FineLemmas
import Verif.AgainLemmas
import Verif.Spec.Writable
/-!
# Lines with URIs that need quotes and have none

The package writes URIs of parameters without quotes.  A line with such a parameter is not read as it was meant, or not at all; but however it is read,
the parameter has no quotes, so that the property is refused.
-/

namespace Ics

open Spec

/-! ## How such a line is read -/

/-- The first value is not in quotes. -/
def Unquoted (vs : List PVal) : Prop := ∃ w ts, vs = ⟨false, w⟩ :: ts

/-- The first value is not in quotes, and does not look so. -/
def LooksUnquoted (vs : List PVal) : Prop := ∃ w ts, vs = ⟨false, w⟩ :: ts ∧ w.head? ≠ some '"'

/-- A line whose parameters are well formed, but for some of the names `R`, which have no quotes. -/
structure LineLoose (R : Str → Prop) (l : Line) : Prop where
  name_ne : l.name ≠ []
  name : ∀ c ∈ l.name, IanaChar c
  pname : ∀ p ∈ l.params, ∀ c ∈ p.1, IanaChar c
  pvals_ne : ∀ p ∈ l.params, p.2 ≠ []
  pvals : ∀ p ∈ l.params, ∀ v ∈ p.2, ∀ c ∈ v.data, NoCtl c
  each : ∀ p ∈ l.params, (∀ v ∈ p.2, ParamValOk v) ∨ (R p.1 ∧ LooksUnquoted p.2)
  value : ∀ c ∈ l.value, NoCtl c

theorem name_split {n n' : Str} {d d' : Char} {x x' : Str} (h : ∀ c ∈ n, IanaChar c) (h' : ∀ c ∈ n', IanaChar c) (hd : isIana d = false) (hd' : isIana d' = false)
    (e : n ++ d :: x = n' ++ d' :: x') : n = n' ∧ d :: x = d' :: x' := by
  obtain ⟨a1, a2⟩ := takeWhile_stop isIana n (d :: x) (fun c hc => (isIana_iff c).2 (h c hc)) (by simpa using hd)
  obtain ⟨b1, b2⟩ := takeWhile_stop isIana n' (d' :: x') (fun c hc => (isIana_iff c).2 (h' c hc)) (by simpa using hd')
  rw [e] at a1 a2
  exact ⟨a1.symm.trans b1, a2.symm.trans b2⟩

theorem params_loose {R : Str → Prop} : ∀ (ps ps' : List (Str × List PVal)) (v v' : Str), (∀ p ∈ ps, ∀ c ∈ p.1, IanaChar c) → (∀ p ∈ ps, p.2 ≠ []) →
    (∀ p ∈ ps, (∀ v ∈ p.2, ParamValOk v) ∨ (R p.1 ∧ LooksUnquoted p.2)) →
    (∀ p ∈ ps', ∀ c ∈ p.1, IanaChar c) → (∀ p ∈ ps', p.2 ≠ []) → (∀ p ∈ ps', ∀ v ∈ p.2, ParamValOk v) →
    printParams ps ++ ':' :: v = printParams ps' ++ ':' :: v' →
    (ps = ps' ∧ v = v') ∨ ∃ p ∈ ps, ∃ p' ∈ ps', p'.1 = p.1 ∧ R p.1 ∧ Unquoted p.2 ∧ Unquoted p'.2 := by
  intro ps
  induction ps with
  | nil =>
    intro ps' v v' _ _ _ _ _ _ e
    cases ps' with
    | nil => simpa [printParams] using e
    | cons p' ps' =>
      obtain ⟨n', vs'⟩ := p'
      simp [printParams] at e
  | cons p ps ih =>
    obtain ⟨n, vs⟩ := p
    intro ps' v v' h1 h2 h3 g1 g2 g3 e
    cases ps' with
    | nil => simp [printParams] at e
    | cons p' ps' =>
      obtain ⟨n', vs'⟩ := p'
      simp only [printParams, List.cons_append, List.append_assoc, List.cons.injEq, true_and] at e
      obtain ⟨hn, e'⟩ := name_split (n := n) (n' := n') (h1 (n, vs) (by simp)) (g1 (n', vs') (by simp)) (by decide) (by decide) e
      subst hn
      clear e
      simp only [List.cons.injEq, true_and] at e'
      have e := e'
      clear e'
      obtain ⟨d, r, hr, hd⟩ := printParams_head ps v
      obtain ⟨d', r', hr', hd'⟩ := printParams_head ps' v'
      rcases h3 (n, vs) (by simp) with hok | ⟨hR, w, ts, hvs, hw⟩
      · rw [hr, hr'] at e
        have a := parseVals_print vs (vs.length + vs'.length) d r (h2 (n, vs) (by simp)) hok hd (by omega)
        have b := parseVals_print vs' (vs.length + vs'.length) d' r' (g2 (n, vs') (by simp)) (g3 (n, vs') (by simp)) hd' (by omega)
        rw [e, b] at a
        simp only [Res.ok.injEq, Prod.mk.injEq] at a
        obtain ⟨rfl, a⟩ := a
        rw [← hr, ← hr'] at a
        rcases ih ps' v v' (fun p hp => h1 p (by simp [hp])) (fun p hp => h2 p (by simp [hp])) (fun p hp => h3 p (by simp [hp]))
          (fun p hp => g1 p (by simp [hp])) (fun p hp => g2 p (by simp [hp])) (fun p hp => g3 p (by simp [hp])) a.symm with ⟨rfl, rfl⟩ | ⟨p, hp, p', hp', h⟩
        · exact .inl ⟨rfl, rfl⟩
        · exact .inr ⟨p, by simp [hp], p', by simp [hp'], h⟩
      · refine .inr ⟨(n, vs), by simp, (n, vs'), by simp, rfl, hR, ⟨w, ts, hvs⟩, ?_⟩
        dsimp only at hvs
        cases vs' with
        | nil => exact absurd rfl (g2 (n, []) (by simp))
        | cons t ts' =>
          obtain ⟨q, t⟩ := t
          cases q with
          | false => exact ⟨t, ts', rfl⟩
          | true =>
            exfalso
            have h' : ∃ y, printVals (⟨true, t⟩ :: ts') = '"' :: y := by
              cases ts' <;> simp [printVals, printVal]
            obtain ⟨y, hy⟩ := h'
            rw [hy, hvs, hr] at e
            have h'' : (printVals (⟨false, w⟩ :: ts) ++ d :: r).head? ≠ some '"' := by
              cases w with
              | cons c w =>
                cases ts <;> simpa [printVals, printVal] using hw
              | nil =>
                cases ts with
                | nil => rcases hd with rfl | rfl <;> simp [printVals, printVal]
                | cons => simp [printVals, printVal]
            rw [e] at h''
            exact h'' rfl

theorem noCtl_cr {a : Str} (h : ∀ c ∈ a, NoCtl c) : '\r' ∉ a := fun hm => by
  have := h _ hm
  exact absurd this (by unfold NoCtl; decide)

theorem ianaChar_noCtl {c : Char} (h : IanaChar c) : NoCtl c := (isIana_NoCtl ((isIana_iff c).2 h)).1

theorem printVal_noCtl {v : PVal} (h : ∀ c ∈ v.data, NoCtl c) : ∀ c ∈ printVal v, NoCtl c := by
  have hq : NoCtl '"' := by unfold NoCtl; decide
  intro c hc
  unfold printVal at hc
  split at hc
  · simp only [List.cons_append, List.mem_cons, List.mem_append, List.not_mem_nil, or_false] at hc
    rcases hc with rfl | hc | rfl
    · exact hq
    · exact h c hc
    · exact hq
  · exact h c hc

theorem printVals_noCtl : ∀ {vs : List PVal}, (∀ v ∈ vs, ∀ c ∈ v.data, NoCtl c) → ∀ c ∈ printVals vs, NoCtl c := by
  have hq : NoCtl ',' := by unfold NoCtl; decide
  intro vs
  induction vs with
  | nil => intro _ c hc; simp [printVals] at hc
  | cons v vs ih =>
    intro h c hc
    cases vs with
    | nil => exact printVal_noCtl (h v (by simp)) c hc
    | cons w vs =>
      simp only [printVals, List.mem_append, List.mem_cons] at hc
      rcases hc with hc | rfl | hc
      · exact printVal_noCtl (h v (by simp)) c hc
      · exact hq
      · exact ih (fun v hv => h v (by simp [hv])) c hc

theorem printParams_noCtl : ∀ {ps : List (Str × List PVal)}, (∀ p ∈ ps, ∀ c ∈ p.1, IanaChar c) → (∀ p ∈ ps, ∀ v ∈ p.2, ∀ c ∈ v.data, NoCtl c) →
    ∀ c ∈ printParams ps, NoCtl c := by
  have hq : NoCtl ';' ∧ NoCtl '=' := by unfold NoCtl; decide
  intro ps
  induction ps with
  | nil => intro _ _ c hc; simp [printParams] at hc
  | cons p ps ih =>
    obtain ⟨n, vs⟩ := p
    intro h1 h2 c hc
    simp only [printParams, List.cons_append, List.append_assoc, List.mem_cons, List.mem_append] at hc
    rcases hc with rfl | hc | rfl | hc | hc
    · exact hq.1
    · exact ianaChar_noCtl (h1 (n, vs) (by simp) c hc)
    · exact hq.2
    · exact printVals_noCtl (h2 (n, vs) (by simp)) c hc
    · exact ih (fun p hp => h1 p (by simp [hp])) (fun p hp => h2 p (by simp [hp])) c hc

theorem printBare_noCtl {l : Line} (h1 : ∀ c ∈ l.name, IanaChar c) (h2 : ∀ p ∈ l.params, ∀ c ∈ p.1, IanaChar c)
    (h3 : ∀ p ∈ l.params, ∀ v ∈ p.2, ∀ c ∈ v.data, NoCtl c) (h4 : ∀ c ∈ l.value, NoCtl c) : ∀ c ∈ printBare l, NoCtl c := by
  intro c hc
  unfold printBare at hc
  simp only [List.append_assoc, List.mem_append, List.mem_cons] at hc
  rcases hc with hc | hc | rfl | hc
  · exact ianaChar_noCtl (h1 c hc)
  · exact printParams_noCtl h2 h3 c hc
  · unfold NoCtl; decide
  · exact h4 c hc

theorem cr_split {a b : Str} {x y : Str} (ha : '\r' ∉ a) (hb : '\r' ∉ b) (e : a ++ '\r' :: x = b ++ '\r' :: y) : a = b ∧ x = y := by
  have ne : ∀ {a : Str}, '\r' ∉ a → ∀ c ∈ a, (c != '\r') = true := by
    intro a ha c hc
    have : c ≠ '\r' := fun e => ha (e ▸ hc)
    simpa using this
  obtain ⟨a1, a2⟩ := takeWhile_stop (fun c => c != '\r') a ('\r' :: x) (ne ha) (by simp)
  obtain ⟨b1, b2⟩ := takeWhile_stop (fun c => c != '\r') b ('\r' :: y) (ne hb) (by simp)
  rw [e] at a1 a2
  have := a2.symm.trans b2
  exact ⟨a1.symm.trans b1, by simpa using this⟩

theorem parseValue_ne_panic (s : Str) : parseValue s ≠ .panic := by
  unfold parseValue
  dsimp only
  split <;> exact fun h => nomatch h

theorem parseLine_not_done {s : Str} (h : parseLine s = .done) : s = [] := by
  unfold parseLine at h
  have hs := takeWhile_dropWhile isIana s
  generalize s.takeWhile isIana = n at h hs
  generalize s.dropWhile isIana = t at h hs
  dsimp only at h
  split at h
  · next hn =>
    split at h
    · next ht => rw [hs, hn, ht]; rfl
    · cases h
  · have main : (match (do
        let (ps, r) ← parseParams (t.length + 1) t
        let (v, r) ← parseValue r
        Res.ok (Phrase.line ⟨n, ps, v⟩ r) : Res Phrase) with
        | .ok p => p
        | .err e => .error e
        | .panic => Phrase.done) = .done → s = [] := by
      intro h
      cases h1 : parseParams (t.length + 1) t with
      | panic => exact absurd h1 (parseParams_ne_panic _ _)
      | err e => rw [h1] at h; cases h
      | ok x =>
        obtain ⟨ps, u⟩ := x
        rw [h1, Res.ok_bind] at h
        dsimp only at h
        cases h2 : parseValue u with
        | panic => exact absurd h2 (parseValue_ne_panic _)
        | err e => rw [h2] at h; cases h
        | ok x => rw [h2] at h; cases h
    split at h
    · exact main h
    · exact main h
    · cases h

/-- However such a line is read, it is the line meant, or a parameter of the names `R` is read without quotes as well. -/
theorem parseLine_loose {R : Str → Prop} {l : Line} (h : LineLoose R l) (rest : Str) : (∃ e, parseLine (printLine l ++ rest) = .error e) ∨
    ∃ l', parseLine (printLine l ++ rest) = .line l' rest ∧ l'.name = l.name ∧
      (l' = l ∨ ∃ p ∈ l.params, ∃ p' ∈ l'.params, p'.1 = p.1 ∧ R p.1 ∧ Unquoted p.2 ∧ Unquoted p'.2) := by
  cases hp : parseLine (printLine l ++ rest) with
  | error e => exact .inl ⟨e, rfl⟩
  | done =>
    have := parseLine_not_done hp
    simp [printLine, printBare] at this
  | line l' r =>
    refine .inr ⟨l', ?_⟩
    obtain ⟨hok, he⟩ := parseLine_inv hp
    have hb := noCtl_cr (printBare_noCtl h.name h.pname h.pvals h.value)
    have hb' := noCtl_cr (printBare_noCtl hok.name hok.pname (fun p hp v hv c hc => (hok.pvals p hp v hv c hc).1) hok.value)
    rcases he with he | ⟨he, _⟩
    · simp only [printLine, List.append_assoc, List.cons_append, List.nil_append] at he
      obtain ⟨e1, e2⟩ := cr_split hb hb' he
      simp only [List.cons.injEq, true_and] at e2
      subst e2
      unfold printBare at e1
      obtain ⟨d, x, hx, hd⟩ := printParams_head l.params l.value
      obtain ⟨d', x', hx', hd'⟩ := printParams_head l'.params l'.value
      have hi : ∀ {d : Char}, d = ';' ∨ d = ':' → isIana d = false := by rintro d (rfl | rfl) <;> decide
      rw [List.append_assoc, List.append_assoc, hx, hx'] at e1
      obtain ⟨n1, n2⟩ := name_split h.name hok.name (hi hd) (hi hd') e1
      rw [← hx, ← hx'] at n2
      refine ⟨rfl, n1.symm, ?_⟩
      rcases params_loose (R := R) _ _ _ _ h.pname h.pvals_ne h.each hok.pname hok.pvals_ne hok.pvals n2 with ⟨a, b⟩ | h
      · obtain ⟨n, ps, v⟩ := l
        obtain ⟨n', ps', v'⟩ := l'
        dsimp only at n1 a b
        subst n1 a b
        exact .inl rfl
      · exact .inr h
    · exfalso
      apply hb'
      rw [← he]
      simp [printLine]

/-! ## Such a property is refused -/

/-- The name of a parameter that has URIs. -/
def UrlName (sh : Shape) (n : Str) : Prop :=
  match sh with
  | .enum _ => False
  | .fields params _ => ∃ d ∈ params, d.name = n ∧ (d.kind = .url ∨ d.kind = .urls)

theorem decode_unquoted {E : Env} {sp : PSpec} (hw : sp.wf = true) {ps : List (Str × List PVal)} {p : Str × List PVal} (hp : p ∈ ps) (hn : UrlName sp.shape p.1)
    (hu : Unquoted p.2) (value : Str) (r : PropVal) : sp.decode E ps value ≠ .ok r := by
  intro h
  replace h := (PSpec.decode_iff hw _ _ _).1 h
  obtain ⟨n, sh⟩ := sp
  cases sh with
  | enum names => exact hn
  | fields params vals =>
    obtain ⟨d, hd, e, hk⟩ := hn
    obtain ⟨qs, i, m, k, v, hr, h2, _⟩ := h
    have hq : ∃ q, ParamReads E ps d q := by
      clear hw hr
      induction h2 with
      | nil => cases hd
      | cons h _ ih =>
        rcases List.mem_cons.1 hd with rfl | hd
        · exact ⟨_, h⟩
        · exact ih hd
    obtain ⟨q, hq⟩ := hq
    have hup : upper p.1 = d.name := by
      have := ((PSpec.wf_fields hw).known d hd).name
      rw [← e]
      exact (nameOk_iff.1 this).2.2
    have hm : p.2 ∈ valuesOf ps d.name := List.mem_map.2 ⟨p, List.mem_filter.2 ⟨hp, by simpa using hup⟩, rfl⟩
    unfold ParamReads at hq
    obtain ⟨w, ts, hu⟩ := hu
    split at hq
    · next h0 => rw [h0] at hm; cases hm
    · next vs h0 =>
      rw [h0, List.mem_singleton] at hm
      subst hm
      obtain ⟨v, hv, _⟩ := hq
      rw [hu] at hv
      rcases hk with hk | hk <;> rw [hk] at hv
      · obtain ⟨s, u, e, _⟩ := hv
        simp at e
      · obtain ⟨us, _, hv⟩ := hv
        cases hv with
        | cons h _ => exact absurd h.1 (by simp)
    · exact hq

def Shape.isEnum : Shape → Bool
  | .enum _ => true
  | .fields _ _ => false

/-- The properties of one name have the same shape in all components, but for the names of STATUS. -/
theorem shapes_by_name : ∀ f ∈ allFields, ∀ g ∈ allFields, g.key = f.spec.name → f.spec.shape.isEnum = true ∨ g.spec.shape = f.spec.shape := by decide +kernel

theorem allFields_wf : ∀ f ∈ allFields, f.spec.wf = true := by decide +kernel

theorem sameRead_refused {E : Env} {f : SField} (hm : f ∈ allFields) (hf : FieldWf f) {l l' : Line} (hl : l.name = f.spec.name) (hl' : l'.name = f.spec.name)
    {p p' : Str × List PVal} (hp : p ∈ l.params) (hp' : p' ∈ l'.params) (e : p'.1 = p.1) (hR : UrlName f.spec.shape p.1) (hu : Unquoted p.2) (hu' : Unquoted p'.2) :
    SameRead true E l' l := by
  have hup : upper f.spec.name = f.spec.name := by
    have := hf.spec
    unfold PSpec.wf at this
    simp only [Bool.and_eq_true] at this
    exact nameOk_up this.1
  refine ⟨by rw [hl, hl'], ?_, ?_⟩
  · intro hc
    rw [hl', hup] at hc
    simp only [Spec.control, List.mem_cons, List.not_mem_nil, or_false] at hc
    rcases hc with hc | hc | hc
    · exact absurd hc hf.notCtl2.1
    · exact absurd hc hf.notCtl2.2.1
    · exact absurd hc hf.notCtl2.2.2
  · intro g hg hk
    rw [hl', hup] at hk
    have hsh : g.spec.shape = f.spec.shape := by
      rcases shapes_by_name f hm g hg hk with h | h
      · exfalso
        generalize f.spec.shape = sh at h hR
        cases sh with
        | enum => exact hR
        | fields => cases h
      · exact h
    have hw := allFields_wf g hg
    unfold ResAlike
    rw [if_pos rfl]
    intro a
    exact ⟨fun h => absurd h (decode_unquoted hw hp' (by rw [hsh, e]; exact hR) hu' _ _), fun h => absurd h (decode_unquoted hw hp (by rw [hsh]; exact hR) hu _ _)⟩

/-! ## What is written -/

/-- Values that are written as one parameter of a line. -/
def ParamLoose (E : Env) : PKind → ParamVal → Prop
  | .url, .url u => UrlPlain E u
  | .urls, .urls us => ∀ u ∈ us, UrlPlain E u
  | k, v => ParamSafe E k v

theorem PKind.encode_loose (E : Env) (name : Str) (k : PKind) (v : ParamVal) (hk : k.wf = true) (h : ParamLoose E k v) :
    k.encode E name v = some (if vanishes E k v = true then [] else ';' :: name ++ '=' :: printVals (ptokens E k v)) ∧
    (vanishes E k v = false → ptokens E k v ≠ []) ∧ (∀ t ∈ ptokens E k v, ∀ c ∈ t.data, NoCtl c) ∧
    (vanishes E k v = false → (∀ t ∈ ptokens E k v, ParamValOk t) ∨ ((k = .url ∨ k = .urls) ∧ LooksUnquoted (ptokens E k v))) := by
  have safe : ParamSafe E k v → k.encode E name v = some (if vanishes E k v = true then [] else ';' :: name ++ '=' :: printVals (ptokens E k v)) ∧
    (vanishes E k v = false → ptokens E k v ≠ []) ∧ (∀ t ∈ ptokens E k v, ∀ c ∈ t.data, NoCtl c) ∧
    (vanishes E k v = false → (∀ t ∈ ptokens E k v, ParamValOk t) ∨ ((k = .url ∨ k = .urls) ∧ LooksUnquoted (ptokens E k v))) := by
    intro h
    obtain ⟨a, b, c⟩ := PKind.encode_safe E name k v hk h
    exact ⟨a, b, fun t ht x hx => (c t ht x hx).1, fun _ => .inl c⟩
  cases k with
  | url =>
    cases v with
    | url u =>
      refine ⟨?_, by simp [ptokens], ?_, fun _ => .inr ⟨.inl rfl, ⟨_, _, rfl, h.2⟩⟩⟩
      · simp only [PKind.encode, vanishes, ptokens]
        split <;> simp_all [printVals, printVal]
      · intro t ht
        simp only [ptokens, List.mem_singleton] at ht
        subst ht
        exact h.1
    | _ => exact safe h
  | urls =>
    cases v with
    | urls us =>
      refine ⟨?_, by simp [vanishes, ptokens], ?_, ?_⟩
      · simp only [PKind.encode, vanishes, ptokens]
        cases us with
        | nil => simp
        | cons u us =>
          rw [commas_some _ (fun u => ⟨false, E.urlString u⟩)]
          · simp
          · intro x _; simp [printVal]
      · intro t ht
        simp only [ptokens, List.mem_map] at ht
        obtain ⟨u, hu, rfl⟩ := ht
        exact (h u hu).1
      · intro hv
        cases us with
        | nil => simp [vanishes] at hv
        | cons u us => exact .inr ⟨.inr rfl, ⟨_, _, rfl, (h u (by simp)).2⟩⟩
    | _ => exact safe h
  | _ => exact safe h

def ParamsLoose (E : Env) : List PDef → List (Option ParamVal) → Prop
  | [], [] => True
  | d :: ds, p :: ps => (∀ v, p = some v → ParamLoose E d.kind v) ∧ ParamsLoose E ds ps
  | _, _ => False

theorem encParams_loose (E : Env) : ∀ (ds : List PDef) (ps : List (Option ParamVal)), (∀ d ∈ ds, d.Wf) → ParamsLoose E ds ps →
    cat (encParams E ds ps) = some (printParams (paramToks E ds ps)) := by
  intro ds
  induction ds with
  | nil => intro ps _ h; cases ps <;> first | rfl | exact absurd h id
  | cons d ds ih =>
    intro ps hw h
    cases ps with
    | nil => exact absurd h id
    | cons p ps =>
      obtain ⟨h1, h2⟩ := h
      have hr := ih ps (fun x hx => hw x (List.mem_cons_of_mem _ hx)) h2
      cases p with
      | none =>
        simp only [encParams, paramToks, cat_cons, hr]
        rfl
      | some v =>
        obtain ⟨e1, _⟩ := PKind.encode_loose E d.name d.kind v (hw d List.mem_cons_self).kind (h1 v rfl)
        simp only [encParams, paramToks, e1, cat_cons, hr]
        split <;> simp [printParams]

theorem paramToks_loose (E : Env) : ∀ (ds : List PDef) (ps : List (Option ParamVal)), (∀ d ∈ ds, d.Wf) → ParamsLoose E ds ps →
    ∀ p ∈ paramToks E ds ps, (∀ c ∈ p.1, IanaChar c) ∧ p.2 ≠ [] ∧ (∀ t ∈ p.2, ∀ c ∈ t.data, NoCtl c) ∧
      ((∀ t ∈ p.2, ParamValOk t) ∨ ((∃ d ∈ ds, d.name = p.1 ∧ (d.kind = .url ∨ d.kind = .urls)) ∧ LooksUnquoted p.2)) := by
  intro ds
  induction ds with
  | nil => intro ps _ h p hp; cases ps <;> simp [paramToks] at hp
  | cons d ds ih =>
    intro ps hw h q hq
    cases ps with
    | nil => exact absurd h id
    | cons p ps =>
      obtain ⟨h1, h2⟩ := h
      simp only [paramToks] at hq
      rw [List.mem_append] at hq
      rcases hq with hq | hq
      · cases p with
        | none => simp at hq
        | some v =>
          obtain ⟨e1, e2, e3, e4⟩ := PKind.encode_loose E d.name d.kind v (hw d List.mem_cons_self).kind (h1 v rfl)
          dsimp only at hq
          split at hq
          · simp at hq
          · next hv =>
            simp only [List.mem_singleton] at hq
            subst hq
            have hv : vanishes E d.kind v = false := by simpa using hv
            refine ⟨fun c hc => (isIana_iff c).1 ((nameOk_iff.1 (hw d List.mem_cons_self).name).2.1 c hc), e2 hv, e3, ?_⟩
            rcases e4 hv with h | ⟨a, b⟩
            · exact .inl h
            · exact .inr ⟨⟨d, List.mem_cons_self, rfl, a⟩, b⟩
      · obtain ⟨a, b, c, h⟩ := ih ps (fun x hx => hw x (List.mem_cons_of_mem _ hx)) h2 q hq
        refine ⟨a, b, c, h.imp id ?_⟩
        rintro ⟨⟨d, hd, h⟩, g⟩
        exact ⟨⟨d, List.mem_cons_of_mem _ hd, h⟩, g⟩

/-- Properties that are written as one line, but for the quotes of URIs. -/
def PropLoose (E : Env) (sp : PSpec) (pv : PropVal) : Prop :=
  match sp.shape, pv with
  | .enum names, .enum n => n < names.length
  | .fields params vals, .fields ps vs => ParamsLoose E params ps ∧
    ∃ i v, i < vals.length ∧ vs = oneOf vals.length i v ∧ v.kind = (vals.getD i ([], .text)).2 ∧ v.TextOk ∧ v.LibOk E ∧ HeadOk v
  | _, _ => False

theorem LineLoose.of {R : Str → Prop} {l : Line} (h : LineOk l) : LineLoose R l :=
  ⟨h.name_ne, h.name, h.pname, h.pvals_ne, fun p hp v hv c hc => (h.pvals p hp v hv c hc).1, fun p hp => .inl (h.pvals p hp), h.value⟩

theorem PSpec.encode_line_loose (E : Env) (sp : PSpec) (pv : PropVal) (hw : sp.wf = true) (h : PropLoose E sp pv) :
    sp.encode E pv = some (printLine (toLine E sp pv)) ∧ LineLoose (UrlName sp.shape) (toLine E sp pv) ∧ (toLine E sp pv).name = sp.name := by
  obtain ⟨n, sh⟩ := sp
  cases sh with
  | «enum» names =>
    have h' : PropSafe E ⟨n, .enum names⟩ pv := by cases pv <;> exact h
    obtain ⟨a, b, c⟩ := PSpec.encode_line E _ pv hw h'
    exact ⟨a, .of b, c⟩
  | fields params vals =>
    cases pv with
    | «enum» m => exact absurd h id
    | fields ps vs =>
      have hn : nameOk n = true := by
        unfold PSpec.wf at hw
        simp only [Bool.and_eq_true] at hw
        exact hw.1
      obtain ⟨n1, n2, n3⟩ := nameOk_iff.1 hn
      have hf := PSpec.wf_fields hw
      obtain ⟨h1, i, v, h2, rfl, h4, h5, h6, h7⟩ := h
      have hl : toLine E ⟨n, .fields params vals⟩ (.fields ps (oneOf vals.length i v)) =
          ⟨n, paramToks E params ps ++ valueToks vals i ++ headToks v, v.text_ E⟩ := by
        simp only [toLine, oneOf_findIdx _ i v h2, oneOf_get _ i v h2]
      rw [hl]
      have hp : ∀ p ∈ paramToks E params ps ++ valueToks vals i ++ headToks v,
          (∀ c ∈ p.1, IanaChar c) ∧ p.2 ≠ [] ∧ (∀ t ∈ p.2, ∀ c ∈ t.data, NoCtl c) ∧
          ((∀ t ∈ p.2, ParamValOk t) ∨ ((∃ d ∈ params, d.name = p.1 ∧ (d.kind = .url ∨ d.kind = .urls)) ∧ LooksUnquoted p.2)) := by
        intro p hp
        rw [List.mem_append, List.mem_append] at hp
        have weak : (∀ c ∈ p.1, IanaChar c) ∧ p.2 ≠ [] ∧ (∀ t ∈ p.2, ParamValOk t) → (∀ c ∈ p.1, IanaChar c) ∧ p.2 ≠ [] ∧ (∀ t ∈ p.2, ∀ c ∈ t.data, NoCtl c) ∧
          ((∀ t ∈ p.2, ParamValOk t) ∨ ((∃ d ∈ params, d.name = p.1 ∧ (d.kind = .url ∨ d.kind = .urls)) ∧ LooksUnquoted p.2)) :=
          fun ⟨a, b, c⟩ => ⟨a, b, fun t ht x hx => (c t ht x hx).1, .inl c⟩
        rcases hp with (hp | hp) | hp
        · exact paramToks_loose E params ps hf.known h1 p hp
        · exact weak (valueToks_ok hf h2 p hp)
        · exact weak (headToks_ok h7 p hp)
      refine ⟨?_, ⟨n1, fun c hc => (isIana_iff c).1 (n2 c hc), fun p hpp => (hp p hpp).1, fun p hpp => (hp p hpp).2.1,
        fun p hpp => (hp p hpp).2.2.1, fun p hpp => (hp p hpp).2.2.2, Val.text_NoCtl h5 h6⟩, rfl⟩
      simp only [PSpec.encode, encParams_loose E params ps hf.known h1, Option.map_some, encVals_oneOf E v vals true i h2]
      simp only [printLine, printBare, printParams_append, Val.aencode, head_print, crlf]
      congr 1
      by_cases hi : i = 0
      · subst hi; simp [valueToks, printParams]
      · simp [hi, valueToks, printParams, printVals, printVal]

/-! ## All lines of a calendar -/

/-- How the lines of a calendar are: the lines of properties, and lines without parameters. -/
structure LinesOf (E : Env) (P : SField → PropVal → Prop) (L : Line → Prop) : Prop where
  prop : ∀ f x, f ∈ allFields → FieldWf f → P f x → f.spec.encode E x = some (printLine (toLine E f.spec x)) ∧ L (toLine E f.spec x)
  plain : ∀ a b, nameOk a = true → nameOk b = true → L (plainLine a b)

variable {κ σ : Type}

theorem LinesOf.fields {E : Env} {P : SField → PropVal → Prop} {L : Line → Prop} (hL : LinesOf E P L) : ∀ (fs : List SField) (vs : List (List PropVal)),
    (∀ f ∈ fs, f ∈ allFields) → (∀ f ∈ fs, FieldWf f) → FieldsAll P fs vs → CatsTo (encFields E fs vs) (fieldLines E fs vs) ∧ ∀ l ∈ fieldLines E fs vs, L l := by
  intro fs
  induction fs with
  | nil =>
    intro vs _ _ h
    cases vs with
    | nil => exact ⟨.nil, by simp [fieldLines]⟩
    | cons => exact absurd h id
  | cons f fs ih =>
    intro vs hm hw h
    cases vs with
    | nil => exact absurd h id
    | cons v vs =>
      obtain ⟨h1, h2⟩ := h
      obtain ⟨r1, r2⟩ := ih vs (fun g hg => hm g (List.mem_cons_of_mem _ hg)) (fun g hg => hw g (List.mem_cons_of_mem _ hg)) h2
      have hline := fun x hx => hL.prop f x (hm f List.mem_cons_self) (hw f List.mem_cons_self) (h1 x hx)
      simp only [encFields, fieldLines]
      constructor
      · apply CatsTo.append _ r1
        have : v.map (toLine E f.spec) = v.flatMap (fun x => [toLine E f.spec x]) := by
          clear h1 hline
          induction v with
          | nil => rfl
          | cons x v ihv => simp only [List.map_cons, List.flatMap_cons, ihv, List.singleton_append]
        rw [this]
        apply CatsTo.map
        intro x hx
        rw [(hline x hx).1]
        simp
      · intro l hl
        rcases List.mem_append.1 hl with hl | hl
        · obtain ⟨x, hx, rfl⟩ := List.mem_map.1 hl
          exact (hline x hx).2
        · exact r2 l hl

theorem LinesOf.subs {E : Env} {P : SField → PropVal → Prop} {L : Line → Prop} (hL : LinesOf E P L) (enc : κ → σ → Option Str) (inner : κ → σ → List Line)
    (S : κ → σ → Prop) : ∀ (ks : List (Str × κ)) (vs : List (List σ)), (∀ x ∈ ks, nameOk x.1 = true) →
      (∀ x ∈ ks, ∀ s, S x.2 s → enc x.2 s = some ((plainLine kBEGIN x.1 :: inner x.2 s).flatMap printLine) ∧ ∀ l ∈ inner x.2 s, L l) →
      SubsAll S ks vs → CatsTo (encSubs enc ks vs) (subsLines inner ks vs) ∧ ∀ l ∈ subsLines inner ks vs, L l := by
  intro ks
  induction ks with
  | nil =>
    intro vs _ _ h
    cases vs with
    | nil => exact ⟨.nil, by simp [subsLines]⟩
    | cons => exact absurd h id
  | cons k ks ih =>
    obtain ⟨n, k⟩ := k
    intro vs hn he h
    cases vs with
    | nil => exact absurd h id
    | cons v vs =>
      obtain ⟨h1, h2⟩ := h
      obtain ⟨r1, r2⟩ := ih vs (fun g hg => hn g (List.mem_cons_of_mem _ hg)) (fun g hg => he g (List.mem_cons_of_mem _ hg)) h2
      have hek := he (n, k) List.mem_cons_self
      simp only [encSubs, subsLines]
      constructor
      · apply CatsTo.append _ r1
        apply CatsTo.map
        intro x hx
        exact (hek x (h1 x hx)).1
      · intro l hl
        rcases List.mem_append.1 hl with hl | hl
        · obtain ⟨x, hx, hl⟩ := List.mem_flatMap.1 hl
          rcases List.mem_cons.1 hl with rfl | hl
          · exact hL.plain _ _ (by decide) (hn (n, k) List.mem_cons_self)
          · exact (hek x (h1 x hx)).2 l hl
        · exact r2 l hl

theorem LinesOf.sect {E : Env} {P : SField → PropVal → Prop} {L : Line → Prop} (hL : LinesOf E P L) (T : Tab κ) (hm : ∀ f ∈ T.fields, f ∈ allFields) (hw : T.Wf)
    (enc : κ → σ → Option Str) (inner : κ → σ → List Line) (S : κ → σ → Prop)
    (he : ∀ x ∈ T.subs, ∀ s, S x.2 s → enc x.2 s = some ((plainLine kBEGIN x.1 :: inner x.2 s).flatMap printLine) ∧ ∀ l ∈ inner x.2 s, L l)
    (s : Sect σ) (h : GoodSect P S T s) :
    T.encode E enc s = some ((plainLine kBEGIN T.name :: T.inner E inner s).flatMap printLine) ∧ ∀ l ∈ T.inner E inner s, L l := by
  obtain ⟨f1, f2⟩ := hL.fields T.fields s.fields hm hw.field h.1
  obtain ⟨s1, s2⟩ := hL.subs enc inner S T.subs s.subs hw.subNames he h.2.2.1
  constructor
  · have hb : CatsTo [some (lineOf kBEGIN T.name)] [plainLine kBEGIN T.name] := CatsTo.single (by rw [lineOf_print]; simp)
    have hend : CatsTo [some (lineOf kEND T.name)] [plainLine kEND T.name] := CatsTo.single (by rw [lineOf_print]; simp)
    exact (hb.append (f1.append s1)).append hend
  · intro l hl
    unfold Tab.inner at hl
    rw [List.mem_append, List.mem_append] at hl
    rcases hl with (hl | hl) | hl
    · exact f2 l hl
    · exact s2 l hl
    · rw [List.mem_singleton] at hl
      subst hl
      exact hL.plain _ _ (by decide) hw.name

theorem LinesOf.sub {E : Env} {P : SField → PropVal → Prop} {L : Line → Prop} (hL : LinesOf E P L) {y : Str × Tab SubKind} (hy : y ∈ tabCalendar.subs)
    (x : Str × SubKind) (hx : x ∈ y.2.subs) (hg : SubKind.Good x) (s : Sub) (h : GoodSub P x.2 s) :
    subEncode E x.2 s = some ((plainLine kBEGIN x.1 :: subInner E x.2 s).flatMap printLine) ∧ ∀ l ∈ subInner E x.2 s, L l := by
  obtain ⟨n, k⟩ := x
  cases k with
  | leaf T =>
    cases s with
    | alarm a => exact absurd h id
    | leaf s =>
      obtain ⟨hw, hn, hsub⟩ := hg
      have := hL.sect T (mem_allFields_leaf hy hx) hw noEnc noInner noP (by rw [hsub]; simp) s h
      simp only at hn
      subst hn
      exact this
  | alarm =>
    cases s with
    | leaf s => exact absurd h id
    | alarm a =>
      cases a with
      | none => exact absurd h id
      | some a =>
        obtain ⟨k, s⟩ := a
        have h : GoodSect P noP k.tab s := h
        have hw := aTab_wf k
        have hm := mem_allFields_alarm hy hx k
        obtain ⟨hn, hsub⟩ := aTab_name k
        simp only [SubKind.Good] at hg
        subst hg
        have hlines := hL.sect k.tab hm hw noEnc noInner noP (by rw [hsub]; simp) s h
        obtain ⟨f1, f2⟩ := hL.fields k.tab.fields s.fields hm hw.field h.1
        obtain ⟨s1, s2⟩ := hL.subs noEnc noInner noP k.tab.subs s.subs hw.subNames (by rw [hsub]; simp) h.2.2.1
        refine ⟨?_, ?_⟩
        · have hb : CatsTo [some (lineOf kBEGIN kVALARM)] [plainLine kBEGIN kVALARM] := CatsTo.single (by rw [lineOf_print]; simp)
          have ha : CatsTo [some (lineOf kACTION k.action)] [plainLine kACTION k.action] := CatsTo.single (by rw [lineOf_print]; simp)
          have hend : CatsTo [some (lineOf kEND kVALARM)] [plainLine kEND kVALARM] := CatsTo.single (by rw [lineOf_print]; simp)
          have := ((hb.append ha).append (f1.append s1)).append hend
          simp only [subEncode, alarmEncode, subInner, alarmInner, Tab.inner, hn]
          exact this
        · intro l hl
          rcases List.mem_cons.1 hl with rfl | hl
          · exact hL.plain _ _ (by decide) (by cases k <;> decide)
          · exact hlines.2 l hl

/-- A calendar is written as its lines. -/
theorem LinesOf.cal {E : Env} {P : SField → PropVal → Prop} {L : Line → Prop} (hL : LinesOf E P L) (c : Cal) (h : GoodCal P c) :
    encodeDoc E c = some ((calLines E c).flatMap printLine) ∧ ∀ l ∈ calLines E c, L l := by
  have := hL.sect tabCalendar mem_allFields_cal calTab_wf (fun T s => T.encode E (subEncode E) s) (compInner E) (GoodSect P (GoodSub P)) (by
    intro x hx s hs
    obtain ⟨hw, hn, hg⟩ := compTab_good x hx
    have := hL.sect x.2 (mem_allFields_comp hx) hw (subEncode E) (subInner E) (GoodSub P) (fun y hy s hs => hL.sub hx y hy (hg y hy) s hs) s hs
    rw [hn] at this
    exact this) c h
  refine ⟨this.1, ?_⟩
  intro l hl
  rcases List.mem_cons.1 hl with rfl | hl
  · exact hL.plain _ _ (by decide) (by decide)
  · exact this.2 l hl

/-! ## Reading them -/

/-- A line that, printed, is read as a line of the same meaning, or stops the tokeniser. -/
def ReadsAlike (E : Env) (l : Line) : Prop :=
  ∀ rest, (∃ e, parseLine (printLine l ++ rest) = .error e) ∨ ∃ l', parseLine (printLine l ++ rest) = .line l' rest ∧ SameRead true E l' l

theorem tokenise_alike {E : Env} : ∀ (ls : List Line), (∀ l ∈ ls, ReadsAlike E l) →
    ∃ a b ls', ls = a ++ b ∧ (tokenise (ls.flatMap printLine)).lines = ls' ∧ Pairwise2 (SameRead true E) ls' a := by
  intro ls
  induction ls with
  | nil => intro _; exact ⟨[], [], [], rfl, rfl, .nil⟩
  | cons l ls ih =>
    intro h
    obtain ⟨a, b, ls', e1, e2, e3⟩ := ih fun x hx => h x (by simp [hx])
    rw [List.flatMap_cons]
    rcases h l (by simp) (ls.flatMap printLine) with ⟨e, he⟩ | ⟨l', hl, hr⟩
    · refine ⟨[], l :: ls, [], rfl, ?_, .nil⟩
      unfold tokenise
      rw [streamF, he]
    · refine ⟨l :: a, b, l' :: ls', by rw [e1]; rfl, ?_, .cons hr e3⟩
      rw [tokenise_line hl, e2]

theorem variant_of {R : Line → Line → Prop} {a b : List Line} (h : Pairwise2 R a b) : Variant R a b := by
  induction h with
  | nil => exact .nil
  | cons h _ ih => exact .line h ih

/-- If a document of such lines is read, so are the lines. -/
theorem decode_alike {E : Env} {ls : List Line} (h : ∀ l ∈ ls, ReadsAlike E l) {c : Cal} (hd : decodeDoc E (ls.flatMap printLine) = .ok c) :
    decodeStream E ⟨ls, .done⟩ = .ok c := by
  obtain ⟨a, b, ls', e1, e2, e3⟩ := tokenise_alike ls h
  unfold decodeDoc at hd
  have hd : decodeStream E ⟨ls', (tokenise (ls.flatMap printLine)).term⟩ = .ok c := by rw [← e2]; exact hd
  generalize (tokenise (ls.flatMap printLine)).term = t at hd
  have hd : decodeStream E ⟨a, t⟩ = .ok c := by
    cases e3 with
    | nil => exact hd
    | cons hr hp =>
      have := decodeStream_variant (t := t) hr (variant_of hp)
      unfold ResAlike at this
      rw [if_pos rfl] at this
      exact (this c).1 hd
  obtain ⟨b', k, e, r, h1, _, _, _, _, h6⟩ := decodeStream_local hd
  dsimp only at h1
  rw [e1, h1]
  have := h6 .done (r ++ b)
  simpa using this

/-! ## Parameters of a valid property -/

theorem plain_text_of {s : Str} (h1 : ∀ c ∈ s, NoCtl c) (h2 : '^' ∉ s) (h3 : '"' ∉ s) : PlainText s := fun c hc =>
  ⟨h1 c hc, fun e => h2 (char_toNat_inj (b := '^') e ▸ hc), fun e => h3 (char_toNat_inj (b := '"') e ▸ hc)⟩

theorem noCtl_of {s : Str} (h1 : containsAny isCtl31 s = false) (h2 : '\n' ∉ s) : ∀ c ∈ s, NoCtl c := by
  intro c hc
  rw [← isCtl32_iff]
  unfold isCtl32
  unfold containsAny at h1
  rw [List.any_eq_false] at h1
  rw [Bool.or_eq_false_iff]
  refine ⟨by simpa using h1 c hc, ?_⟩
  have : c ≠ '\n' := fun e => h2 (e ▸ hc)
  simpa using this

/-- A parameter that is written ends up on the line, and either it needs no quotes or it is a URI that does. -/
theorem param_written {E : Env} {k : PKind} {v : ParamVal} (ht : k.typed v = true) (hv : k.valid v = .ok ()) (hw : ParamWritable E k v)
    (he : ¬ ∃ s ∈ paramTexts v, ∃ c ∈ s, c = '\n' ∨ c = '^' ∨ c = '"') :
    ParamLoose E k v ∧ (CleanParam E v ∨ ((k = .url ∨ k = .urls) ∧ vanishes E k v = false)) := by
  have hne : ∀ s ∈ paramTexts v, '\n' ∉ s ∧ '^' ∉ s ∧ '"' ∉ s := fun s hs =>
    ⟨fun h => he ⟨s, hs, _, h, .inl rfl⟩, fun h => he ⟨s, hs, _, h, .inr (.inl rfl)⟩, fun h => he ⟨s, hs, _, h, .inr (.inr rfl)⟩⟩
  have safe : CleanParam E v → ParamLoose E k v ∧ (CleanParam E v ∨ ((k = .url ∨ k = .urls) ∧ vanishes E k v = false)) := by
    intro h
    refine ⟨?_, .inl h⟩
    have := cleanParam_safe ht h
    cases k <;> cases v <;> first | exact this | exact hw
  cases k <;> cases v <;> simp only [PKind.typed, Bool.false_eq_true] at ht
  · next u =>
    refine ⟨hw, ?_⟩
    by_cases h : ∀ c ∈ E.urlString u, BareChar c
    · exact .inl h
    · refine .inr ⟨.inl rfl, ?_⟩
      simp only [vanishes, decide_eq_false_iff_not]
      intro e
      exact h (by rw [e]; simp)
  · next us =>
    refine ⟨hw, ?_⟩
    by_cases h : us = []
    · exact .inl (by subst h; intro u hu; cases hu)
    · exact .inr ⟨.inr rfl, by simpa [vanishes] using h⟩
  · next q s =>
    obtain ⟨a, b, c⟩ := hne s (by simp [paramTexts])
    have hv : validText s = .ok () := hv
    unfold validText at hv
    rw [Res.guard_eq_ok] at hv
    exact safe (plain_text_of (noCtl_of (by simpa using hv) a) b c)
  · next s =>
    obtain ⟨a, b, c⟩ := hne s (by simp [paramTexts])
    exact safe (plain_text_of hw b c)
  · exact safe trivial
  · next ss =>
    refine safe fun s hs => ?_
    obtain ⟨a, b, c⟩ := hne s hs
    have hv : checkAll .invalidText (fun s => !containsAny isCtl31 s) ss = .ok () := hv
    rw [checkAll_ok] at hv
    exact plain_text_of (noCtl_of (by simpa using hv s hs) a) b c
  · exact safe trivial
  · exact safe trivial

theorem paramsLoose_of {E : Env} (n : Str) (vals : List (Str × Kind)) (vs : List (Option Val)) : ∀ {ds : List PDef} {ps : List (Option ParamVal)},
    typedParams ds ps = true → (∀ x ∈ propParams ⟨n, .fields ds vals⟩ (.fields ps vs), ParamLoose E x.1.kind x.2) → ParamsLoose E ds ps := by
  intro ds
  induction ds with
  | nil => intro ps h _; cases ps <;> first | trivial | simp [typedParams] at h
  | cons d ds ih =>
    intro ps h hp
    cases ps with
    | nil => simp [typedParams] at h
    | cons p ps =>
      simp only [typedParams, Bool.and_eq_true] at h
      simp only [propParams_cons] at hp
      exact ⟨fun v hv => hp (d, v) (Or.inl ⟨v, hv, rfl⟩), ih h.2 (fun x hx => hp x (Or.inr hx))⟩

theorem propLoose_of {E : Env} {sp : PSpec} {p : PropVal} (ht : sp.typed p = true) (hv : sp.valid p = .ok ())
    (hp : ∀ x ∈ propParams sp p, ParamLoose E x.1.kind x.2) (hl : ∀ v ∈ propVals p, v.LibOk E ∧ HeadOk v) : PropLoose E sp p := by
  obtain ⟨n, sh⟩ := sp
  cases sh with
  | enum names =>
    cases p with
    | fields => simp [PSpec.typed] at ht
    | enum k => exact enum_valid hv
  | fields params vals =>
    cases p with
    | enum => simp [PSpec.typed] at ht
    | fields ps vs =>
      obtain ⟨_, t1, i, v, hi, e, hk, hvv⟩ := PSpec.typed_valid ht hv
      have hm : v ∈ propVals (.fields ps vs) := by
        simp only [propVals, List.mem_filterMap, id]
        exact ⟨some v, by rw [e]; exact List.mem_of_getElem? (i := i) (by simp [oneOf, hi]), rfl⟩
      exact ⟨paramsLoose_of n vals vs t1 hp, i, v, hi, e, hk, Val.valid_textOk hvv, hl v hm⟩

theorem valid_params {sp : PSpec} {p : PropVal} (hv : sp.valid p = .ok ()) : ∀ x ∈ propParams sp p, x.1.kind.valid x.2 = .ok () := by
  obtain ⟨n, sh⟩ := sp
  cases sh with
  | enum names => intro x hx; cases p <;> simp [propParams] at hx
  | fields params vals =>
    cases p with
    | enum => intro x hx; simp [propParams] at hx
    | fields ps vs =>
      simp only [PSpec.valid, unit_bind_ok] at hv
      exact (validParams_iff _ _).1 hv.1

/-- The values of a parameter are on the line of its property. -/
theorem toLine_param {E : Env} {sp : PSpec} {p : PropVal} (h : PropLoose E sp p) {x : PDef × ParamVal} (hx : x ∈ propParams sp p)
    (hv : vanishes E x.1.kind x.2 = false) : (x.1.name, ptokens E x.1.kind x.2) ∈ (toLine E sp p).params ∧ ∃ params vals, sp.shape = .fields params vals ∧ x.1 ∈ params := by
  obtain ⟨n, sh⟩ := sp
  cases sh with
  | enum names => cases p <;> simp [propParams] at hx
  | fields params vals =>
    cases p with
    | enum => simp [propParams] at hx
    | fields ps vs =>
      obtain ⟨h1, i, v, h2, rfl, h4, h5, h6, h7⟩ := h
      have hl : toLine E ⟨n, .fields params vals⟩ (.fields ps (oneOf vals.length i v)) =
          ⟨n, paramToks E params ps ++ valueToks vals i ++ headToks v, v.text_ E⟩ := by
        simp only [toLine, oneOf_findIdx _ i v h2, oneOf_get _ i v h2]
      rw [hl]
      have main : ∀ {ds : List PDef} {ps : List (Option ParamVal)} {vs : List (Option Val)}, x ∈ propParams ⟨n, .fields ds vals⟩ (.fields ps vs) →
          (x.1.name, ptokens E x.1.kind x.2) ∈ paramToks E ds ps ∧ x.1 ∈ ds := by
        intro ds
        induction ds with
        | nil => intro ps vs hx; simp [propParams] at hx
        | cons d ds ih =>
          intro ps vs hx
          cases ps with
          | nil => simp [propParams] at hx
          | cons p ps =>
            rw [propParams_cons] at hx
            simp only [paramToks, List.mem_append]
            rcases hx with ⟨v, rfl, rfl⟩ | hx
            · refine ⟨.inl ?_, by simp⟩
              dsimp only at hv ⊢
              rw [hv]
              simp
            · exact ⟨.inr (ih hx).1, by simp [(ih hx).2]⟩
      exact ⟨by simp [(main hx).1], params, vals, rfl, (main hx).2⟩

theorem ptokens_unquoted {E : Env} {k : PKind} {v : ParamVal} (ht : k.typed v = true) (hk : k = .url ∨ k = .urls) (hv : vanishes E k v = false) :
    Unquoted (ptokens E k v) := by
  rcases hk with rfl | rfl
  · cases v <;> simp [PKind.typed] at ht
    exact ⟨_, _, rfl⟩
  · cases v <;> simp [PKind.typed] at ht
    next us =>
    cases us with
    | nil => simp [vanishes] at hv
    | cons u us => exact ⟨_, _, rfl⟩

/-! ## Decoded calendars can be written -/

theorem dateTime_zone {E : Env} (hE : SaneEnv E) {p : Nat} {tz : Option Str} {s : Str} {t : GoTime} (h : DateTimeMeans E p tz s t) :
    ∀ m, tzidOf t.loc = some m → ∀ c ∈ m, BareChar c := by
  obtain ⟨a, c, f, y, m, d, h, mi, sec, ns, k, l, h1, h2, h3, h4, rfl, h5⟩ := h
  cases tz with
  | some n => exact (zoneNamed_sane hE h5.1).2.2
  | none =>
    rcases h5 with ⟨rfl, _⟩ | ⟨rfl, _⟩
    · exact fun m h => by cases h
    · exact fun m h => by cases h

theorem val_plain {E : Env} (hE : SaneEnv E) (hP : PlainEnv E) {look : Str → Option Str} {k : Kind} {s : Str} {v : Val} (h : ValMeans E look k s v) :
    CleanVal E v ∧ PlainFloats E v := by
  have none_ : ∀ {l : Loc}, (∀ m, tzidOf l = some m → ∀ c ∈ m, BareChar c) → ∀ name ptr rules, l = .zone name ptr rules → ∀ c ∈ name, BareChar c := by
    intro l h n q r e
    exact h n ((tzidOf_eq _ _).2 ⟨q, r, e⟩)
  cases k with
  | calAddress => obtain ⟨u, rfl, h⟩ := h; exact ⟨⟨fun _ _ _ e => (by cases e), (hP.url _ _ h).1⟩, fun _ e => by cases e⟩
  | uri => obtain ⟨u, rfl, h⟩ := h; exact ⟨⟨fun _ _ _ e => (by cases e), (hP.url _ _ h).1⟩, fun _ e => by cases e⟩
  | tfloat =>
    obtain ⟨x, rfl, h⟩ := h
    refine ⟨⟨fun _ _ _ e => (by cases e), fun c hc => ?_⟩, fun t e hc => ?_⟩
    · rcases List.mem_append.1 hc with hc | hc <;> exact (hP.float _ c hc).1
    · cases e
      rcases List.mem_append.1 hc with hc | hc <;> exact (hP.float _ _ hc).2 rfl
  | dateTime => obtain ⟨t, rfl, h⟩ := h; exact ⟨⟨none_ (dateTime_zone hE h), trivial⟩, fun _ e => by cases e⟩
  | period =>
    obtain ⟨p, rfl, h⟩ := h
    refine ⟨⟨none_ ?_, trivial⟩, fun _ e => by cases e⟩
    cases h with
    | «until» _ h1 _ => exact dateTime_zone hE h1
    | lasting _ h1 _ _ => exact dateTime_zone hE h1
  | recur =>
    obtain ⟨r, rfl, h⟩ := h
    refine ⟨⟨none_ ?_, trivial⟩, fun _ e => by cases e⟩
    obtain ⟨ps, _, _, h⟩ := h
    rcases LastOf_cases h.until_ with e | ⟨v, h1 | h1⟩
    · simp only [Prod.mk.injEq] at e
      show ∀ m, tzidOf r.until_.loc = some m → _
      rw [e.1]
      exact fun m h => by cases h
    · exact dateTime_zone hE h1.1
    · show ∀ m, tzidOf r.until_.loc = some m → _
      rw [(date_again h1.1).loc]
      exact fun m h => by cases h
  | binary => obtain ⟨_, _, rfl, _⟩ := h; exact ⟨⟨fun _ _ _ e => (by cases e), trivial⟩, fun _ e => by cases e⟩
  | boolean => obtain ⟨_, rfl, _⟩ := h; exact ⟨⟨fun _ _ _ e => (by cases e), trivial⟩, fun _ e => by cases e⟩
  | date => obtain ⟨_, rfl, _⟩ := h; exact ⟨⟨fun _ _ _ e => (by cases e), trivial⟩, fun _ e => by cases e⟩
  | duration => obtain ⟨_, rfl, _⟩ := h; exact ⟨⟨fun _ _ _ e => (by cases e), trivial⟩, fun _ e => by cases e⟩
  | integer => obtain ⟨_, rfl, _⟩ := h; exact ⟨⟨fun _ _ _ e => (by cases e), trivial⟩, fun _ e => by cases e⟩
  | mtext => obtain ⟨_, rfl, _⟩ := h; exact ⟨⟨fun _ _ _ e => (by cases e), trivial⟩, fun _ e => by cases e⟩
  | text => obtain ⟨_, rfl, _⟩ := h; exact ⟨⟨fun _ _ _ e => (by cases e), trivial⟩, fun _ e => by cases e⟩
  | utcOffset => obtain ⟨_, rfl, _⟩ := h; exact ⟨⟨fun _ _ _ e => (by cases e), trivial⟩, fun _ e => by cases e⟩

theorem param_plain {E : Env} (hP : PlainEnv E) {k : PKind} {vs : List PVal} {q : ParamVal} (h : ParamMeans E k vs q) (hv : ∀ v ∈ vs, ParamValOk v) :
    ParamWritable E k q := by
  cases k with
  | url => obtain ⟨s, u, _, rfl, h⟩ := h; exact hP.url _ _ h
  | urls =>
    obtain ⟨us, rfl, h⟩ := h
    show ∀ u ∈ us, UrlPlain E u
    clear hv
    induction h with
    | nil => intro u hu; cases hu
    | cons h _ ih =>
      intro u hu
      rcases List.mem_cons.1 hu with rfl | hu
      · exact hP.url _ _ h.2
      · exact ih u hu
  | fmt =>
    obtain ⟨v, rfl, rfl, _⟩ := h
    exact fun c hc => (hv v (by simp) c hc).1
  | str => obtain ⟨_, _, _, rfl, _⟩ := h; trivial
  | «enum» => obtain ⟨_, _, ⟨_, rfl, _⟩ | ⟨rfl, _⟩⟩ := h <;> trivial
  | strs => obtain ⟨_, rfl, _⟩ := h; trivial
  | range => obtain ⟨_, _, rfl, _⟩ := h; trivial
  | bool => obtain ⟨_, _, _, rfl, _⟩ := h; trivial

theorem params_plain {E : Env} (hP : PlainEnv E) {l : Line} (hl : LineOk l) : ∀ {ds : List PDef} {qs : List (Option ParamVal)},
    Pairwise2 (ParamReads E l.params) ds qs → ∀ y ∈ (ds.zip qs).filterMap (fun x => x.2.map fun v => (x.1, v)), ParamWritable E y.1.kind y.2 := by
  intro ds qs h
  induction h with
  | nil => simp
  | @cons d q ds qs h _ ih =>
    intro y hy
    simp only [List.zip_cons_cons, List.filterMap_cons] at hy
    cases q with
    | none => exact ih y hy
    | some q =>
      simp only [Option.map_some, List.mem_cons] at hy
      rcases hy with rfl | hy
      · unfold ParamReads at h
        split at h
        · cases h
        · next vs e =>
          obtain ⟨v, h, e'⟩ := h
          cases e'
          obtain ⟨p, hp, rfl⟩ := valuesOf_mem (show vs ∈ valuesOf l.params d.name by rw [e]; simp)
          exact param_plain hP h (hl.pvals p hp)
        · cases h
      · exact ih y hy

theorem decoded_plain {E : Env} (hE : SaneEnv E) (hP : PlainEnv E) {s : Str} {c : Cal} (h : decodeDoc E s = .ok c) :
    CalAll (fun f p => (∀ y ∈ propParams f.spec p, ParamWritable E y.1.kind y.2) ∧ ∀ v ∈ propVals p, CleanVal E v ∧ PlainFloats E v) c := by
  refine decodeStream_all (L := LineOk) (fun f l p hw hl hd => ?_) (Props.C11_document s) h
  have h := (PSpec.decode_iff hw.spec _ _ _).1 hd
  unfold PropReads at h
  unfold propParams
  split at h
  · obtain ⟨n, rfl, _⟩ := h
    simp [propVals]
  · next params vals e =>
    obtain ⟨qs, i, n, k, v, rfl, h1, _, h2, h3⟩ := h
    rw [e]
    refine ⟨params_plain hP hl h1, fun w hw => ?_⟩
    unfold propVals at hw
    simp only [List.mem_filterMap, id] at hw
    obtain ⟨o, ho, rfl⟩ := hw
    rcases List.mem_or_eq_of_mem_set ho with ho | ho
    · rw [List.mem_replicate] at ho; cases ho.2
    · cases ho
      exact val_plain hE hP h3

end Ics
