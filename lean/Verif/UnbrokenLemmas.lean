import Verif.LooseLemmas
import Verif.TruncLemmas
import Verif.Spec.Unbroken
/-!
# Written calendars line by line

Whatever the values, a property that is written is written as the text of one content line.  It is one line of the text unless one of the things the
package takes from elsewhere (URIs, floats, format types, names of time zones) has control characters.
-/

namespace Ics

open Spec

/-! ## What is written -/

theorem plain6868_of {s : Str} (h : ¬ ∃ c ∈ s, c = '\n' ∨ c = '^' ∨ c = '"') : encode6868 s = some s := by
  apply encode6868_plain
  intro c hc
  cases he : isEsc6868 c
  · rfl
  · exact absurd ⟨c, hc, (isEsc6868_iff c).1 he⟩ h

/-- Control characters can only be in what comes from elsewhere. -/
theorem PKind.encode_any (E : Env) (name : Str) (k : PKind) (v : ParamVal) (hk : k.wf = true) (ht : k.typed v = true) (hv : k.valid v = .ok ())
    (he : ¬ ∃ s ∈ paramTexts v, ∃ c ∈ s, c = '\n' ∨ c = '^' ∨ c = '"') :
    k.encode E name v = some (if vanishes E k v = true then [] else ';' :: name ++ '=' :: printVals (ptokens E k v)) ∧
    (UnbrokenParam E k v ↔ (vanishes E k v = false → ∀ t ∈ ptokens E k v, ∀ c ∈ t.data, NoCtl c)) := by
  have safe : ParamSafe E k v → UnbrokenParam E k v → k.encode E name v = some (if vanishes E k v = true then [] else ';' :: name ++ '=' :: printVals (ptokens E k v)) ∧
    (UnbrokenParam E k v ↔ (vanishes E k v = false → ∀ t ∈ ptokens E k v, ∀ c ∈ t.data, NoCtl c)) := by
    intro h hu
    obtain ⟨a, b, c⟩ := PKind.encode_safe E name k v hk h
    exact ⟨a, fun _ _ t ht x hx => (c t ht x hx).1, fun _ => hu⟩
  have hne : ∀ s ∈ paramTexts v, '\n' ∉ s ∧ '^' ∉ s ∧ '"' ∉ s := fun s hs =>
    ⟨fun h => he ⟨s, hs, _, h, .inl rfl⟩, fun h => he ⟨s, hs, _, h, .inr (.inl rfl)⟩, fun h => he ⟨s, hs, _, h, .inr (.inr rfl)⟩⟩
  cases k <;> cases v <;> simp only [PKind.typed, Bool.false_eq_true] at ht
  · next u =>
    refine ⟨?_, ?_⟩
    · simp only [PKind.encode, vanishes, ptokens]
      split <;> simp_all [printVals, printVal]
    · simp only [UnbrokenParam, vanishes, ptokens, List.mem_singleton, forall_eq, decide_eq_false_iff_not]
      refine ⟨fun h _ => h, fun h c hc => h (fun e => by rw [e] at hc; cases hc) c hc⟩
  · next us =>
    refine ⟨?_, ?_⟩
    · simp only [PKind.encode, vanishes, ptokens]
      cases us with
      | nil => simp
      | cons u us =>
        rw [commas_some _ (fun u => ⟨false, E.urlString u⟩)]
        · simp
        · intro x _; simp [printVal]
    · simp only [UnbrokenParam, vanishes, ptokens, List.mem_map]
      constructor
      · rintro h _ t ⟨u, hu, rfl⟩
        exact h u hu
      · intro h u hu
        exact h (by cases us with | nil => cases hu | cons => rfl) _ ⟨u, hu, rfl⟩
  · next q s =>
    obtain ⟨a, b, c⟩ := hne s (by simp [paramTexts])
    have hv : validText s = .ok () := hv
    unfold validText at hv
    rw [Res.guard_eq_ok] at hv
    exact safe (Props.plain_chars (plain_text_of (noCtl_of (by simpa using hv) a) b c)) trivial
  · next s =>
    have h6 := plain6868_of (fun h => he ⟨s, by simp [paramTexts], h⟩)
    refine ⟨?_, ?_⟩
    · simp only [PKind.encode, vanishes, ptokens, h6]
      cases s with
      | nil => simp
      | cons c s =>
        simp only [printVals, printVal, quote]
        split <;> simp_all
    · simp only [UnbrokenParam, vanishes, ptokens, List.mem_singleton, forall_eq]
      refine ⟨fun h _ => h, fun h c hc => h (by cases s with | nil => cases hc | cons => rfl) c hc⟩
  · exact safe trivial trivial
  · next ss =>
    refine safe (fun s hs => ?_) trivial
    obtain ⟨a, b, c⟩ := hne s hs
    have hv : checkAll .invalidText (fun s => !containsAny isCtl31 s) ss = .ok () := hv
    rw [checkAll_ok] at hv
    exact Props.plain_chars (plain_text_of (noCtl_of (by simpa using hv s hs) a) b c)
  · exact safe trivial trivial
  · exact safe trivial trivial

/-- The names on a line are of name characters. -/
structure LineNamed (l : Line) : Prop where
  name_ne : l.name ≠ []
  name : ∀ c ∈ l.name, IanaChar c
  pname : ∀ p ∈ l.params, ∀ c ∈ p.1, IanaChar c

/-- No control characters. -/
def LineClear (l : Line) : Prop := (∀ p ∈ l.params, ∀ v ∈ p.2, ∀ c ∈ v.data, NoCtl c) ∧ ∀ c ∈ l.value, NoCtl c

def ParamsAny (E : Env) : List PDef → List (Option ParamVal) → Prop
  | [], [] => True
  | d :: ds, p :: ps => (∀ v, p = some v → d.kind.typed v = true ∧ d.kind.valid v = .ok () ∧ ¬ ∃ s ∈ paramTexts v, ∃ c ∈ s, c = '\n' ∨ c = '^' ∨ c = '"') ∧
      ParamsAny E ds ps
  | _, _ => False

theorem encParams_any (E : Env) : ∀ (ds : List PDef) (ps : List (Option ParamVal)), (∀ d ∈ ds, d.Wf) → ParamsAny E ds ps →
    cat (encParams E ds ps) = some (printParams (paramToks E ds ps)) := by
  intro ds
  induction ds with
  | nil => intro ps _ h; cases ps <;> first | rfl | exact absurd h id
  | cons d ds ih =>
    intro ps hw h
    cases ps with
    | nil => exact absurd h id
    | cons p ps =>
      obtain ⟨h1, h2⟩ := h
      have hr := ih ps (fun x hx => hw x (List.mem_cons_of_mem _ hx)) h2
      cases p with
      | none =>
        simp only [encParams, paramToks, cat_cons, hr]
        rfl
      | some v =>
        obtain ⟨a, b, c⟩ := h1 v rfl
        obtain ⟨e1, _⟩ := PKind.encode_any E d.name d.kind v (hw d List.mem_cons_self).kind a b c
        simp only [encParams, paramToks, e1, cat_cons, hr]
        split <;> simp [printParams]

theorem paramToks_any (E : Env) (n : Str) (vals : List (Str × Kind)) (vs : List (Option Val)) : ∀ (ds : List PDef) (ps : List (Option ParamVal)), (∀ d ∈ ds, d.Wf) →
    ParamsAny E ds ps → (∀ p ∈ paramToks E ds ps, ∀ c ∈ p.1, IanaChar c) ∧
      ((∀ y ∈ propParams ⟨n, .fields ds vals⟩ (.fields ps vs), UnbrokenParam E y.1.kind y.2) ↔ ∀ p ∈ paramToks E ds ps, ∀ t ∈ p.2, ∀ c ∈ t.data, NoCtl c) := by
  intro ds
  induction ds with
  | nil => intro ps _ h; cases ps <;> first | exact absurd h id | simp [paramToks, propParams]
  | cons d ds ih =>
    intro ps hw h
    cases ps with
    | nil => exact absurd h id
    | cons p ps =>
      obtain ⟨h1, h2⟩ := h
      obtain ⟨r1, r2⟩ := ih ps (fun x hx => hw x (List.mem_cons_of_mem _ hx)) h2
      simp only [propParams_cons, paramToks, List.mem_append]
      cases p with
      | none =>
        simp only [List.not_mem_nil, false_or, reduceCtorEq, false_and, exists_false]
        exact ⟨r1, r2⟩
      | some v =>
        obtain ⟨a, b, c⟩ := h1 v rfl
        obtain ⟨_, e2⟩ := PKind.encode_any E d.name d.kind v (hw d List.mem_cons_self).kind a b c
        dsimp only
        constructor
        · rintro q (hq | hq)
          · split at hq
            · cases hq
            · rw [List.mem_singleton] at hq
              subst hq
              exact fun c hc => (isIana_iff c).1 ((nameOk_iff.1 (hw d List.mem_cons_self).name).2.1 c hc)
          · exact r1 q hq
        · constructor
          · rintro h q (hq | hq)
            · split at hq
              · cases hq
              · next hv =>
                rw [List.mem_singleton] at hq
                subst hq
                exact e2.1 (h (d, v) (.inl ⟨v, rfl, rfl⟩)) (by simpa using hv)
            · exact r2.1 (fun y hy => h y (.inr hy)) q hq
          · rintro h y (⟨w, hw, rfl⟩ | hy)
            · cases hw
              refine e2.2 fun hv => ?_
              have := h (d.name, ptokens E d.kind v) (.inl (by rw [if_neg (by simp [hv])]; simp))
              exact this
            · exact r2.2 (fun p hp => h p (.inr hp)) y hy

theorem paramsAny_of {E : Env} (n : Str) (vals : List (Str × Kind)) (vs : List (Option Val)) : ∀ {ds : List PDef} {ps : List (Option ParamVal)},
    typedParams ds ps = true → (∀ x ∈ propParams ⟨n, .fields ds vals⟩ (.fields ps vs), x.1.kind.valid x.2 = .ok () ∧
      ¬ ∃ s ∈ paramTexts x.2, ∃ c ∈ s, c = '\n' ∨ c = '^' ∨ c = '"') → ParamsAny E ds ps := by
  intro ds
  induction ds with
  | nil => intro ps h _; cases ps <;> first | trivial | simp [typedParams] at h
  | cons d ds ih =>
    intro ps h hp
    cases ps with
    | nil => simp [typedParams] at h
    | cons p ps =>
      have ht := typedParams_mem n vals vs h
      simp only [typedParams, Bool.and_eq_true] at h
      simp only [propParams_cons] at hp ht
      exact ⟨fun v hv => ⟨ht (d, v) (Or.inl ⟨v, hv, rfl⟩), hp (d, v) (Or.inl ⟨v, hv, rfl⟩)⟩, ih h.2 (fun x hx => hp x (Or.inr hx))⟩

theorem headToks_any (v : Val) : (∀ p ∈ headToks v, ∀ c ∈ p.1, IanaChar c) ∧
    ((∀ name ptr rules, valLoc v = .zone name ptr rules → ∀ c ∈ name, NoCtl c) ↔ ∀ p ∈ headToks v, ∀ t ∈ p.2, ∀ c ∈ t.data, NoCtl c) := by
  have hi : ∀ c ∈ c!"TZID", IanaChar c := by
    have : ∀ c ∈ c!"TZID", isIana c = true := by decide
    exact fun c hc => (isIana_iff c).1 (this c hc)
  have tz : (∀ p ∈ (match v.tzid with
    | some n => [(c!"TZID", [(⟨false, n⟩ : PVal)])]
    | none => []), ∀ c ∈ p.1, IanaChar c) ∧
    ((∀ name ptr rules, valLoc v = .zone name ptr rules → ∀ c ∈ name, NoCtl c) ↔ ∀ p ∈ (match v.tzid with
    | some n => [(c!"TZID", [(⟨false, n⟩ : PVal)])]
    | none => []), ∀ t ∈ p.2, ∀ c ∈ t.data, NoCtl c) := by
    rw [valLoc_tzid]
    cases valLoc v with
    | zone n p r =>
      simp only [tzidOf, List.mem_singleton, forall_eq]
      refine ⟨hi, fun h => h n p r rfl, ?_⟩
      intro h a b d e
      cases e
      exact h
    | _ => simp [tzidOf]
  cases v
  case binary b =>
    refine ⟨?_, ?_⟩
    · have : ∀ c ∈ c!"ENCODING", isIana c = true := by decide
      simp only [headToks, List.mem_singleton, forall_eq]
      exact fun c hc => (isIana_iff c).1 (this c hc)
    · simp only [headToks, List.mem_singleton, forall_eq, valLoc]
      refine ⟨fun _ c hc => ?_, fun _ a b d e => by cases e⟩
      have : isIana c = true := by revert c; decide
      exact (isIana_NoCtl this).1
  all_goals exact tz

theorem libOk_iff {E : Env} {v : Val} (ht : v.TextOk) : v.LibOk E ↔ ∀ c ∈ v.text_ E, NoCtl c := by
  refine ⟨fun h => Val.text_NoCtl ht h, fun h => ?_⟩
  cases v with
  | calAddress u => exact h
  | uri u => exact h
  | tfloat t =>
    refine fun c hc => h c ?_
    simp only [Val.text_, TFloat.encode, List.mem_append, List.mem_cons] at hc ⊢
    rcases hc with hc | hc
    · exact .inl hc
    · exact .inr (.inr hc)
  | _ => trivial

theorem unbrokenVal_iff {E : Env} {v : Val} (ht : v.TextOk) :
    UnbrokenVal E v ↔ (∀ p ∈ headToks v, ∀ t ∈ p.2, ∀ c ∈ t.data, NoCtl c) ∧ ∀ c ∈ v.text_ E, NoCtl c := by
  rw [← libOk_iff ht, ← (headToks_any v).2]
  cases v <;> exact Iff.rfl

/-- A property that is written is written as its line. -/
theorem PSpec.encode_any (E : Env) (sp : PSpec) (p : PropVal) (hw : sp.wf = true) (ht : sp.typed p = true) (hv : sp.valid p = .ok ())
    (he : sp.encode E p ≠ none) : sp.encode E p = some (printLine (toLine E sp p)) ∧ LineNamed (toLine E sp p) ∧
    (((∀ y ∈ propParams sp p, UnbrokenParam E y.1.kind y.2) ∧ ∀ v ∈ propVals p, UnbrokenVal E v) ↔ LineClear (toLine E sp p)) := by
  have he' : ∀ x ∈ propParams sp p, ¬ ∃ s ∈ paramTexts x.2, ∃ c ∈ s, c = '\n' ∨ c = '^' ∨ c = '"' := by
    intro x hx h
    refine he ((PSpec.encode_none E sp p).2 ⟨x, hx, ?_⟩)
    exact (PKind.encode_none E x.1.name x.1.kind x.2 (PSpec.typed_params ht x hx)).2 h
  have hvp := valid_params hv
  obtain ⟨n, sh⟩ := sp
  cases sh with
  | «enum» names =>
    cases p with
    | fields => simp [PSpec.typed] at ht
    | «enum» k =>
      obtain ⟨a, b, c⟩ := PSpec.encode_line E _ _ hw (show PropSafe E ⟨n, .enum names⟩ (.enum k) from enum_valid hv)
      refine ⟨a, ⟨b.name_ne, b.name, b.pname⟩, fun _ => ⟨fun p hp v hv c hc => (b.pvals p hp v hv c hc).1, b.value⟩, fun _ => ?_⟩
      simp [propParams, propVals]
  | fields params vals =>
    cases p with
    | «enum» => simp [PSpec.typed] at ht
    | fields ps vs =>
      have hn : nameOk n = true := by
        unfold PSpec.wf at hw
        simp only [Bool.and_eq_true] at hw
        exact hw.1
      obtain ⟨n1, n2, n3⟩ := nameOk_iff.1 hn
      have hf := PSpec.wf_fields hw
      obtain ⟨_, t1, i, v, hi, e, hk, hvv⟩ := PSpec.typed_valid ht hv
      have h1 : ParamsAny E params ps := paramsAny_of n vals vs t1 fun x hx => ⟨hvp x hx, he' x hx⟩
      have hl : toLine E ⟨n, .fields params vals⟩ (.fields ps vs) = ⟨n, paramToks E params ps ++ valueToks vals i ++ headToks v, v.text_ E⟩ := by
        subst e
        simp only [toLine, oneOf_findIdx _ i v hi, oneOf_get _ i v hi]
      have hpv : ∀ w, w ∈ propVals (.fields ps vs) ↔ w = v := by
        intro w
        simp only [propVals, List.mem_filterMap, id, e, exists_eq_right]
        constructor
        · intro h
          obtain ⟨j, hj⟩ := List.getElem?_of_mem h
          unfold oneOf at hj
          rw [List.getElem?_set] at hj
          split at hj
          · split at hj
            · simpa using hj.symm
            · cases hj
          · rw [List.getElem?_replicate] at hj
            split at hj <;> cases hj
        · rintro rfl
          exact List.mem_of_getElem? (i := i) (by simp [oneOf, hi])
      obtain ⟨k1, k2⟩ := paramToks_any E n vals vs params ps hf.known h1
      obtain ⟨g1, g2⟩ := headToks_any v
      have vt := valueToks_ok hf hi
      rw [hl]
      refine ⟨?_, ⟨n1, fun c hc => (isIana_iff c).1 (n2 c hc), ?_⟩, ?_⟩
      · subst e
        simp only [PSpec.encode, encParams_any E params ps hf.known h1, Option.map_some, encVals_oneOf E v vals true i hi]
        simp only [printLine, printBare, printParams_append, Val.aencode, head_print, crlf]
        congr 1
        by_cases hi : i = 0
        · subst hi; simp [valueToks, printParams]
        · simp [hi, valueToks, printParams, printVals, printVal]
      · intro p hp
        rw [List.mem_append, List.mem_append] at hp
        rcases hp with (hp | hp) | hp
        · exact k1 p hp
        · exact (vt p hp).1
        · exact g1 p hp
      · simp only [hpv, forall_eq, LineClear, List.mem_append]
        rw [unbrokenVal_iff (Val.valid_textOk hvv), k2]
        constructor
        · rintro ⟨a, b, c⟩
          refine ⟨?_, c⟩
          rintro p ((hp | hp) | hp)
          · exact a p hp
          · exact fun t ht c hc => ((vt p hp).2.2 t ht c hc).1
          · exact b p hp
        · rintro ⟨a, b⟩
          exact ⟨fun p hp => a p (.inl (.inl hp)), fun p hp => a p (.inr hp), b⟩

/-! ## Characters of a line -/

theorem mem_printVals {v : PVal} : ∀ {vs : List PVal}, v ∈ vs → ∀ c ∈ v.data, c ∈ printVals vs := by
  have one : ∀ {v : PVal}, ∀ c ∈ v.data, c ∈ printVal v := by
    intro v c hc
    unfold printVal
    split <;> simp [hc]
  intro vs
  induction vs with
  | nil => intro h; cases h
  | cons w vs ih =>
    intro h c hc
    cases vs with
    | nil =>
      rw [List.mem_singleton] at h
      subst h
      exact one c hc
    | cons u vs =>
      simp only [printVals, List.mem_append, List.mem_cons]
      rcases List.mem_cons.1 h with rfl | h
      · exact .inl (one c hc)
      · exact .inr (.inr (ih h c hc))

theorem mem_printParams {p : Str × List PVal} {v : PVal} (hv : v ∈ p.2) : ∀ {ps : List (Str × List PVal)}, p ∈ ps → ∀ c ∈ v.data, c ∈ printParams ps := by
  intro ps
  induction ps with
  | nil => intro h; cases h
  | cons w ps ih =>
    intro h c hc
    obtain ⟨n, vs⟩ := w
    simp only [printParams, List.cons_append, List.append_assoc, List.mem_cons, List.mem_append]
    rcases List.mem_cons.1 h with rfl | h
    · exact .inr (.inr (.inr (.inl (mem_printVals hv c hc))))
    · exact .inr (.inr (.inr (.inr (ih h c hc))))

theorem lineClear_iff {l : Line} (h : LineNamed l) : LineClear l ↔ ∀ c ∈ printBare l, NoCtl c := by
  constructor
  · intro hc
    exact printBare_noCtl h.name h.pname hc.1 hc.2
  · intro hb
    refine ⟨fun p hp v hv c hc => hb c ?_, fun c hc => hb c ?_⟩
    · simp only [printBare, List.append_assoc, List.mem_append]
      exact .inr (.inl (mem_printParams hv hp c hc))
    · simp only [printBare, List.append_assoc, List.mem_append, List.mem_cons]
      exact .inr (.inr (.inr hc))

/-! ## All lines -/

theorem written_each {E : Env} {c : Cal} {s : Str} (hs : encodeDoc E c = some s) : ∀ x ∈ calProps c, x.1.spec.encode E x.2 ≠ none := by
  intro x hx h
  rw [(encodeDoc_none E c).2 ⟨x, hx, h⟩] at hs
  cases hs

/-- A calendar that is written is written as its lines. -/
theorem written_lines {E : Env} {c : Cal} {s : Str} (ht : c.typed = true) (hv : c.valid = .ok ()) (hs : encodeDoc E c = some s) :
    s = (calLines E c).flatMap printLine ∧ (∀ l ∈ calLines E c, LineNamed l) ∧ (calLines E c).map outlineOf = calOutline E c := by
  have hg := GoodCal.build (fun f p => f.spec.encode E p ≠ none)
    (fun f p => (f.spec.typed p = true ∧ f.spec.valid p = .ok () ∧ f.spec.encode E p ≠ none) ∧ OutOk E f p) (by
      intro f p hw ht he hv
      exact ⟨⟨ht, hv, he⟩, toLine_outline' E f p hw ht hv (toLine_name E f.spec p)⟩) c ht hv (written_each hs)
  have hL : LinesOf E (fun f p => f.spec.typed p = true ∧ f.spec.valid p = .ok () ∧ f.spec.encode E p ≠ none) LineNamed := by
    refine ⟨?_, ?_⟩
    · intro f x hm hw h
      obtain ⟨a, b, _⟩ := PSpec.encode_any E f.spec x hw.spec h.1 h.2.1 h.2.2
      exact ⟨a, b⟩
    · intro a b ha hb
      obtain ⟨n1, n2, n3⟩ := nameOk_iff.1 ha
      exact ⟨n1, fun c hc => (isIana_iff c).1 (n2 c hc), fun p hp => by cases hp⟩
  obtain ⟨h1, h2⟩ := hL.cal c (hg.imp fun _ _ h => h.1)
  refine ⟨?_, h2, (hg.imp fun _ _ h => h.2).outline⟩
  rw [h1] at hs
  exact (Option.some.inj hs).symm

theorem mem_subsLines {κ σ : Type} {inner : κ → σ → List Line} {l : Line} : ∀ {ks : List (Str × κ)} {vs : List (List σ)} {x : (Str × κ) × List σ}, x ∈ ks.zip vs →
    ∀ {y : σ}, y ∈ x.2 → l ∈ inner x.1.2 y → l ∈ subsLines inner ks vs := by
  intro ks
  induction ks with
  | nil => intro vs x hx; simp at hx
  | cons k ks ih =>
    obtain ⟨n, k⟩ := k
    intro vs x hx y hy hl
    cases vs with
    | nil => simp at hx
    | cons v vs =>
      simp only [List.zip_cons_cons, List.mem_cons] at hx
      simp only [subsLines, List.mem_append, List.mem_flatMap, List.mem_cons]
      rcases hx with rfl | hx
      · exact .inl ⟨y, hy, .inr hl⟩
      · exact .inr (ih hx hy hl)

theorem mem_inner {κ σ : Type} {E : Env} {T : Tab κ} {inner : κ → σ → List Line} {s : Sect σ} {props : κ → σ → List (SField × PropVal)}
    (hi : ∀ k y, ∀ x ∈ props k y, toLine E x.1.spec x.2 ∈ inner k y) : ∀ x ∈ sectProps T s ++ below props T s, toLine E x.1.spec x.2 ∈ T.inner E inner s := by
  intro x hx
  unfold Tab.inner
  simp only [List.mem_append]
  rcases List.mem_append.1 hx with hx | hx
  · exact .inl (.inl (by rw [fieldLines_props]; exact List.mem_map.2 ⟨x, hx, rfl⟩))
  · obtain ⟨k, hk, y, hy, hx⟩ := mem_below.1 hx
    exact .inl (.inr (mem_subsLines hk hy (hi _ _ x hx)))

/-- Every property has its line. -/
theorem toLine_mem {E : Env} {c : Cal} : ∀ x ∈ calProps c, toLine E x.1.spec x.2 ∈ calLines E c := by
  intro x hx
  refine List.mem_cons_of_mem _ (mem_inner (props := compProps) ?_ x hx)
  intro T s x hx
  refine mem_inner (props := subProps) ?_ x hx
  intro k y x hx
  have none : ∀ {T : Tab Empty} {s : Leaf}, x ∈ sectProps T s → toLine E x.1.spec x.2 ∈ T.inner E noInner s := by
    intro T s hx
    exact mem_inner (props := fun k => nomatch k) (fun k => nomatch k) x (List.mem_append_left _ hx)
  cases k with
  | leaf T =>
    cases y with
    | leaf s => exact none hx
    | alarm => cases hx
  | alarm =>
    cases y with
    | leaf => cases hx
    | alarm o =>
      cases o with
      | none => cases hx
      | some o => exact List.mem_cons_of_mem _ (none hx)

/-- What a line of a calendar is, if nothing breaks it. -/
structure LineWhole (l : Line) : Prop where
  named : LineNamed l
  clear : ∀ c ∈ printBare l, NoCtl c
  fin : upper l.name = kEND → LineOk l

theorem LineWhole.of {l : Line} (h : LineOk l) : LineWhole l := ⟨⟨h.name_ne, h.name, h.pname⟩, printBare_NoCtl h, fun _ => h⟩

/-- The lines of a calendar without control characters from elsewhere. -/
theorem unbroken_lines {E : Env} {c : Cal} {s : Str} (ht : c.typed = true) (hv : c.valid = .ok ()) (hs : encodeDoc E c = some s) (hu : Unbroken E c) :
    ∀ l ∈ calLines E c, LineWhole l := by
  have hg := GoodCal.build (fun f p => f.spec.encode E p ≠ none ∧ (∀ y ∈ propParams f.spec p, UnbrokenParam E y.1.kind y.2) ∧ ∀ v ∈ propVals p, UnbrokenVal E v)
    (fun f p => f.spec.typed p = true ∧ f.spec.valid p = .ok () ∧ f.spec.encode E p ≠ none ∧
      (∀ y ∈ propParams f.spec p, UnbrokenParam E y.1.kind y.2) ∧ ∀ v ∈ propVals p, UnbrokenVal E v) (by
      intro f p hw ht he hv
      exact ⟨ht, hv, he⟩) c ht hv (fun x hx => ⟨written_each hs x hx, hu x hx⟩)
  refine (LinesOf.cal (L := LineWhole) ⟨?_, fun a b ha hb => .of (plainLine_ok ha hb)⟩ c hg).2
  intro f x hm hw h
  obtain ⟨a, b, k⟩ := PSpec.encode_any E f.spec x hw.spec h.1 h.2.1 h.2.2.1
  refine ⟨a, b, (lineClear_iff b).1 (k.1 h.2.2.2), ?_⟩
  intro he
  have hk : nameOk f.spec.name = true := by
    have := hw.spec
    unfold PSpec.wf at this
    rw [Bool.and_eq_true] at this
    exact this.1
  rw [toLine_name, (nameOk_iff.1 hk).2.2] at he
  exact absurd he hw.notCtl2.2.1

/-! ## The text and its lines -/

theorem joinRows_map (ls : List Line) : joinRows (ls.map printBare) = ls.flatMap printLine := by
  simp only [joinRows, List.flatMap_map]
  rfl

theorem rowOf_line (l : Line) : RowOf (outlineOf l) (printBare l) := by
  unfold outlineOf
  split
  · next h => simp [RowOf, printBare, h.2, printParams]
  · obtain ⟨d, x, hx, hd⟩ := printParams_head l.params l.value
    exact ⟨d, x, by rw [printBare, List.append_assoc, hx], hd⟩

theorem rowsOf_lines (ls : List Line) : Pairwise2 RowOf (ls.map outlineOf) (ls.map printBare) := by
  induction ls with
  | nil => exact .nil
  | cons l ls ih => exact .cons (rowOf_line l) ih

theorem count_join (d : Char) (hd : d = '\r' ∨ d = '\n') : ∀ rows : List Str, (joinRows rows).count d = rows.length + (rows.map (·.count d)).sum := by
  intro rows
  induction rows with
  | nil => rfl
  | cons r rows ih =>
    have h1 : (['\r', '\n'] : Str).count d = 1 := by rcases hd with rfl | rfl <;> decide
    have : joinRows (r :: rows) = (r ++ ['\r', '\n']) ++ joinRows rows := rfl
    rw [this, List.count_append, List.count_append, ih, h1]
    simp only [List.length_cons, List.map_cons, List.sum_cons]
    omega

theorem noCtl_lf {a : Str} (h : ∀ c ∈ a, NoCtl c) : '\n' ∉ a := fun hm => by
  have := h _ hm
  exact absurd this (by unfold NoCtl; decide)

theorem joinRows_inj : ∀ {a b : List Str}, joinRows a = joinRows b → (∀ r ∈ a, ∀ c ∈ r, NoCtl c) → (∀ r ∈ b, '\r' ∉ r) → a = b := by
  intro a
  induction a with
  | nil =>
    intro b e _ _
    cases b with
    | nil => rfl
    | cons r b => simp [joinRows] at e
  | cons x a ih =>
    intro b e ha hb
    cases b with
    | nil => simp [joinRows] at e
    | cons y b =>
      have e' : x ++ '\r' :: ('\n' :: joinRows a) = y ++ '\r' :: ('\n' :: joinRows b) := by
        simpa [joinRows] using e
      obtain ⟨h1, h2⟩ := cr_split (noCtl_cr (ha x (by simp))) (hb y (by simp)) e'
      rw [h1, ih (List.cons.inj h2).2 (fun r hr => ha r (by simp [hr])) (fun r hr => hb r (by simp [hr]))]

/-- As many lines, and no control characters in them: they are the same. -/
theorem joinRows_length {a b : List Str} (e : joinRows a = joinRows b) (ha : ∀ r ∈ a, ∀ c ∈ r, NoCtl c) (hl : a.length = b.length) : a = b := by
  refine joinRows_inj e ha ?_
  have h1 := count_join '\r' (.inl rfl) a
  rw [e, count_join '\r' (.inl rfl) b, hl] at h1
  have h0 : (a.map (·.count '\r')).sum = 0 := by
    clear e hl h1
    induction a with
    | nil => rfl
    | cons x a ih =>
      simp only [List.map_cons, List.sum_cons, ih (fun r hr => ha r (by simp [hr]))]
      rw [List.count_eq_zero.2 (noCtl_cr (ha x (by simp)))]
  have h2 : (b.map (·.count '\r')).sum = 0 := by omega
  clear h1 h0 e hl ha
  induction b with
  | nil => intro r hr; cases hr
  | cons x b ih =>
    simp only [List.map_cons, List.sum_cons] at h2
    intro r hr
    rcases List.mem_cons.1 hr with rfl | hr
    · exact List.count_eq_zero.1 (by omega)
    · exact ih (by omega) r hr

/-! ## Reading the lines -/

theorem parse_row {r rest : Str} (hr : ∀ c ∈ r, NoCtl c) {l : Line} {u : Str} (h : parseLine (r ++ '\r' :: '\n' :: rest) = .line l u) : printBare l = r ∧ u = rest := by
  obtain ⟨hok, he⟩ := parseLine_inv h
  have hb := noCtl_cr (printBare_NoCtl hok)
  rcases he with he | ⟨he, _⟩
  · simp only [printLine, List.append_assoc, List.cons_append, List.nil_append] at he
    obtain ⟨e1, e2⟩ := cr_split (noCtl_cr hr) hb he
    simp only [List.cons.injEq, true_and] at e2
    exact ⟨e1.symm, e2.symm⟩
  · exfalso
    apply hb
    rw [← he]
    simp

/-- The tokeniser goes through the lines one by one, as far as it gets. -/
theorem tokenise_rows (rest : Str) : ∀ rows : List Str, (∀ r ∈ rows, ∀ c ∈ r, NoCtl c) →
    ((tokenise (joinRows rows ++ rest)).lines.map printBare <+: rows ∧ (tokenise (joinRows rows ++ rest)).term ≠ .done) ∨
    ∃ ls, ls.map printBare = rows ∧ tokenise (joinRows rows ++ rest) = ⟨ls ++ (tokenise rest).lines, (tokenise rest).term⟩ := by
  intro rows
  induction rows with
  | nil => intro _; exact .inr ⟨[], rfl, rfl⟩
  | cons r rows ih =>
    intro h
    have e : joinRows (r :: rows) ++ rest = r ++ '\r' :: '\n' :: (joinRows rows ++ rest) := by simp [joinRows]
    rw [e]
    cases hp : parseLine (r ++ '\r' :: '\n' :: (joinRows rows ++ rest)) with
    | error x =>
      refine .inl ⟨?_, ?_⟩ <;> simp [tokenise, streamF, hp]
    | done =>
      have := parseLine_not_done hp
      simp at this
    | line l u =>
      obtain ⟨h1, h2⟩ := parse_row (h r (by simp)) hp
      rw [tokenise_line hp, h2]
      rcases ih (fun x hx => h x (by simp [hx])) with ⟨i1, i2⟩ | ⟨ls, i1, i2⟩
      · refine .inl ⟨?_, i2⟩
        simp only [List.map_cons, h1]
        exact List.cons_prefix_cons.2 ⟨rfl, i1⟩
      · refine .inr ⟨l :: ls, by simp [h1, i1], ?_⟩
        rw [i2]
        rfl

theorem same_name {l l' : Line} (h : ∀ c ∈ l.name, IanaChar c) (h' : ∀ c ∈ l'.name, IanaChar c) {x y : Str} (e : printBare l ++ x = printBare l' ++ y) : l.name = l'.name := by
  obtain ⟨d, w, hx, hd⟩ := printParams_head l.params l.value
  obtain ⟨d', w', hx', hd'⟩ := printParams_head l'.params l'.value
  have hi : ∀ {d : Char}, d = ';' ∨ d = ':' → isIana d = false := by rintro d (rfl | rfl) <;> decide
  unfold printBare at e
  rw [List.append_assoc l.name, List.append_assoc l'.name, hx, hx', List.append_assoc, List.append_assoc, List.cons_append, List.cons_append] at e
  exact (name_split h h' (hi hd) (hi hd') e).1

/-! ## Texts that are cut off -/

/-- If only the last of the lines is END:VCALENDAR, then a text that ends before the text of that line does has no such line. -/
theorem cut_no_end' {a0 : List Line} {z : Line} {n : Str} (hl : ∀ l ∈ a0 ++ [z], LineWhole l)
    (h0 : ∀ l ∈ a0, upper l.name = kEND → ¬ n <+: l.value) (hz : z.value = n) (hn : ∃ m c, n = m ++ [c] ∧ c ≠ '\r' ∧ c ≠ '\n' ∧ c ≠ '�')
    {p x : Str} (hp : p <+: (a0 ++ [z]).flatMap printLine) (hlt : p.length + 2 < ((a0 ++ [z]).flatMap printLine).length) (hx : Junk x) {e : Line}
    (he : e ∈ (tokenise (p ++ x)).lines) (hen : upper e.name = kEND) (hev : e.value = n) : False := by
  obtain ⟨a, l, b, q, r, e1, e2, e3, e4⟩ := prefix_flatMap hp (by omega)
  have hla : ∀ y ∈ a, LineWhole y := fun y hy => hl y (by rw [e1]; simp [hy])
  have hll : LineWhole l := hl l (by rw [e1]; simp)
  -- a line whose text begins with that of `e`
  have like : ∀ {y : Line} {t : Str}, LineWhole y → LineOk e → printLine y = printBare e ++ t →
      y.name = e.name ∧ ∃ v, y.value = e.value ++ v ∧ t = v ++ crlf := by
    intro y t hy hek ht
    have hname : y.name = e.name := same_name (x := crlf) hy.named.name hek.name (by rw [← ht]; rfl)
    obtain ⟨_, _, h⟩ := printBare_prefix (hy.fin (by rw [hname]; exact hen)) hek ht
    exact ⟨hname, h⟩
  -- the line cut is the last, or one of the others
  have hb : (b = [] ∧ l = z ∧ a = a0) ∨ (l ∈ a0 ∧ ∀ y ∈ a, y ∈ a0) := by
    rcases List.eq_nil_or_concat b with rfl | ⟨b', y, rfl⟩
    · have h1 := congrArg List.reverse e1
      simp at h1
      exact Or.inl ⟨rfl, h1.1.symm, h1.2.symm⟩
    · rw [List.concat_eq_append] at e1
      have h1 := congrArg List.reverse e1
      simp only [List.reverse_append, List.reverse_cons, List.reverse_nil, List.nil_append, List.cons_append, List.cons.injEq] at h1
      have h2 := congrArg List.reverse h1.2
      simp only [List.reverse_append, List.reverse_cons, List.reverse_reverse] at h2
      right
      rw [h2]
      simp only [List.append_assoc]
      exact ⟨by simp, fun y hy => by simp [hy]⟩
  have hek : LineOk e := by
    obtain ⟨f1, _⟩ := tokenise_front (s := p ++ x) (pre := (tokenise (p ++ x)).lines) (r := []) (by simp)
    exact f1 e he
  have front : ∀ {m : Line}, m ∈ a → printBare m = printBare e → False := by
    intro m hm hme
    have hma : m ∈ a0 := by
      rcases hb with ⟨_, _, h⟩ | ⟨_, h⟩
      · exact h ▸ hm
      · exact h m hm
    obtain ⟨k1, v, k2, _⟩ := like (y := m) (t := crlf) (hla m hm) hek (by rw [← hme]; rfl)
    exact h0 m hma (by rw [k1]; exact hen) ⟨v, by rw [k2, hev]⟩
  rw [e2, List.append_assoc, ← joinRows_map] at he
  have hrows : ∀ r ∈ a.map printBare, ∀ c ∈ r, NoCtl c := by
    intro r hr
    obtain ⟨y, hy, rfl⟩ := List.mem_map.1 hr
    exact (hla y hy).clear
  have he : e ∈ (tokenise (q ++ x)).lines := by
    rcases tokenise_rows (q ++ x) (a.map printBare) hrows with ⟨h1, _⟩ | ⟨ls, h1, h2⟩
    · obtain ⟨m, hm, hme⟩ := List.mem_map.1 (h1.subset (List.mem_map.2 ⟨e, he, rfl⟩))
      exact absurd hme (fun h => front hm h)
    · rw [h2] at he
      rcases List.mem_append.1 he with he | he
      · have : printBare e ∈ a.map printBare := by rw [← h1]; exact List.mem_map.2 ⟨e, he, rfl⟩
        obtain ⟨m, hm, hme⟩ := List.mem_map.1 this
        exact absurd hme (fun h => front hm h)
      · exact he
  cases hpl : parseLine (q ++ x) with
  | done => simp [tokenise, streamF, hpl] at he
  | error => simp [tokenise, streamF, hpl] at he
  | line l' r' =>
    rw [tokenise_line hpl] at he
    obtain ⟨hl', hs⟩ := parseLine_inv hpl
    have hqn : '\n' ∉ q := by
      intro hm
      have h1 : '\n' ∈ (printLine l).dropLast := by
        rw [e3, List.dropLast_append_of_ne_nil e4]
        simp [hm]
      rw [printLine, List.dropLast_append_of_ne_nil (by simp)] at h1
      simp only [List.dropLast, List.mem_append, List.mem_singleton] at h1
      rcases h1 with h1 | h1
      · exact noCtl_lf hll.clear h1
      · revert h1; decide
    rcases List.mem_cons.1 he with rfl | he
    · -- the line cut off itself
      have hbare : printBare e <+: q ++ x := by
        rcases hs with hs | ⟨hs, _⟩
        · exact ⟨crlf ++ r', by rw [hs]; simp [printLine, crlf]⟩
        · exact ⟨[], by rw [hs]; simp⟩
      by_cases hle : (printBare e).length ≤ q.length
      · obtain ⟨q', hq'⟩ := List.prefix_of_prefix_length_le hbare ⟨x, rfl⟩ hle
        have e3' : printLine l = printBare e ++ (q' ++ r) := by rw [e3, ← hq', List.append_assoc]
        obtain ⟨n1, v, hv, hr⟩ := like hll hek e3'
        rcases hb with ⟨rfl, rfl, rfl⟩ | ⟨h1, _⟩
        · have hv0 : v = [] := by
            rw [hz, hev] at hv
            simpa using hv.symm
          subst hv0
          have h3 := congrArg List.length hr
          have h4 := congrArg List.length e3'
          simp only [List.flatMap_append, List.flatMap_cons, List.flatMap_nil, List.append_nil, List.length_append, e2] at hlt
          simp only [crlf, List.nil_append, List.length_append, List.length_cons, List.length_nil] at h3 h4
          have h5 := congrArg List.length hq'
          simp only [List.length_append] at h5
          omega
        · exact h0 l h1 (by rw [n1]; exact hen) ⟨v, by rw [hv, hev]⟩
      · -- it ends in the junk
        obtain ⟨m, c, hm, hc⟩ := hn
        have hqp : q <+: printBare e := List.prefix_of_prefix_length_le ⟨x, rfl⟩ hbare (by omega)
        obtain ⟨y, hy⟩ := hqp
        have hyx : y <+: x := by
          rw [← hy] at hbare
          exact (List.prefix_append_right_inj q).1 hbare
        have hyl : c ∈ y := by
          have h1 : printBare e = (e.name ++ printParams e.params ++ ':' :: m) ++ [c] := by
            rw [printBare, hev, hm]; simp
          have hyne : y ≠ [] := by
            rintro rfl
            rw [← hy] at hle
            simp at hle
          have h2 := congrArg List.getLast? (hy.trans h1)
          rw [List.getLast?_append, List.getLast?_append, List.getLast?_eq_some_getLast hyne] at h2
          simp at h2
          rw [← h2]
          exact List.getLast_mem hyne
        rcases hx c (hyx.subset hyl) with h | h | h
        · exact hc.1 h
        · exact hc.2.1 h
        · exact hc.2.2 h
    · -- lines behind it are junk
      rcases hs with hs | ⟨_, rfl⟩
      · have hrx : ∀ c ∈ r', c ∈ x := by
          have hlen : q.length ≤ (printLine l').length := by
            refine Nat.le_of_not_lt fun hgt => hqn ?_
            obtain ⟨q', hq'⟩ := List.prefix_of_prefix_length_le (l₁ := printLine l') (l₂ := q) ⟨r', hs.symm⟩ ⟨x, rfl⟩ (by omega)
            rw [← hq', printLine]
            simp
          obtain ⟨y, hy⟩ := List.prefix_of_prefix_length_le (l₁ := q) (l₂ := printLine l') ⟨x, rfl⟩ ⟨r', hs.symm⟩ hlen
          rw [← hy, List.append_assoc, List.append_cancel_left_eq] at hs
          intro c hc
          rw [hs]
          simp [hc]
        obtain ⟨_, f2⟩ := tokenise_front (s := r') (pre := (tokenise r').lines) (r := []) (by simp)
        obtain ⟨c, cs, hc⟩ : ∃ c cs, e.name = c :: cs := by
          cases hne : e.name with
          | nil => exact absurd hne hek.name_ne
          | cons c cs => exact ⟨c, cs, rfl⟩
        have hcm : c ∈ (tokenise r').lines.flatMap printLine :=
          List.mem_flatMap.2 ⟨e, he, by simp [printLine, printBare, hc]⟩
        have hci : IanaChar c := hek.name c (by rw [hc]; simp)
        have hj : c = '\r' ∨ c = '\n' ∨ c = '�' := by
          rcases f2 with ⟨w, hw⟩ | hw
          · exact hx c (hrx c (by rw [hw]; simp [hcm]))
          · rw [← hw] at hcm
            rcases List.mem_append.1 hcm with hcm | hcm
            · exact hx c (hrx c hcm)
            · simp [crlf] at hcm
              rcases hcm with h | h
              · exact Or.inl h
              · exact Or.inr (Or.inl h)
        rcases hj with rfl | rfl | rfl <;> revert hci <;> unfold IanaChar <;> decide
      · rw [tokenise_nil] at he
        cases he

theorem decode_cut' {E E' : Env} {c c' : Cal} (hl : ∀ l ∈ calLines E c, LineWhole l) {p x : Str} (hp : p <+: (calLines E c).flatMap printLine)
    (hlt : p.length + 2 < ((calLines E c).flatMap printLine).length) (hx : Junk x) : decodeDoc E' (p ++ x) ≠ .ok c' := by
  intro h
  obtain ⟨b, k, e, r, h1, _, _, he, hv, _⟩ := decodeStream_local h
  obtain ⟨a, ha, hi⟩ := calLines_ends E c
  rw [ha] at hl hp hlt
  exact cut_no_end' hl hi rfl ⟨c!"VCALENDA", 'R', rfl, by decide, by decide, by decide⟩ hp hlt hx (e := e) (by rw [h1]; simp) he hv

/-! ## No folds in the text -/

theorem crlfClean_whole (ls : List Line) (h : ∀ l ∈ ls, LineWhole l) : crlfClean (ls.flatMap printLine) = true := by
  induction ls with
  | nil => rfl
  | cons l ls ih =>
    rw [List.flatMap_cons, printLine, List.append_assoc]
    apply crlfClean_append _ _ (h l (by simp)).clear
    simp only [List.cons_append, List.nil_append, crlfClean, decide_true, Bool.true_and]
    exact ih fun x hx => h x (List.mem_cons_of_mem _ hx)

theorem noFold_whole (ls : List Line) (h : ∀ l ∈ ls, LineWhole l) : ¬ ['\r', '\n', ' '] <:+: ls.flatMap printLine := by
  induction ls with
  | nil => simp
  | cons l ls ih =>
    have ih := ih fun x hx => h x (List.mem_cons_of_mem _ hx)
    rw [List.flatMap_cons, printLine, List.append_assoc]
    apply noFold_append _ _ (h l (by simp)).clear
    rw [List.cons_append, List.cons_append, List.nil_append, infix_cons_iff', infix_cons_iff']
    rintro (⟨t, ht⟩ | ⟨t, ht⟩ | hi)
    · simp only [List.cons_append, List.nil_append, List.cons.injEq, true_and] at ht
      cases ls with
      | nil => simp at ht
      | cons k ls =>
        have hk := (h k (by simp)).named
        have hne := hk.name_ne
        rw [List.flatMap_cons, printLine, printBare] at ht
        cases hn : k.name with
        | nil => exact hne hn
        | cons c n =>
          rw [hn] at ht
          simp only [List.cons_append, List.cons.injEq] at ht
          have := hk.name c (by rw [hn]; simp)
          rw [← ht.1] at this
          exact absurd this (by unfold IanaChar; decide)
    · simp at ht
    · exact ih hi

end Ics
