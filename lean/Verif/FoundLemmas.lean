import Verif.ReadableLemmas
import Verif.Spec.Found
/-!
# Lemmas: what is read from the lines of a calendar
-/

namespace Ics
open Spec

variable {κ σ : Type}

/-! ## Values -/

theorem foundDay_decode {E : Env} {t : GoTime} (h : FourDigits E t) : Date.decode (Date.encode E t) = .ok (foundDay E t) := by
  unfold Date.encode Date.decode parseDate
  have := parseDate8_fmt (t.wall E / 86400) [] h.1 h.2
  rw [List.append_nil] at this
  rw [this]
  rfl

theorem foundTime_decode {E : Env} (q : Nat) {t : GoTime} (h : FourDigits E t) (hk : LocKnown E t.loc) :
    DateTime.decode E q (tzidOf t.loc) (DateTime.encode E t) = .ok (foundTime E q t) := by
  obtain ⟨h1, h2⟩ := h
  unfold foundTime
  cases hl : t.loc with
  | utc =>
    have e : DateTime.encode E t = fmtDate8 (t.wall E / 86400) ++ 'T' :: fmtClock (t.wall E % 86400).toNat ++ (if true then ['Z'] else []) := by simp [DateTime.encode, hl]
    simp only [tzidOf, DateTime.decode]
    rw [if_pos (by rw [e, if_pos rfl]; exact List.getLast?_concat), e, parseDateTime_fmt E true _ _ h1 h2]
    rfl
  | «local» =>
    have e : DateTime.encode E t = fmtDate8 (t.wall E / 86400) ++ 'T' :: fmtClock (t.wall E % 86400).toNat ++ (if false then ['Z'] else []) := by simp [DateTime.encode, hl]
    simp only [tzidOf, DateTime.decode]
    rw [if_neg (by rw [e, if_neg (by decide), List.append_nil]; exact fmtClock_last _ _), e, parseDateTime_fmt E false _ _ h1 h2]
    rfl
  | zone n a b =>
    have e : DateTime.encode E t = fmtDate8 (t.wall E / 86400) ++ 'T' :: fmtClock (t.wall E % 86400).toNat ++ (if false then ['Z'] else []) := by simp [DateTime.encode, hl]
    have hf : loadLocation E q n = some (foundLoc E q (.zone n a b)) := by
      rw [hl] at hk
      unfold loadLocation foundLoc
      by_cases h1 : n = [] ∨ n = c!"UTC"
      · simp [h1]
      · by_cases h2 : n = c!"Local"
        · simp [h2]
        · obtain ⟨r, hr⟩ : ∃ r, E.loadZone n = some r := by
            rcases hk with h | h | h | h
            · exact absurd (.inl h) h1
            · exact absurd (.inr h) h1
            · exact absurd h h2
            · exact h
          simp [h1, h2, hr]
    simp only [tzidOf, DateTime.decode]
    refine Res.bind_eq_ok.2 ⟨_, by rw [hf]; rfl, ?_⟩
    rw [e, parseDateTime_fmt E false _ _ h1 h2]
    rfl

theorem foundDuration_eq (d : Duration) : foundDuration d = d.kept := by
  unfold foundDuration Duration.kept
  by_cases h : d.weeks = 0 <;> simp [h]

theorem foundOffset_decode {o : Int} (h : OffsetReadable o) : UTCOffset.decode (UTCOffset.encode o) = .ok (foundOffset o) := by
  unfold OffsetReadable at h
  have hm : o ≠ -(2 ^ 63) := by omega
  rw [UTCOffset.encode_of hm]
  unfold foundOffset
  dsimp only
  rw [show o.natAbs / 3600 = o.natAbs / 60 / 60 by omega] at h ⊢
  generalize hH : (if o.natAbs / 60 / 60 % 256 > 99 then 0 else o.natAbs / 60 / 60 % 256) = H
  have hH' : H < 100 := by split at hH <;> omega
  have hb := UTCOffset.body_encode H (o.natAbs / 60 % 60) (o.natAbs % 60) hH' (by omega) (by omega)
  unfold UTCOffset.decode
  by_cases hn : o < 0
  · rw [if_pos hn, if_pos hn]
    simp only [List.append_assoc, List.cons_append, List.nil_append, List.head?_cons, if_true, true_or, List.tail_cons]
    rw [List.append_assoc] at hb
    rw [hb]
    simp only
    split
    · next h0 =>
      exfalso
      rcases h with h | ⟨_, h⟩
      · omega
      · apply h; split at hH <;> omega
    · congr 1
      omega
  · rw [if_neg hn, if_neg hn, List.nil_append]
    rw [List.append_assoc] at hb ⊢
    obtain ⟨h1, h2⟩ := UTCOffset.encode_head H hH' (dd (o.natAbs / 60 % 60) ++ if o.natAbs % 60 > 0 then dd (o.natAbs % 60) else [])
    simp only [h1, h2, false_or, if_false, hb]
    congr 1
    omega

theorem foundPeriod_decode {E : Env} {p : Period} (hw : p.dur.WF) (hv : p.valid = .ok ()) (h1 : FourDigits E p.start) (h2 : LocKnown E p.start.loc)
    (h3 : p.stop.isZero = false → FourDigits E p.stop) : Period.decode E 0 (tzidOf p.start.loc) (Period.encode E p) = .ok (foundPeriod E p) := by
  have hns : '/' ∉ DateTime.encode E p.start := by
    intro hm
    exact timeChar_ne (DateTime.encode_mem hm) (d := '/') (by decide) (by decide) (by decide) (by decide) rfl
  unfold Period.encode Period.decode foundPeriod
  rw [split2_append '/' _ _ hns]
  unfold Period.valid at hv
  split at hv
  · cases hv
  have hst := foundTime_decode 0 h1 h2
  cases hz : p.stop.isZero with
  | true =>
    rw [hz] at hv
    simp only [if_true, Res.guard_eq_ok, Bool.not_eq_true'] at hv
    have hdd := Duration.decode_encode p.dur hw
    have hP : Duration.encode p.dur = 'P' :: p.dur.body := by simp [Duration.encode, hv]
    simp only [if_true]
    rw [hP] at hdd ⊢
    simp only
    refine Res.bind_eq_ok.2 ⟨_, hst, ?_⟩
    rw [if_pos (.inl trivial), foundDuration_eq]
    exact Res.bind_eq_ok.2 ⟨_, hdd, rfl⟩
  | false =>
    rw [hz] at hv
    simp only [Bool.false_eq_true, if_false, Res.guard_eq_ok, Bool.and_eq_true, decide_eq_true_eq] at hv
    have hen := foundTime_decode 1 (h3 hz) (hv.2 ▸ h2)
    rw [← hv.2] at hen
    simp only [Bool.false_eq_true, if_false]
    obtain ⟨c, r, he, hc⟩ : ∃ c r, DateTime.encode E p.stop = c :: r ∧ ¬ (c = 'P' ∨ c = '+') := by
      cases he : DateTime.encode E p.stop with
      | nil => simp [DateTime.encode] at he
      | cons c r =>
        refine ⟨c, r, rfl, ?_⟩
        have := DateTime.encode_mem (E := E) (t := p.stop) (c := c) (by rw [he]; simp)
        rintro (rfl | rfl)
        · exact timeChar_ne this (d := 'P') (by decide) (by decide) (by decide) (by decide) rfl
        · exact timeChar_ne this (d := '+') (by decide) (by decide) (by decide) (by decide) rfl
    rw [he] at hen ⊢
    simp only
    refine Res.bind_eq_ok.2 ⟨_, hst, ?_⟩
    rw [if_neg hc]
    exact Res.bind_eq_ok.2 ⟨_, hen, rfl⟩

open Props in
theorem foundRule_decode {E : Env} {r : Recur} (hw : r.WF) (hv : r.valid = .ok ()) (h : RuleReadable E r) :
    Recur.decode E 0 (tzidOf r.until_.loc) (Recur.encode E r) = .ok (foundRule E r) := by
  obtain ⟨v1, v2, v3, v4, v5, v6, v7, v8, v9, v10, v11⟩ := (Recur.valid_iff r).1 hv
  obtain ⟨h1, h2⟩ := h
  have hz : (GoTime.isZero {}) = true := by decide
  have hr : RecurInRange { r with until_ := {}, untilTime := false } :=
    ⟨v1, v11, .inr hz, hw.count, hw.interval, v2, v3, v4, fun x hx => ⟨v5 x hx, h1 x hx⟩, v6, v7, v8, v9, v10⟩
  obtain ⟨ps, a1, a2, a3, _, a4, _, a5⟩ := Props.C56_written_rules_partial E 0 { r with until_ := {}, untilTime := false } hr
    ⟨fun _ => ⟨rfl, rfl⟩, fun h => absurd h (by rw [hz]; decide), fun h => absurd h (by rw [hz]; decide)⟩
  cases a1.unique (ruleText_ruleOf E _)
  have hp := partsNamed_dropUntil E r
  rw [hp _ (by decide)] at a2 a3 a4
  have key : Once (UntilValue E 0 (tzidOf r.until_.loc)) ({}, false) (partsNamed (ruleOf E r) c!"UNTIL") ((foundRule E r).until_, (foundRule E r).untilTime) := by
    rw [partsNamed_until]
    unfold foundRule
    by_cases hc : r.count = 0
    · rw [if_neg (by simp [hc])]
      cases hu : r.until_.isZero with
      | true => simp [Once]
      | false =>
        obtain ⟨b1, b2⟩ := h2 hc hu
        cases ht : r.untilTime with
        | true =>
          have := foundTime_decode 0 b1 (b2 ht)
          simp only [hc, ne_eq, not_true_eq_false, false_or, Bool.false_eq_true, if_false, if_true, ht, Bool.not_false]
          exact .inl ⟨(DateTime.decode_iff ..).1 this, rfl⟩
        | false =>
          have := foundDay_decode b1
          simp only [hc, ne_eq, not_true_eq_false, false_or, Bool.false_eq_true, if_false, if_true, ht, Bool.not_false]
          exact .inr ⟨(Date.decode_iff ..).1 this, rfl⟩
    · rw [if_pos hc, if_pos (.inl hc)]
      rfl
  have hf : foundRule E r = { r with until_ := (foundRule E r).until_, untilTime := (foundRule E r).untilTime } := by
    unfold foundRule
    split <;> rfl
  rw [hf]
  refine Props.C56_rfc_rules_read E 0 _ _ _ ⟨_, ruleText_ruleOf E r, a2, a3, key, a4, ?_, listsRead_congr hp rfl a5⟩
  rw [partsNamed_until]
  by_cases hc : r.count = 0
  · left
    rw [List.eq_nil_iff_forall_not_mem]
    intro v hv
    exact (ruleOf_mem (partsNamed_mem.1 hv)).2.2.1 rfl hc
  · exact .inr (if_pos hc)

theorem foundVal_decode {E : Env} {op : Str → Option Str} {v : Val} (hf : PlainFloats E v) (ht : op c!"TZID" = v.tzid)
    (hb : v.kind = .binary → op c!"ENCODING" = some c!"BASE64") (hs : ValSized v) (hv : v.valid = .ok ()) (h : ValReadable E v) :
    Val.decode E op v.kind (v.text_ E) = .ok (foundVal E v) := by
  have ok : ∀ {α : Type} {x : Res α} {a : α} {f : α → Val}, x = .ok a → f <$> x = .ok (f a) := fun h => by rw [h]; rfl
  cases v with
  | binary b => exact ok (f := Val.binary) (by rw [hb rfl]; exact Binary.decode_encode b)
  | boolean b => exact ok (Boolean.decode_encode b)
  | calAddress u =>
    obtain ⟨w, h⟩ := h
    exact ok (f := Val.calAddress) (by simp [foundUri, Val.text_, h, URI.decode, URI.encode])
  | uri u =>
    obtain ⟨w, h⟩ := h
    exact ok (f := Val.uri) (by simp [foundUri, Val.text_, h, URI.decode, URI.encode])
  | date t => exact ok (f := Val.date) (foundDay_decode h)
  | dateTime t => exact ok (f := Val.dateTime) (by rw [ht]; exact foundTime_decode 0 h.1 h.2)
  | duration d => exact ok (f := Val.duration) (by rw [foundDuration_eq]; exact Duration.decode_encode d hs)
  | integer i =>
    refine ok (f := Val.integer) ?_
    obtain ⟨h1, h2⟩ := h
    exact Integer.decode_encode i h1 (by omega)
  | mtext ts =>
    refine ok (f := Val.mtext) ?_
    cases ts with
    | nil => rfl
    | cons t ts => rw [if_neg (by simp)]; exact MText.decode_encode _ (by simp)
  | period p => exact ok (f := Val.period) (by rw [ht]; exact foundPeriod_decode hs hv h.1 h.2.1 h.2.2)
  | recur r => exact ok (f := Val.recur) (by rw [ht]; exact foundRule_decode hs hv h)
  | text t => exact ok (f := Val.text) (Text.decode_encode t)
  | tfloat t =>
    refine ok (f := Val.tfloat) ?_
    have hn : ';' ∉ E.floatFormat t.1 := fun h => hf t rfl (List.mem_append_left _ h)
    obtain ⟨⟨x, h1⟩, ⟨y, h2⟩⟩ := h
    show TFloat.decode E (TFloat.encode E t) = _
    unfold TFloat.decode TFloat.encode
    rw [split2_append ';' _ _ hn]
    simp [foundFloat, h1, h2, Res.ofOption, pure]
  | utcOffset o => exact ok (f := Val.utcOffset) (foundOffset_decode h)

/-! ## Properties -/

theorem foundParams_eq {E : Env} : ∀ {ds : List PDef} {ps : List (Option ParamVal)}, (∀ x ∈ ds.zip ps, ∀ v, x.2 = some v → x.1.kind.typed v = true) →
    paramsNorm E ds (tame ds ps) = List.zipWith (fun d v => v.bind (foundParam E d.kind)) ds ps := by
  intro ds
  induction ds with
  | nil => intro ps _; cases ps <;> rfl
  | cons d ds ih =>
    intro ps ht
    cases ps with
    | nil => rfl
    | cons p ps =>
      simp only [tame, paramsNorm, List.zipWith_cons_cons]
      rw [ih fun x hx => ht x (by simp [hx])]
      congr 1
      cases p with
      | none => rfl
      | some v =>
        replace ht := ht (d, some v) (by simp) v rfl
        simp only [Option.map_some, Option.bind_some]
        have hv : vanishes E d.kind (tameParam d.kind v) = !present E v := by
          rw [← vanishes_present ht]
          generalize d.kind = k at ht ⊢
          cases k <;> cases v <;> rfl
        rw [hv]
        have hr : foundParam E d.kind v = if present E v then some (tameParam d.kind v) else none := rfl
        rw [hr]
        cases present E v <;> rfl

theorem foundProp_decode {E : Env} {f : SField} {p : PropVal} (hf : FieldWf f) (ht : f.spec.typed p = true) (hv : f.spec.valid p = .ok ())
    (hp : ∀ y ∈ propParams f.spec p, ParamWritable E y.1.kind y.2) (hl : ∀ v ∈ propVals p, CleanVal E v ∧ PlainFloats E v) (hz : ∀ v ∈ propVals p, ValSized v)
    (he : f.spec.encode E p ≠ none) (hr : ∀ y ∈ propParams f.spec p, ParamReadable E y.2) (hvr : ∀ v ∈ propVals p, ValReadable E v) :
    f.spec.decode E (toLine E f.spec p).params (toLine E f.spec p).value = .ok (foundProp E f.spec p) := by
  have htp := PSpec.typed_params ht
  have hvp := valid_params hv
  have hw : ∀ y ∈ propParams f.spec p, ParamLoose E y.1.kind y.2 := by
    intro y hy
    refine (param_written (htp y hy) (hvp y hy) (hp y hy) fun h => he ?_).1
    rw [PSpec.encode_none]
    exact ⟨y, hy, (PKind.encode_none E y.1.name y.1.kind y.2 (htp y hy)).2 h⟩
  have hpl := propLoose_of ht hv hw (fun v hv => cleanVal_safe (hl v hv).1)
  have hwf := hf.spec
  obtain ⟨key, ⟨n, sh⟩, mult⟩ := f
  cases sh with
  | «enum» names =>
    cases p with
    | fields => simp [PSpec.typed] at ht
    | «enum» m => exact PSpec.decode_line E _ (.enum m) hwf (enum_valid hv)
  | fields params vals =>
    cases p with
    | «enum» => simp [PSpec.typed] at ht
    | fields ps vs =>
      obtain ⟨_, t1, i, v, hi, e, hk, hvv⟩ := PSpec.typed_valid ht hv
      subst e
      have hmem : v ∈ propVals (.fields ps (oneOf vals.length i v)) := by
        simp only [propVals, List.mem_filterMap, id]
        exact ⟨some v, List.mem_of_getElem? (i := i) (by simp [oneOf, hi]), rfl⟩
      have h1 := tame_all n vals (oneOf vals.length i v) hpl.1 fun x hx => ⟨htp x hx, hvp x hx, hr x hx⟩
      obtain ⟨op, o1, o2, _, o3⟩ := decode_toks E (n := n) (PSpec.wf_fields hwf) h1 hi hk
      rw [tame_toks] at o3
      have hline : toLine E ⟨n, .fields params vals⟩ (.fields ps (oneOf vals.length i v)) =
          ⟨n, paramToks E params ps ++ valueToks vals i ++ headToks v, v.text_ E⟩ := by
        simp only [toLine, oneOf_findIdx _ i v hi, oneOf_get _ i v hi]
      simp only [hline]
      rw [o3 _ (foundVal_decode (hl v hmem).2 o1 o2 (hz v hmem) hvv (hvr v hmem))]
      simp only [foundProp]
      rw [foundParams_eq, oneOf_map]
      intro x hx w hw
      have : (x.1, w) ∈ propParams ⟨n, .fields params vals⟩ (.fields ps (oneOf vals.length i v)) := by
        simp only [propParams, List.mem_filterMap]
        exact ⟨x, hx, by rw [hw]; rfl⟩
      exact htp _ this

/-! ## Components -/

/-- What is read from the body of a section, if what is read from its lines and blocks is known. -/
theorem sect_found {E : Env} {P : SField → PropVal → Prop} {S : κ → σ → Prop} {T : Tab κ} (hw : T.Wf)
    (hn : ∀ f ∈ T.fields, f.key = f.spec.name ↔ f.key ≠ kLastMod)
    {R : κ → List Line → σ → Prop} {body : κ → σ → List Line} {g : κ → σ → σ} {s s' : Sect σ} {pre k : List Line} (hs : GoodSect P S T s)
    (hpre : ∀ l ∈ pre, l.name = c!"ACTION") (hitems : Items k ((pre ++ fieldLines E T.fields s.fields).map Item.line ++ subItems body T.subs s.subs))
    (hr : SectReads E T R k s')
    (hf : ∀ x ∈ sectProps T s, x.1.key ≠ kLastMod → x.1.spec.decode E (toLine E x.1.spec x.2).params (toLine E x.1.spec x.2).value = .ok (foundProp E x.1.spec x.2))
    (hb : ∀ x ∈ T.subs.zip s.subs, ∀ y ∈ x.2, ∀ y', R x.1.2 (body x.1.2 y) y' → y' = g x.1.2 y) : s' = foundSect E g T s := by
  obtain ⟨g1, g2, g3, g4⟩ := hs
  have hl1 := FieldsAll.at g1
  have hl2 := SubsAll.same g3
  obtain ⟨is, hi, l1, l2, hlf, hlb, _⟩ := hr
  cases Items.unique hi hitems
  have pw : ∀ {α β : Type} {R : α → β → Prop} {m : α → β} {as : List α} {bs : List β}, Pairwise2 R as bs → (∀ a ∈ as, ∀ b, R a b → b = m a) → bs = as.map m := by
    intro α β R m as bs h
    induction h with
    | nil => intro _; rfl
    | cons h _ ih =>
      intro hm
      rw [List.map_cons, hm _ (by simp) _ h, ih fun a ha => hm a (by simp [ha])]
  obtain ⟨sf, ss⟩ := s'
  simp only at l1 l2 hlf hlb
  unfold foundSect
  congr 1
  · refine List.ext_getElem (by simp; omega) fun i h1 h2 => ?_
    have ht : i < T.fields.length := by omega
    have hv : i < s.fields.length := by omega
    have e1 := List.getElem?_eq_getElem ht
    have h := (hlf i _ e1).1
    have hfw := hw.field _ (List.getElem_mem ht)
    rw [linesNamed_append, linesNamed_subItems, List.append_nil, linesNamed_lines, List.filter_append, List.filter_eq_nil_iff.2, List.nil_append,
      filter_fieldLines hw.keys hw.field (fun f hf hk => (hw.names f hf hk).1) e1] at h
    · rw [List.getD_eq_getElem?_getD, List.getD_eq_getElem?_getD, List.getElem?_eq_getElem h1, List.getElem?_eq_getElem hv, Option.getD_some, Option.getD_some] at h
      simp only [List.getElem_map, List.getElem_zip]
      by_cases hk : T.fields[i].key = c!"LAST-MOD"
      · rw [if_pos hk]
        rw [if_neg fun h0 => ((hn _ (List.getElem_mem ht)).1 h0) hk] at h
        exact pw (m := fun _ => .enum 0) h (by simp)
      · rw [if_neg hk]
        rw [if_pos ((hn _ (List.getElem_mem ht)).2 hk)] at h
        refine pw (pairwise2_map h) fun p hp p' hd => ?_
        have := hf (T.fields[i], p) (mem_sectProps.2 ⟨i, e1, by rw [List.getD_eq_getElem?_getD, List.getElem?_eq_getElem hv]; exact hp⟩) hk
        simp only at this
        rw [this] at hd
        injection hd with hd
        exact hd.symm
    · intro l hl
      rw [hpre l hl]
      have ha : upper c!"ACTION" = c!"ACTION" := by decide
      simpa [ha] using fun e => hfw.notCtl.2.2 e.symm
  · refine List.ext_getElem (by simp; omega) fun i h1 h2 => ?_
    have ht : i < T.subs.length := by omega
    have hv : i < s.subs.length := by omega
    have e1 := List.getElem?_eq_getElem ht
    have h := hlb i _ e1
    rw [blocksNamed_append, blocksNamed_lines, List.nil_append, blocksNamed_subItems hw.subs e1] at h
    rw [List.getD_eq_getElem?_getD, List.getD_eq_getElem?_getD, List.getElem?_eq_getElem h1, List.getElem?_eq_getElem hv, Option.getD_some, Option.getD_some] at h
    simp only [List.getElem_map, List.getElem_zip]
    refine pw (pairwise2_map h) fun y hy y' hd => ?_
    exact hb (T.subs[i], s.subs[i]) (List.mem_of_getElem? (i := i) (List.getElem?_zip_eq_some.2 ⟨e1, List.getElem?_eq_getElem hv⟩)) y hy y' hd

theorem sub_found {E : Env} {P : SField → PropVal → Prop} {x : Str × SubKind} (hg : SubKind.Good x)
    (hx : ∀ T, x.2 = .leaf T → T ∈ [tabStandard, tabDaylight]) {s s' : Sub} (h : GoodSub P x.2 s)
    (hr : SubReads E x.2 (subBody E x.2 s) s')
    (hf : ∀ y ∈ subProps x.2 s, y.1.key ≠ kLastMod → y.1.spec.decode E (toLine E y.1.spec y.2).params (toLine E y.1.spec y.2).value = .ok (foundProp E y.1.spec y.2)) :
    s' = foundSub E x.2 s := by
  have both : ∀ {a b : Prop}, a ∧ b → (a ↔ b) := fun h => ⟨fun _ => h.2, fun _ => h.1⟩
  obtain ⟨n, k⟩ := x
  cases k with
  | leaf T =>
    cases s with
    | alarm a => exact absurd h id
    | leaf s =>
      obtain ⟨hw, hn, hsub⟩ := hg
      have hi : Items (subBody E (.leaf T) (.leaf s)) (([] ++ fieldLines E T.fields s.fields).map Item.line ++ subItems noInner T.subs s.subs) := by
        simp only [subBody]
        rw [leaf_body hsub, hsub]
        simp only [subItems, List.zip_nil_left, List.flatMap_nil, List.append_nil, List.nil_append]
        exact items_lines fun l hl => ⟨(fieldLines_lines hw l hl).1, (fieldLines_lines hw l hl).2.1⟩
      cases s' with
      | alarm a => exact absurd hr id
      | leaf s' =>
        have := sect_found (g := fun x => nomatch x) hw (fun f hf => both (names_match.2.2.2 T (hx T rfl) f hf)) h (pre := []) (by simp) hi hr hf (by rw [hsub]; simp)
        rw [this]
        rfl
  | alarm =>
    cases s with
    | leaf s => exact absurd h id
    | alarm o =>
      cases o with
      | none => exact absurd h id
      | some o =>
        obtain ⟨a, s⟩ := o
        have hflat : ∀ l ∈ subBody E .alarm (.alarm (some (a, s))), ¬ Begins l ∧ ¬ Ends l := by
          intro l hl
          obtain ⟨a, b, _⟩ := (sub_shape (E := E) hg h).2 l hl
          exact ⟨a, b⟩
        have hi : Items (subBody E .alarm (.alarm (some (a, s))))
            (([plainLine kACTION a.action] ++ fieldLines E a.tab.fields s.fields).map Item.line ++ subItems noInner a.tab.subs s.subs) := by
          have := items_lines (ls := subBody E .alarm (.alarm (some (a, s)))) hflat
          simp only [subBody] at this ⊢
          rw [leaf_body (aTab_name a).2] at this ⊢
          rw [(aTab_name a).2]
          simpa [subItems] using this
        have hact : actions (subBody E .alarm (.alarm (some (a, s)))) = [a.action] := by
          simp only [subBody]
          rw [leaf_body (aTab_name a).2]
          unfold actions
          rw [List.filter_cons, plainLine_name, if_pos (show decide (upper kACTION = c!"ACTION") = true by decide), List.filter_eq_nil_iff.2]
          · rfl
          · intro l hl
            simpa using (fieldLines_lines (aTab_wf a) l hl).2.2.1
        cases s' with
        | leaf s' => exact absurd hr id
        | alarm o =>
          cases o with
          | none => exact absurd hr id
          | some o =>
            obtain ⟨b, s'⟩ := o
            obtain ⟨_, ⟨us, h1, _⟩, hr⟩ := hr
            have hab : b = a := by
              rw [hact] at h1
              have : us = [] := by
                cases us with
                | nil => rfl
                | cons u us => simp at h1
              subst this
              simp only [List.nil_append, List.cons.injEq, and_true] at h1
              cases a <;> cases b <;> first | rfl | exact absurd h1 (by decide)
            subst hab
            have := sect_found (g := fun x => nomatch x) (aTab_wf b) (fun f hf => both (names_match.2.2.1 b f hf)) h (pre := [plainLine kACTION b.action])
              (by intro l hl; rw [List.mem_singleton] at hl; subst hl; rfl) hi hr hf (by rw [(aTab_name b).2]; simp)
            rw [this]
            rfl

theorem comp_found {E : Env} {P : SField → PropVal → Prop} {x : Str × Tab SubKind} (hx : x ∈ tabCalendar.subs) {s s' : Comp} (h : GoodSect P (GoodSub P) x.2 s)
    (hr : CompReads E x.2 (compBody E x.2 s) s')
    (hf : ∀ y ∈ compProps x.2 s, y.1.key ≠ kLastMod → y.1.spec.decode E (toLine E y.1.spec y.2).params (toLine E y.1.spec y.2).value = .ok (foundProp E y.1.spec y.2)) :
    s' = foundSect E (foundSub E) x.2 s := by
  obtain ⟨hw, hn, hg⟩ := compTab_good x hx
  refine sect_found hw (names_match.2.1 x hx) h (pre := []) (by simp) (comp_shape (E := E) hx h).2 hr (fun y hy => hf y (List.mem_append.2 (.inl hy))) fun y hy z hz z' hr => ?_
  exact sub_found (hg _ (List.of_mem_zip hy).1) (fun T e => leafTab_mem _ hx _ (List.of_mem_zip hy).1 T e) (h.2.2.1.of_zip y hy z hz) hr
    fun w hw => hf w (List.mem_append.2 (.inr (mem_below.2 ⟨y, hy, z, hz, hw⟩)))

/-- What is read from the lines of a calendar, if what is read from each line is known. -/
theorem cal_found {E : Env} {P : SField → PropVal → Prop} {c c' : Cal} (h : GoodCal P c) {t : Term} (hr : decodeStream E ⟨calLines E c, t⟩ = .ok c')
    (hf : ∀ y ∈ calProps c, y.1.key ≠ kLastMod → y.1.spec.decode E (toLine E y.1.spec y.2).params (toLine E y.1.spec y.2).value = .ok (foundProp E y.1.spec y.2)) :
    c' = foundCal E c := by
  have both : ∀ {a b : Prop}, a ∧ b → (a ↔ b) := fun h => ⟨fun _ => h.2, fun _ => h.1⟩
  have hkw : Keywords (calLines E c) := fun l hl _ => (calLines_upper h l hl).symm
  obtain ⟨pre, rest, e, hd⟩ := decodeStream_sound hkw hr
  obtain ⟨b, k, l, rfl, hb, _, hl, _, hk⟩ := hd
  have hshape : ∀ x ∈ tabCalendar.subs.zip c.subs, ∀ y ∈ x.2, compInner E x.1.2 y = compBody E x.1.2 y ++ [plainLine kEND x.1.1] ∧ Closed (compBody E x.1.2 y) := by
    intro x hx y hy
    obtain ⟨a, b⟩ := comp_shape (E := E) (List.of_mem_zip hx).1 (h.2.2.1.of_zip x hx y hy)
    exact ⟨a, Items.closed b⟩
  have hi : Items (fieldLines E tabCalendar.fields c.fields ++ subsLines (compInner E) tabCalendar.subs c.subs)
      (([] ++ fieldLines E tabCalendar.fields c.fields).map Item.line ++ subItems (compBody E) tabCalendar.subs c.subs) :=
    Spec.Items.append (items_lines fun l hl => ⟨(fieldLines_lines calTab_wf l hl).1, (fieldLines_lines calTab_wf l hl).2.1⟩)
      (items_subs calTab_wf.subNames hshape)
  have hkc : Closed k := by
    obtain ⟨is, hi, _⟩ := hk
    exact Items.closed hi
  have hk' : k = fieldLines E tabCalendar.fields c.fields ++ subsLines (compInner E) tabCalendar.subs c.subs := by
    simp only [calLines, Tab.inner, List.cons_append, List.append_assoc, List.cons.injEq] at e
    have e := e.2
    rw [← List.append_assoc] at e
    exact (closed_split (Items.closed hi) hkc (show Ends (plainLine kEND tabCalendar.name) by unfold Ends; rw [plainLine_name]; decide) hl
      (by simpa using e)).1.symm
  subst hk'
  exact sect_found calTab_wf (fun f hf => both (names_match.1 f hf)) h (pre := []) (by simp) hi hk (fun y hy => hf y (List.mem_append.2 (.inl hy))) fun x hx y hy y' hr =>
    comp_found (List.of_mem_zip hx).1 (h.2.2.1.of_zip x hx y hy) hr fun z hz => hf z (List.mem_append.2 (.inr (mem_below.2 ⟨x, hx, y, hy, hz⟩)))

end Ics
