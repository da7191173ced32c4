import Verif.Spec.WrittenDoc
import Verif.WrittenLemmas
import Verif.RfcLemmas
import Verif.ComposeLemmas
import Verif.ReturnLemmas
import Verif.Props.Written
/-!
# The lines of `Encode` against RFC 5545
-/

namespace Ics

open Spec Spec.Rfc

variable {κ σ : Type}

/-! ## The tables -/

theorem part_contents : ∀ p ∈ allParts, ∀ f ∈ partFields p, (content p f.spec.name).map Content.shape = some f.spec.shape := by decide +kernel

def PSpec.params (sp : PSpec) : List PDef :=
  match sp.shape with
  | .enum _ => []
  | .fields ds _ => ds

def PSpec.vals (sp : PSpec) : List (Str × Kind) :=
  match sp.shape with
  | .enum _ => []
  | .fields _ vs => vs

theorem part_params : ∀ p ∈ allParts, ∀ f ∈ partFields p, (∀ d ∈ f.spec.params, (d.name, d.kind) ∈ paramTypes) ∧ (f.spec.vals.map (·.2)).Nodup := by decide +kernel

theorem part_action (p : Part) : occurs p c!"ACTION" = none ∧ ∀ y ∈ laws p, match y with
    | .notBoth a b => a ≠ c!"ACTION" ∧ b ≠ c!"ACTION"
    | .needs a b => a ≠ c!"ACTION" ∧ b ≠ c!"ACTION"
    | .bothOrNone a b => a ≠ c!"ACTION" ∧ b ≠ c!"ACTION"
    | .notBothNorNone a b => a ≠ c!"ACTION" ∧ b ≠ c!"ACTION"
    | .block _ => True := by
  have : ∀ p ∈ allParts, occurs p c!"ACTION" = none ∧ ∀ y ∈ laws p, match y with
    | .notBoth a b => a ≠ c!"ACTION" ∧ b ≠ c!"ACTION"
    | .needs a b => a ≠ c!"ACTION" ∧ b ≠ c!"ACTION"
    | .bothOrNone a b => a ≠ c!"ACTION" ∧ b ≠ c!"ACTION"
    | .notBothNorNone a b => a ≠ c!"ACTION" ∧ b ≠ c!"ACTION"
    | .block _ => True := by
    intro p hp
    refine ⟨?_, fun y hy => ?_⟩
    · revert p; decide +kernel
    · simp only [allParts, List.mem_cons, List.not_mem_nil, or_false] at hp
      rcases hp with rfl | rfl | rfl | rfl | rfl | rfl | rfl | rfl | rfl | rfl | rfl | rfl | rfl <;>
        simp only [laws, List.mem_cons, List.not_mem_nil, or_false] at hy <;>
        first
        | exact absurd hy id
        | (subst hy; exact ⟨by decide, by decide⟩)
        | (subst hy; trivial)
        | (rcases hy with rfl | rfl <;> exact ⟨by decide, by decide⟩)
  exact this p (mem_allParts p)

/-! ## Parameters -/

theorem mediaName_char {c : Char} {s : Str} (h : MediaName s) (hc : c ∈ s) : NoCtl c ∧ c ≠ '"' ∧ isSpecial c = false := by
  rcases h.2 c hc with h | h
  · revert h
    have : ∀ c ∈ ['!', '#', '$', '&', '.', '+', '-', '^', '_'], (NoCtl c ∧ c ≠ '"' ∧ isSpecial c = false) := by unfold NoCtl; decide
    exact this c
  · have h1 : NoCtl c := by unfold NoCtl; omega
    have h2 : ∀ d : Char, c = d → c.toNat = d.toNat := fun d e => by rw [e]
    refine ⟨h1, fun e => ?_, ?_⟩
    · have := h2 _ e
      have : ('"' : Char).toNat = 34 := rfl
      omega
    · unfold isSpecial
      simp only [Bool.or_eq_false_iff, beq_eq_false_iff_ne]
      have e1 : (',' : Char).toNat = 44 := rfl
      have e2 : (';' : Char).toNat = 59 := rfl
      have e3 : (':' : Char).toNat = 58 := rfl
      have e4 : ('"' : Char).toNat = 34 := rfl
      refine ⟨⟨⟨?_, ?_⟩, ?_⟩, ?_⟩ <;> intro e <;> have := h2 _ e <;> omega

theorem mediaType_char {c : Char} {s : Str} (h : MediaType s) (hc : c ∈ s) : NoCtl c ∧ c ≠ '"' ∧ isSpecial c = false := by
  obtain ⟨a, b, rfl, ha, hb⟩ := h
  rcases List.mem_append.1 hc with hc | hc
  · exact mediaName_char ha hc
  · rcases List.mem_cons.1 hc with rfl | hc
    · unfold NoCtl; decide
    · exact mediaName_char hb hc

theorem plainText_char {s : Str} (h : PlainText s) : ∀ c ∈ s, ParamChar c := fun c hc =>
  ⟨(h c hc).1, fun e => (h c hc).2.1 (by rw [e]; rfl), fun e => (h c hc).2.2 (by rw [e]; rfl)⟩

theorem paramExpressible_safe (E : Env) {k : PKind} {v : ParamVal} (h : ParamExpressible k v) : ParamSafe E k v := by
  cases k <;> cases v <;> simp only [ParamExpressible] at h <;> simp only [ParamSafe]
  · exact plainText_char h
  · rcases h with rfl | ⟨h, hc⟩
    · simp
    · intro c hm
      obtain ⟨h1, h2, _⟩ := mediaType_char h hm
      exact ⟨h1, fun e => hc (e ▸ hm), h2⟩
  · exact fun s hs => plainText_char (h s hs)

theorem paramExpressible_tokens (E : Env) {k : PKind} {v : ParamVal} (h : ParamExpressible k v) (hv : vanishes E k v = false) : RfcParam k (ptokens E k v) := by
  cases k <;> cases v <;> simp only [ParamExpressible] at h <;> simp only [ptokens, RfcParam]
  next b s =>
    cases b
    · exact ⟨_, _, rfl⟩
    · exact ⟨s, rfl⟩
  next s =>
    rcases h with rfl | ⟨h, hc⟩
    · simp [vanishes] at hv
    · refine ⟨s, ?_, h⟩
      have : containsAny isSpecial s = false := by
        unfold containsAny
        rw [List.any_eq_false]
        intro c hc
        simp [(mediaType_char h hc).2.2]
      rw [this]
  next names n =>
    refine ⟨_, rfl, ?_⟩
    have hu : c!"UNKNOWN" ≠ [] ∧ ∀ c ∈ c!"UNKNOWN", IanaChar c := ⟨by decide, fun c hc => (isIana_iff c).1 (by revert c; decide)⟩
    by_cases h0 : n = 0
    · rw [if_pos h0]; exact .inr hu
    · rw [if_neg h0, List.getD_eq_getElem?_getD]
      cases hg : names[n - 1]? with
      | none => exact .inr hu
      | some w => exact .inl (List.mem_of_getElem? hg)
  next ss =>
    simp only [vanishes, List.isEmpty_eq_false_iff] at hv
    refine ⟨by simpa using hv, ?_⟩
    intro v hv
    obtain ⟨s, _, rfl⟩ := List.mem_map.1 hv
    rfl
  next b =>
    cases b
    · right; rfl
    · left; rfl

theorem mem_paramToks {E : Env} (n : Str) (vals : List (Str × Kind)) (vs : List (Option Val)) {q : Str × List PVal} : ∀ {ds : List PDef} {ps : List (Option ParamVal)},
    q ∈ paramToks E ds ps → ∃ y ∈ propParams ⟨n, .fields ds vals⟩ (.fields ps vs), y.1 ∈ ds ∧ vanishes E y.1.kind y.2 = false ∧ q = (y.1.name, ptokens E y.1.kind y.2) := by
  intro ds
  induction ds with
  | nil => intro ps h; simp [paramToks] at h
  | cons d ds ih =>
    intro ps h
    cases ps with
    | nil => simp [paramToks] at h
    | cons p ps =>
      simp only [paramToks, List.mem_append] at h
      rcases h with h | h
      · cases p with
        | none => simp at h
        | some v =>
          dsimp only at h
          split at h
          · simp at h
          · next hv =>
            rw [List.mem_singleton] at h
            refine ⟨(d, v), ?_, List.mem_cons_self, by simpa using hv, h⟩
            rw [propParams_cons]
            exact .inl ⟨v, rfl, rfl⟩
      · obtain ⟨y, h1, h2, h3⟩ := ih h
        exact ⟨y, by rw [propParams_cons]; exact .inr h1, List.mem_cons_of_mem _ h2, h3⟩

theorem paramToks_sublist (E : Env) : ∀ (ds : List PDef) (ps : List (Option ParamVal)), ((paramToks E ds ps).map (·.1)).Sublist (ds.map (·.name)) := by
  intro ds
  induction ds with
  | nil => intro ps; simp [paramToks]
  | cons d ds ih =>
    intro ps
    cases ps with
    | nil => simp [paramToks]
    | cons p ps =>
      cases p with
      | none => simpa [paramToks] using (ih ps).cons _
      | some v =>
        simp only [paramToks]
        split
        · simpa using (ih ps).cons _
        · simpa using (ih ps)

/-! ## A line -/

theorem tzid_valZone (v : Val) : v.tzid = valZone v := by
  have h : ∀ l : Loc, tzidOf l = zoneName l := by intro l; cases l <;> rfl
  cases v <;> simp only [Val.tzid, valZone, h]

theorem floatText_NoCtl {s : Str} (h : FloatText s) : ∀ c ∈ s, NoCtl c := by
  have hd : ∀ {a : Str} {n : Nat}, Dec a n → ∀ c ∈ a, NoCtl c := by
    intro a n ha c hc
    have := List.all_eq_true.1 (Dec_facts ha).2.1 _ hc
    unfold isDigit at this
    simp only [Bool.and_eq_true, decide_eq_true_eq] at this
    unfold NoCtl
    have h1 := Char.le_def.1 this.1
    have h2 : 48 ≤ c.toNat := by simpa using UInt32.le_iff_toNat_le.1 h1
    have h3 : c.toNat ≤ 57 := by simpa using UInt32.le_iff_toNat_le.1 (Char.le_def.1 this.2)
    omega
  obtain ⟨sign, a, n, hs, ha, h⟩ := h
  have hsg : ∀ c ∈ sign, NoCtl c := by
    rcases hs with rfl | rfl | rfl
    · simp
    · unfold NoCtl; decide
    · unfold NoCtl; decide
  intro c hc
  rcases h with rfl | ⟨b, m, hb, rfl⟩
  · rcases List.mem_append.1 hc with hc | hc
    · exact hsg c hc
    · exact hd ha c hc
  · rcases List.mem_append.1 hc with hc | hc
    · rcases List.mem_append.1 hc with hc | hc
      · exact hsg c hc
      · exact hd ha c hc
    · rcases List.mem_cons.1 hc with rfl | hc
      · unfold NoCtl; decide
      · exact hd hb c hc

theorem expressible_lib {E : Env} {Uri : Str → Prop} (hu : ∀ s, Uri s → ∀ c ∈ s, NoCtl c) {v : Val} (h : Expressible E Uri v) : v.LibOk E := by
  cases v with
  | calAddress u => exact hu _ h
  | uri u => exact hu _ h
  | tfloat t =>
    intro c hc
    rcases List.mem_append.1 hc with hc | hc
    · exact floatText_NoCtl h.1 c hc
    · exact floatText_NoCtl h.2 c hc
  | _ => trivial

/-- The conditions on one property. -/
structure Written (E : Env) (Uri : Str → Prop) (f : SField) (x : PropVal) : Prop where
  wf : FieldWf f
  typed : f.spec.typed x = true
  valid : f.spec.valid x = .ok ()
  fine : PropExpressible E Uri f x

theorem Written.safe {E : Env} {Uri : Str → Prop} (hu : ∀ s, Uri s → ∀ c ∈ s, NoCtl c) {f : SField} {x : PropVal} (h : Written E Uri f x) : PropSafe E f.spec x := by
  refine propSafe_of h.typed h.valid (fun y hy => paramExpressible_safe E (h.fine.params y hy)) (fun v hv => ⟨expressible_lib hu (h.fine.value v hv), ?_⟩)
  intro n hn
  rw [tzid_valZone] at hn
  exact (h.fine.zone v hv n hn).2

theorem headToks_eq (v : Val) : headToks v = (if v.kind = .binary then [(c!"ENCODING", [⟨false, c!"BASE64"⟩])] else []) ++
    (match valZone v with
      | some n => [(c!"TZID", [⟨false, n⟩])]
      | none => []) := by
  rw [← tzid_valZone]
  cases v <;> rfl

theorem valueLine {E : Env} {Uri : Str → Prop} {n : Str} {ds : List PDef} {vals : List (Str × Kind)} {ps : List (Option ParamVal)} {i : Nat} {v : Val}
    (hw : FieldsWf ds vals) (hd : ∀ d ∈ ds, (d.name, d.kind) ∈ paramTypes) (hn : (vals.map (·.2)).Nodup) (hi : i < vals.length)
    (hnames : i ≠ 0 → (vals.getD i ([], .text)).1 = typeName (vals.getD i ([], .text)).2) (hk : v.kind = (vals.getD i ([], .text)).2)
    (hps : ∀ y ∈ propParams ⟨n, .fields ds vals⟩ (.fields ps (oneOf vals.length i v)), ParamExpressible y.1.kind y.2) (hr : RfcWrites E Uri (v.text_ E) v)
    (hst : n ≠ c!"REQUEST-STATUS") (hz : ∀ z, valZone v = some z → n ∈ zoned) (hu : n ∈ mustUtc → ∀ z ∈ valLocs v, z = .utc) :
    let l : Line := ⟨n, paramToks E ds ps ++ valueToks vals i ++ headToks v, v.text_ E⟩
    ∃ v, v.kind ∈ vals.map (·.2) ∧ (if l.name = c!"REQUEST-STATUS" then Status l.value else RfcWrites E Uri l.value v) ∧
      (l.params.map (·.1)).Nodup ∧ (∀ q ∈ l.params, LineParam l (vals.map (·.2)) (ds.map (·.name)) v q) ∧
      ((vals.map (·.2)).head? ≠ some v.kind → c!"VALUE" ∈ l.params.map (·.1)) ∧ (v.kind = .binary → c!"ENCODING" ∈ l.params.map (·.1)) ∧
      (∀ n, valZone v = some n → c!"TZID" ∈ l.params.map (·.1)) ∧ (l.name ∈ mustUtc → ∀ z ∈ valLocs v, z = .utc) := by
  intro l
  have hget : vals.getD i ([], .text) = vals[i] := by simp [List.getD_eq_getElem?_getD, List.getElem?_eq_getElem hi]
  rw [hget] at hk hnames
  have hhead : i ≠ 0 → (vals.map (·.2)).head? ≠ some v.kind := by
    intro h0 he
    rw [List.head?_eq_getElem?] at he
    have h1 : (vals.map (·.2))[i]? = some v.kind := by simp [List.getElem?_eq_getElem hi, hk]
    exact h0 (nodup_inj hn h1 he)
  have hhead0 : i = 0 → (vals.map (·.2)).head? = some v.kind := by
    rintro rfl
    rw [List.head?_eq_getElem?]
    simp [List.getElem?_eq_getElem hi, hk]
  have hpn : ∀ q ∈ paramToks E ds ps, q.1 ≠ c!"VALUE" ∧ q.1 ≠ c!"ENCODING" ∧ q.1 ≠ c!"TZID" := by
    intro q hq
    obtain ⟨y, _, hy, _, rfl⟩ := mem_paramToks n vals [] hq
    have := hw.known _ hy
    exact ⟨this.nv, this.ne, this.nt⟩
  have hvt : valueToks vals i = if i = 0 then [] else [(c!"VALUE", [⟨false, typeName v.kind⟩])] := by
    unfold valueToks
    by_cases h0 : i = 0
    · rw [if_pos h0, if_pos h0]
    · rw [if_neg h0, if_neg h0, hget, hnames h0, hk]
  refine ⟨v, ?_, ?_, ?_, ?_, ?_, ?_, ?_, hu⟩
  · rw [hk]; exact List.mem_map.2 ⟨_, List.getElem_mem hi, rfl⟩
  · rw [if_neg hst]; exact hr
  · have h1 := (paramToks_sublist E ds ps).nodup hw.nodup
    have h2 : ((valueToks vals i ++ headToks v).map (·.1)).Nodup ∧ ∀ x ∈ (valueToks vals i ++ headToks v).map (·.1), x = c!"VALUE" ∨ x = c!"ENCODING" ∨ x = c!"TZID" := by
      rw [hvt, headToks_eq]
      by_cases h0 : i = 0 <;> by_cases hb : v.kind = .binary <;> cases valZone v <;> simp [h0, hb]
    show ((paramToks E ds ps ++ valueToks vals i ++ headToks v).map (·.1)).Nodup
    rw [List.append_assoc, List.map_append, List.nodup_append]
    refine ⟨h1, h2.1, ?_⟩
    intro a ha b hb e
    subst e
    obtain ⟨q, hq, rfl⟩ := List.mem_map.1 ha
    have := hpn q hq
    rcases h2.2 _ hb with h | h | h
    · exact this.1 h
    · exact this.2.1 h
    · exact this.2.2 h
  · intro q hq
    rw [List.mem_append, List.mem_append] at hq
    rcases hq with (hq | hq) | hq
    · obtain ⟨y, h1, h2, h3, rfl⟩ := mem_paramToks n vals (oneOf vals.length i v) hq
      exact .inr (.inr (.inr ⟨List.mem_map.2 ⟨_, h2, rfl⟩, _, hd _ h2, paramExpressible_tokens E (hps y h1) h3⟩))
    · rw [hvt] at hq
      split at hq
      · cases hq
      · next h0 =>
        rw [List.mem_singleton] at hq
        subst hq
        exact .inl ⟨rfl, hhead h0, rfl⟩
    · rw [headToks_eq, List.mem_append] at hq
      rcases hq with hq | hq
      · split at hq
        · next hb =>
          rw [List.mem_singleton] at hq
          subst hq
          exact .inr (.inl ⟨rfl, hb, rfl⟩)
        · cases hq
      · cases hzz : valZone v with
        | none => rw [hzz] at hq; cases hq
        | some z =>
          rw [hzz] at hq
          simp only [List.mem_singleton] at hq
          subst hq
          exact .inr (.inr (.inl ⟨rfl, hz z hzz, z, hzz, rfl⟩))
  · intro h
    have h0 : i ≠ 0 := fun h0 => h (hhead0 h0)
    show _ ∈ (paramToks E ds ps ++ valueToks vals i ++ headToks v).map (·.1)
    rw [hvt, if_neg h0]
    simp
  · intro hb
    show _ ∈ (paramToks E ds ps ++ valueToks vals i ++ headToks v).map (·.1)
    rw [headToks_eq, if_pos hb]
    simp
  · intro z hzz
    show _ ∈ (paramToks E ds ps ++ valueToks vals i ++ headToks v).map (·.1)
    rw [headToks_eq, hzz]
    simp

theorem Written.line {E : Env} {Uri : Str → Prop} (hu : ∀ s, Uri s → ∀ c ∈ s, NoCtl c) {p : Part} {f : SField} {x : PropVal} (hf : f ∈ partFields p) (h : Written E Uri f x) :
    (toLine E f.spec x).name = f.spec.name ∧ RfcLine E Uri p (toLine E f.spec x) := by
  have hs := h.safe hu
  obtain ⟨_, hok, hname⟩ := PSpec.encode_line E f.spec x h.wf.spec hs
  refine ⟨hname, hok, ?_⟩
  have hc := part_contents p (mem_allParts p) f hf
  have hp := part_params p (mem_allParts p) f hf
  obtain ⟨hwf, htyped, hvalid, hfine⟩ := h
  obtain ⟨key, ⟨n, sh⟩, mult⟩ := f
  rw [Option.map_eq_some_iff] at hc
  obtain ⟨t, ht, hsh⟩ := hc
  refine ⟨t, by rw [hname]; exact ht, ?_⟩
  cases t with
  | name names =>
    simp only [Content.shape] at hsh
    subst hsh
    cases x with
    | fields => exact absurd hs id
    | «enum» m =>
      have hm : m < names.length := hs
      refine ⟨rfl, ?_⟩
      simp only [toLine, List.getD_eq_getElem?_getD, List.getElem?_eq_getElem hm, Option.getD_some]
      exact List.getElem_mem hm
  | value types names =>
    cases sh with
    | «enum» names' => simp [Content.shape] at hsh
    | fields ds vals =>
      simp only [Content.shape, Shape.fields.injEq] at hsh
      obtain ⟨e1, e2⟩ := hsh
      have ed : names = ds.map (·.name) := by rw [← e1, List.map_map]; exact (List.map_id' names).symm
      have ev : types = vals.map (·.2) := by rw [← e2, List.map_map]; exact (List.map_id' types).symm
      cases x with
      | «enum» m => exact absurd hs id
      | fields ps vs =>
        have hw := PSpec.wf_fields hwf.spec
        obtain ⟨_, _, i, v, hi, rfl, hk, hvv⟩ := PSpec.typed_valid htyped hvalid
        have hm : v ∈ propVals (.fields ps (oneOf vals.length i v)) := by
          simp only [propVals, List.mem_filterMap, id]
          exact ⟨some v, List.mem_of_getElem? (i := i) (by simp [oneOf, hi]), rfl⟩
        have hl : toLine E ⟨n, .fields ds vals⟩ (.fields ps (oneOf vals.length i v)) = ⟨n, paramToks E ds ps ++ valueToks vals i ++ headToks v, v.text_ E⟩ := by
          simp only [toLine, oneOf_findIdx _ i v hi, oneOf_get _ i v hi]
        dsimp only
        rw [hl, ed, ev]
        refine valueLine hw hp.1 hp.2 hi ?_ hk hfine.params ?_ hfine.status (fun z hz => (hfine.zone v hm z hz).1) (fun h => hfine.utc h v hm)
        · intro h0
          have hget : vals.getD i ([], .text) = vals[i] := by simp [List.getD_eq_getElem?_getD, List.getElem?_eq_getElem hi]
          rw [hget]
          subst e2
          simp only [List.length_map] at hi
          rw [List.getElem_map]
          dsimp only
          rw [if_neg (by omega)]
        · exact Props.C81_written_partial E Uri v hvv (hfine.rule v hm) (hfine.value v hm) (hfine.offset v hm)

/-! ## The parts of a section -/

theorem items_lines : ∀ {ls : List Line}, (∀ l ∈ ls, ¬ Begins l ∧ ¬ Ends l) → Items ls (ls.map Item.line)
  | [], _ => .nil
  | l :: _, h => .line (h l List.mem_cons_self).1 (h l List.mem_cons_self).2 (items_lines fun m hm => h m (List.mem_cons_of_mem _ hm))

/-- The blocks of the subsections; `body` gives the lines between BEGIN and END. -/
def subItems (body : κ → σ → List Line) (ks : List (Str × κ)) (vs : List (List σ)) : List Item :=
  (ks.zip vs).flatMap fun x => x.2.map fun y => .block x.1.1 (body x.1.2 y)

theorem items_subs {inner body : κ → σ → List Line} : ∀ {ks : List (Str × κ)} {vs : List (List σ)}, (∀ x ∈ ks, nameOk x.1 = true) →
    (∀ x ∈ ks.zip vs, ∀ s ∈ x.2, inner x.1.2 s = body x.1.2 s ++ [plainLine kEND x.1.1] ∧ Closed (body x.1.2 s)) →
    Items (subsLines inner ks vs) (subItems body ks vs) := by
  intro ks
  induction ks with
  | nil => intro vs _ _; exact .nil
  | cons k ks ih =>
    obtain ⟨n, k⟩ := k
    intro vs hn he
    cases vs with
    | nil => exact .nil
    | cons v vs =>
      have hr := ih (vs := vs) (fun x hx => hn x (List.mem_cons_of_mem _ hx)) (fun x hx => he x (List.mem_cons_of_mem _ hx))
      have hk := he ((n, k), v) List.mem_cons_self
      have hu : upper n = n := nameOk_up (hn (n, k) List.mem_cons_self)
      simp only [subsLines, subItems, List.zip_cons_cons, List.flatMap_cons]
      refine Spec.Items.append ?_ hr
      clear he hr ih
      dsimp only at hk
      induction v with
      | nil => exact .nil
      | cons y v ihv =>
        obtain ⟨e1, e2⟩ := hk y List.mem_cons_self
        rw [List.flatMap_cons, List.map_cons]
        have hrest := ihv fun z hz => hk z (List.mem_cons_of_mem _ hz)
        rw [e1]
        have := Items.block (b := plainLine kBEGIN n) (e := plainLine kEND n) (show upper kBEGIN = _ by decide) (show upper kEND = _ by decide) rfl e2 hrest
        simp only [plainLine, hu] at this ⊢
        simpa using this

theorem linesNamed_lines (ls : List Line) (n : Str) : linesNamed (ls.map Item.line) n = ls.filter fun l => upper l.name = n := by
  induction ls with
  | nil => rfl
  | cons l ls ih =>
    rw [List.map_cons, linesNamed_line, ih, List.filter_cons]
    by_cases h : upper l.name = n <;> simp [h]

theorem blocksNamed_lines (ls : List Line) (n : Str) : blocksNamed (ls.map Item.line) n = [] := by
  induction ls with
  | nil => rfl
  | cons l ls ih => rw [List.map_cons, blocksNamed_line, ih]

theorem mem_subItems {body : κ → σ → List Line} {ks : List (Str × κ)} {vs : List (List σ)} {i : Item} (h : i ∈ subItems body ks vs) :
    ∃ x ∈ ks.zip vs, ∃ y ∈ x.2, i = .block x.1.1 (body x.1.2 y) := by
  obtain ⟨x, hx, h⟩ := List.mem_flatMap.1 h
  obtain ⟨y, hy, rfl⟩ := List.mem_map.1 h
  exact ⟨x, hx, y, hy, rfl⟩

theorem linesNamed_onlyBlocks {is : List Item} (h : ∀ i ∈ is, ∃ m k, i = Item.block m k) (n : Str) : linesNamed is n = [] := by
  unfold linesNamed
  rw [List.filterMap_eq_nil_iff]
  intro i hi
  obtain ⟨m, k, rfl⟩ := h i hi
  rfl

theorem linesNamed_subItems (body : κ → σ → List Line) (ks : List (Str × κ)) (vs : List (List σ)) (n : Str) : linesNamed (subItems body ks vs) n = [] := by
  apply linesNamed_onlyBlocks
  intro i hi
  obtain ⟨x, _, y, _, rfl⟩ := mem_subItems hi
  exact ⟨_, _, rfl⟩

theorem mem_blocksNamed {is : List Item} {n : Str} {k : List Line} : k ∈ blocksNamed is n ↔ Item.block n k ∈ is := by
  unfold blocksNamed
  rw [List.mem_filterMap]
  constructor
  · rintro ⟨i, hi, h⟩
    cases i with
    | line l => simp at h
    | block m j =>
      dsimp only at h
      split at h
      · next hm => cases h; exact hm ▸ hi
      · cases h
  · intro h
    exact ⟨_, h, by simp⟩

theorem count_lines (ls : List Line) (h : ∀ l ∈ ls, upper l.name = l.name) (n : Str) : (ls.filter fun l => upper l.name = n).length = (ls.map (·.name)).count n := by
  induction ls with
  | nil => rfl
  | cons l ls ih =>
    rw [List.filter_cons, List.map_cons, List.count_cons, ← ih fun m hm => h m (List.mem_cons_of_mem _ hm), h l List.mem_cons_self]
    by_cases hn : l.name = n <;> simp [hn]

/-- A section of written properties is as RFC 5545 wants it exactly if it has the right ones. -/
theorem section_body {E : Env} {Uri : Str → Prop} (hu : ∀ s, Uri s → ∀ c ∈ s, NoCtl c) {p : Part} {T : Tab κ} (hT : T.fields = partFields p)
    (hin : ∀ x ∈ T.subs, x.1 ∈ inside p) {pre : List Line} (hpre : ∀ l ∈ pre, l.name = c!"ACTION" ∧ ∃ a, p = .alarm a) {s : Sect σ}
    (hf : FieldsAll (Written E Uri) T.fields s.fields) (hctl : ∀ f ∈ T.fields, FieldWf f) (body : κ → σ → List Line) :
    RfcBody E Uri p ((pre ++ fieldLines E T.fields s.fields).map Item.line ++ subItems body T.subs s.subs) ↔ RfcSec (secOf p T s) := by
  have hp := hf.mem.props
  have hlines : ∀ l ∈ fieldLines E T.fields s.fields, ∃ x ∈ sectProps T s, l = toLine E x.1.spec x.2 ∧ l.name = x.1.spec.name ∧ RfcLine E Uri p l ∧ upper l.name = l.name := by
    intro l hl
    rw [fieldLines_props] at hl
    obtain ⟨x, hx, rfl⟩ := List.mem_map.1 hl
    obtain ⟨hm, hw⟩ := hp x hx
    obtain ⟨h1, h2⟩ := hw.line hu (hT ▸ hm)
    refine ⟨x, hx, rfl, h1, h2, ?_⟩
    rw [h1]
    have := hw.wf.spec
    unfold PSpec.wf at this
    simp only [Bool.and_eq_true] at this
    exact nameOk_up this.1
  have hnames : (fieldLines E T.fields s.fields).map (·.name) = (secOf p T s).names := by
    rw [fieldLines_props, List.map_map]
    apply List.map_congr_left
    intro x hx
    obtain ⟨hm, hw⟩ := hp x hx
    exact (hw.line hu (hT ▸ hm)).1
  have hcount : ∀ n, n ≠ c!"ACTION" → (linesNamed ((pre ++ fieldLines E T.fields s.fields).map Item.line ++ subItems body T.subs s.subs) n).length = (secOf p T s).names.count n := by
    intro n hn
    rw [linesNamed_append, linesNamed_subItems, List.append_nil, linesNamed_lines, List.filter_append, List.length_append, ← hnames,
      count_lines (fieldLines E T.fields s.fields) (fun l hl => by obtain ⟨_, _, _, _, _, h⟩ := hlines l hl; exact h)]
    rw [List.filter_eq_nil_iff.2, List.length_nil, Nat.zero_add]
    intro l hl
    rw [(hpre l hl).1]
    have ha : upper c!"ACTION" = c!"ACTION" := by decide
    simpa [ha] using fun e => hn e.symm
  have hne : ∀ n, n ≠ c!"ACTION" → (linesNamed ((pre ++ fieldLines E T.fields s.fields).map Item.line ++ subItems body T.subs s.subs) n ≠ [] ↔ n ∈ (secOf p T s).names) := by
    intro n hn
    rw [← List.length_pos_iff, hcount n hn, List.count_pos_iff]
  have hblk : ∀ n, blocksNamed ((pre ++ fieldLines E T.fields s.fields).map Item.line ++ subItems body T.subs s.subs) n ≠ [] ↔ n ∈ (secOf p T s).blocks := by
    intro n
    rw [blocksNamed_append, blocksNamed_lines, List.nil_append]
    constructor
    · intro h
      obtain ⟨k, hk⟩ := List.exists_mem_of_ne_nil _ h
      obtain ⟨y, hy, z, hz, e⟩ := mem_subItems (mem_blocksNamed.1 hk)
      injection e with e1 e2
      exact List.mem_flatMap.2 ⟨y, hy, List.mem_map.2 ⟨z, hz, e1.symm⟩⟩
    · intro hm
      obtain ⟨x, hx, hm⟩ := List.mem_flatMap.1 hm
      obtain ⟨z, hz, rfl⟩ := List.mem_map.1 hm
      intro he
      have : body x.1.2 z ∈ blocksNamed (subItems body T.subs s.subs) x.1.1 :=
        mem_blocksNamed.2 (List.mem_flatMap.2 ⟨x, hx, List.mem_map.2 ⟨z, hz, rfl⟩⟩)
      rw [he] at this
      cases this
  have hocc : ∀ n o, occurs p n = some o → n ≠ c!"ACTION" := by
    rintro n o ho rfl
    rw [(part_action p).1] at ho
    cases ho
  have hlaw : ∀ y ∈ laws p, (y.ok ((pre ++ fieldLines E T.fields s.fields).map Item.line ++ subItems body T.subs s.subs) ↔ y.holds (secOf p T s)) := by
    intro y hy
    have hact := (part_action p).2 y hy
    cases y with
    | notBoth a b => exact not_congr (and_congr (hne a hact.1) (hne b hact.2))
    | needs a b => exact imp_congr (hne a hact.1) (hne b hact.2)
    | bothOrNone a b => exact iff_congr (hne a hact.1) (hne b hact.2)
    | notBothNorNone a b => exact not_congr (iff_congr (hne a hact.1) (hne b hact.2))
    | block ns => exact exists_congr fun n => and_congr_right fun _ => hblk n
  constructor
  · rintro ⟨h1, h2, h3⟩
    refine ⟨?_, ?_, fun y hy => (hlaw y hy).1 (h3 y hy)⟩
    · intro n hn
      obtain ⟨x, hx, rfl⟩ := List.mem_map.1 hn
      have hl : toLine E x.1.spec x.2 ∈ fieldLines E T.fields s.fields := by
        rw [fieldLines_props]
        exact List.mem_map.2 ⟨x, hx, rfl⟩
      obtain ⟨hm, hw⟩ := hp x hx
      have hn := (hw.line hu (hT ▸ hm)).1
      rcases h1 (.line (toLine E x.1.spec x.2)) (List.mem_append_left _ (List.mem_map.2 ⟨_, List.mem_append_right _ hl, rfl⟩)) with h | h
      · rw [hn] at h
        exact absurd h.1 (hctl _ hm).notCtl2.2.2
      · rw [hn] at h
        exact h.1
    · intro n o ho
      exact hcount n (hocc n o ho) ▸ h2 n o ho
  rintro ⟨hs1, hs2, hs3⟩
  refine ⟨?_, ?_, fun y hy => (hlaw y hy).2 (hs3 y hy)⟩
  · intro x hx
    rcases List.mem_append.1 hx with hx | hx
    · obtain ⟨l, hl, rfl⟩ := List.mem_map.1 hx
      rcases List.mem_append.1 hl with hl | hl
      · exact .inl (hpre l hl)
      · obtain ⟨y, hy, _, e, hr, _⟩ := hlines l hl
        refine .inr ⟨?_, hr⟩
        rw [e]
        exact hs1 _ (List.mem_map.2 ⟨y, hy, rfl⟩)
    · obtain ⟨y, hy, z, _, rfl⟩ := mem_subItems hx
      exact hin _ (List.of_mem_zip hy).1
  · intro n o ho
    rw [hcount n (hocc n o ho)]
    exact hs2 n o ho

/-! ## Bodies -/

def Tab.bodyLines (E : Env) (T : Tab κ) (inner : κ → σ → List Line) (s : Sect σ) : List Line := fieldLines E T.fields s.fields ++ subsLines inner T.subs s.subs

def subBody (E : Env) (k : SubKind) (s : Sub) : List Line :=
  match k, s with
  | .alarm, .alarm (some (a, s)) => plainLine kACTION a.action :: a.tab.bodyLines E noInner s
  | .leaf T, .leaf s => T.bodyLines E noInner s
  | _, _ => []

def compBody (E : Env) (T : Tab SubKind) (s : Comp) : List Line := T.bodyLines E (subInner E) s

theorem fieldLines_flat {E : Env} {Uri : Str → Prop} (hu : ∀ s, Uri s → ∀ c ∈ s, NoCtl c) {T : Tab κ} (hw : T.Wf) {s : Sect σ}
    (hf : FieldsAll (Written E Uri) T.fields s.fields) : ∀ l ∈ fieldLines E T.fields s.fields, ¬ Begins l ∧ ¬ Ends l ∧ upper l.name ≠ c!"ACTION" := by
  intro l hl
  obtain ⟨_, f, hm, e⟩ := (encFields_lines E T.fields s.fields hw.field (FieldsAll.imp (fun _ _ h => h.safe hu) hf)).2 l hl
  have h1 := (hw.field f hm).notCtl2
  have h2 := (hw.field f hm).spec
  unfold PSpec.wf at h2
  simp only [Bool.and_eq_true] at h2
  unfold Begins Ends
  rw [e, nameOk_up h2.1]
  exact h1

/-- A section without subsections, possibly an alarm. -/
theorem leaf_items {E : Env} {Uri : Str → Prop} (hu : ∀ s, Uri s → ∀ c ∈ s, NoCtl c) {p : Part} {T : Tab Empty} (hT : T.fields = partFields p) (hw : T.Wf)
    (hs : T.subs = []) {pre : List Line} (hpre : ∀ l ∈ pre, l.name = c!"ACTION" ∧ ∃ a, p = .alarm a) {s : Leaf}
    (hf : FieldsAll (Written E Uri) T.fields s.fields) :
    (∀ l ∈ pre ++ T.bodyLines E noInner s, ¬ Begins l ∧ ¬ Ends l) ∧
    ((∃ is, Items (pre ++ T.bodyLines E noInner s) is ∧ RfcBody E Uri p is) ↔ RfcSec (secOf p T s)) := by
  have e : T.bodyLines E noInner s = fieldLines E T.fields s.fields := by
    unfold Tab.bodyLines
    rw [hs]
    simp [subsLines]
  have hflat : ∀ l ∈ pre ++ fieldLines E T.fields s.fields, ¬ Begins l ∧ ¬ Ends l := by
    intro l hl
    rcases List.mem_append.1 hl with hl | hl
    · unfold Begins Ends
      rw [(hpre l hl).1]
      decide
    · obtain ⟨h1, h2, _⟩ := fieldLines_flat hu hw hf l hl
      exact ⟨h1, h2⟩
  rw [e]
  have hi := items_lines hflat
  have := section_body hu hT (by rw [hs]; simp) hpre hf hw.field noInner
  rw [hs] at this
  simp only [subItems, List.zip_nil_left, List.flatMap_nil, List.append_nil] at this
  refine ⟨hflat, ?_⟩
  rw [← this]
  exact ⟨fun ⟨is, h1, h2⟩ => Items.unique h1 hi ▸ h2, fun h => ⟨_, hi, h⟩⟩

theorem action_inj {a b : AKind} (h : action a = action b) : a = b := by
  cases a <;> cases b <;> first | rfl | exact absurd h (by decide)

/-- The claim for a subsection. -/
def SubPartAll (P : PartClaim) (n : Str) (k : SubKind) (body : List Line) : Prop :=
  match k with
  | .alarm => AlarmAll P body
  | .leaf _ => ∃ is, Items body is ∧ P (partNamed n) is

theorem sub_all {E : Env} {Uri : Str → Prop} (hu : ∀ s, Uri s → ∀ c ∈ s, NoCtl c) {x : Str × SubKind} (hg : SubKind.Good x)
    (hT : ∀ T, x.2 = .leaf T → T.fields = partFields (partNamed x.1)) {s : Sub} (h : GoodSub (Written E Uri) x.2 s) :
    subInner E x.2 s = subBody E x.2 s ++ [plainLine kEND x.1] ∧ Closed (subBody E x.2 s) ∧
    (SubPartAll (RfcBody E Uri) x.1 x.2 (subBody E x.2 s) ↔ ∀ y ∈ subSecs x.1 x.2 s, RfcSec y) := by
  obtain ⟨n, k⟩ := x
  cases k with
  | leaf T =>
    cases s with
    | alarm a => exact absurd h id
    | leaf s =>
      obtain ⟨hw, hn, hs⟩ := hg
      obtain ⟨h1, h2⟩ := leaf_items hu (hT T rfl) hw hs (pre := []) (by simp) h.1
      refine ⟨?_, closed_of_flat h1, ?_⟩
      · simp only [subInner, subBody, Tab.inner, Tab.bodyLines]
        rw [show T.name = n from hn]
      · simp only [subSecs, List.mem_singleton, forall_eq]
        exact h2
  | alarm =>
    cases s with
    | leaf s => exact absurd h id
    | alarm a =>
      cases a with
      | none => exact absurd h id
      | some a =>
        obtain ⟨a, s⟩ := a
        have hn : n = kVALARM := hg
        obtain ⟨h1, h2⟩ := leaf_items hu (p := .alarm a) rfl (aTab_wf a) (aTab_name a).2 (pre := [plainLine kACTION a.action])
          (by intro l hl; rw [List.mem_singleton] at hl; subst hl; exact ⟨rfl, a, rfl⟩) h.1
        have hact : actions (subBody E .alarm (.alarm (some (a, s)))) = [action a] := by
          have hflat := fieldLines_flat hu (aTab_wf a) h.1
          have e : a.tab.bodyLines E noInner s = fieldLines E a.tab.fields s.fields := by
            unfold Tab.bodyLines
            rw [(aTab_name a).2]
            simp [subsLines]
          simp only [subBody, e]
          rw [actions_cons, if_pos (show upper (plainLine kACTION a.action).name = _ from (by decide : upper kACTION = c!"ACTION"))]
          have : actions (fieldLines E a.tab.fields s.fields) = [] := by
            unfold actions
            rw [List.filter_eq_nil_iff.2]
            · rfl
            · intro l hl
              simpa using (hflat l hl).2.2
          rw [this]
          cases a <;> rfl
        refine ⟨?_, closed_of_flat h1, ?_⟩
        · simp only [subInner, subBody, alarmInner, Tab.inner, Tab.bodyLines, (aTab_name a).1, hn]
          simp
        · simp only [subSecs, List.mem_singleton, forall_eq]
          rw [← h2]
          constructor
          · rintro ⟨_, us, b, e, _, is, h3, h4⟩
            rw [hact] at e
            have hb : a = b := by
              cases us with
              | nil => exact action_inj (List.cons.inj e).1
              | cons u us => have := congrArg List.length e; simp at this
            subst hb
            exact ⟨is, h3, h4⟩
          · rintro ⟨is, h3, h4⟩
            exact ⟨h1, [], a, hact, by simp, is, h3, h4⟩

theorem subs_parts : ∀ x ∈ tabCalendar.subs, x.2.fields = partFields (partNamed x.1) ∧ (∀ y ∈ x.2.subs, y.1 ∈ inside (partNamed x.1)) ∧
    ∀ y ∈ x.2.subs, ∀ T, y.2 = .leaf T → T.fields = partFields (partNamed y.1) := by
  intro x hx
  simp only [tabCalendar, List.mem_cons, List.not_mem_nil, or_false] at hx
  rcases hx with rfl | rfl | rfl | rfl | rfl <;> refine ⟨rfl, by decide, ?_⟩ <;> intro y hy T hT
  all_goals
    simp only [tabEvent, tabTodo, tabJournal, tabFreeBusy, tabTimezone, List.mem_cons, List.not_mem_nil, or_false] at hy
  · subst hy; cases hT
  · subst hy; cases hT
  · rcases hy with rfl | rfl <;> cases hT <;> rfl

theorem SubsAll.of_zip {P : κ → σ → Prop} : ∀ {ks : List (Str × κ)} {vs : List (List σ)}, SubsAll P ks vs → ∀ x ∈ ks.zip vs, ∀ y ∈ x.2, P x.1.2 y := by
  intro ks
  induction ks with
  | nil => intro vs _ x hx; simp at hx
  | cons k ks ih =>
    intro vs h x hx
    cases vs with
    | nil => exact absurd h id
    | cons v vs =>
      rw [List.zip_cons_cons] at hx
      rcases List.mem_cons.1 hx with rfl | hx
      · exact h.1
      · exact ih h.2 x hx

theorem comp_all {E : Env} {Uri : Str → Prop} (hu : ∀ s, Uri s → ∀ c ∈ s, NoCtl c) {x : Str × Tab SubKind} (hx : x ∈ tabCalendar.subs) {s : Comp}
    (h : GoodSect (Written E Uri) (GoodSub (Written E Uri)) x.2 s) :
    compInner E x.2 s = compBody E x.2 s ++ [plainLine kEND x.1] ∧ Closed (compBody E x.2 s) ∧
    (ComponentAll (RfcBody E Uri) (partNamed x.1) (compBody E x.2 s) ↔ ∀ y ∈ compSecs x.1 x.2 s, RfcSec y) := by
  obtain ⟨hw, hn, hg⟩ := compTab_good x hx
  obtain ⟨p1, p2, p3⟩ := subs_parts x hx
  obtain ⟨h1, _, h3, _⟩ := h
  have hsub : ∀ y ∈ x.2.subs.zip s.subs, ∀ z ∈ y.2, subInner E y.1.2 z = subBody E y.1.2 z ++ [plainLine kEND y.1.1] ∧ Closed (subBody E y.1.2 z) ∧
      (SubPartAll (RfcBody E Uri) y.1.1 y.1.2 (subBody E y.1.2 z) ↔ ∀ w ∈ subSecs y.1.1 y.1.2 z, RfcSec w) := by
    intro y hy z hz
    have hym := (List.of_mem_zip hy).1
    exact sub_all hu (hg _ hym) (p3 _ hym) (h3.of_zip y hy z hz)
  have hitems : Items (compBody E x.2 s) ((fieldLines E x.2.fields s.fields).map Item.line ++ subItems (subBody E) x.2.subs s.subs) := by
    refine Spec.Items.append (items_lines fun l hl => ?_) ?_
    · obtain ⟨a, b, _⟩ := fieldLines_flat hu hw h1 l hl
      exact ⟨a, b⟩
    · exact items_subs hw.subNames fun y hy z hz => ⟨(hsub y hy z hz).1, (hsub y hy z hz).2.1⟩
  have hinner : InnerAll (RfcBody E Uri) (partNamed x.1) ((fieldLines E x.2.fields s.fields).map Item.line ++ subItems (subBody E) x.2.subs s.subs) ↔
      ∀ y ∈ x.2.subs.zip s.subs, ∀ z ∈ y.2, SubPartAll (RfcBody E Uri) y.1.1 y.1.2 (subBody E y.1.2 z) := by
    have hb : ∀ n k, k ∈ blocksNamed ((fieldLines E x.2.fields s.fields).map Item.line ++ subItems (subBody E) x.2.subs s.subs) n ↔
        ∃ y ∈ x.2.subs.zip s.subs, ∃ z ∈ y.2, y.1.1 = n ∧ k = subBody E y.1.2 z := by
      intro n k
      rw [blocksNamed_append, blocksNamed_lines, List.nil_append, mem_blocksNamed]
      constructor
      · intro hk
        obtain ⟨y, hy, z, hz, e⟩ := mem_subItems hk
        cases e
        exact ⟨y, hy, z, hz, rfl, rfl⟩
      · rintro ⟨y, hy, z, hz, rfl, rfl⟩
        exact List.mem_flatMap.2 ⟨y, hy, List.mem_map.2 ⟨z, hz, rfl⟩⟩
    clear hitems hsub
    simp only [tabCalendar, List.mem_cons, List.not_mem_nil, or_false] at hx
    have alarm : (∀ y ∈ x.2.subs, y = (c!"VALARM", .alarm)) → ((∀ k ∈ blocksNamed ((fieldLines E x.2.fields s.fields).map Item.line ++ subItems (subBody E) x.2.subs s.subs) c!"VALARM",
        AlarmAll (RfcBody E Uri) k) ↔ ∀ y ∈ x.2.subs.zip s.subs, ∀ z ∈ y.2, SubPartAll (RfcBody E Uri) y.1.1 y.1.2 (subBody E y.1.2 z)) := by
      intro ha
      constructor
      · intro h y hy z hz
        have e := ha _ (List.of_mem_zip hy).1
        have := h _ ((hb _ _).2 ⟨y, hy, z, hz, by rw [e], rfl⟩)
        rw [e] at this ⊢
        exact this
      · intro h k hk
        obtain ⟨y, hy, z, hz, _, rfl⟩ := (hb _ k).1 hk
        have := h y hy z hz
        rw [ha _ (List.of_mem_zip hy).1] at this ⊢
        exact this
    have none : x.2.subs = [] → (True ↔ ∀ y ∈ x.2.subs.zip s.subs, ∀ z ∈ y.2, SubPartAll (RfcBody E Uri) y.1.1 y.1.2 (subBody E y.1.2 z)) := by
      intro he
      rw [he]
      simp
    rcases hx with rfl | rfl | rfl | rfl | rfl
    · exact alarm (by intro y hy; simp only [tabEvent, List.mem_singleton] at hy; subst hy; rfl)
    · exact alarm (by intro y hy; simp only [tabTodo, List.mem_singleton] at hy; subst hy; rfl)
    · exact none rfl
    · exact none rfl
    · have ha : ∀ y ∈ tabTimezone.subs, y = (c!"STANDARD", .leaf tabStandard) ∨ y = (c!"DAYLIGHT", .leaf tabDaylight) := by
        intro y hy
        simp only [tabTimezone, List.mem_cons, List.not_mem_nil, or_false] at hy
        exact hy
      constructor
      · rintro ⟨hs, hd⟩ y hy z hz
        rcases ha _ (List.of_mem_zip hy).1 with e | e
        · have := hs _ ((hb _ _).2 ⟨y, hy, z, hz, by rw [e], rfl⟩)
          rw [e] at this ⊢
          exact this
        · have := hd _ ((hb _ _).2 ⟨y, hy, z, hz, by rw [e], rfl⟩)
          rw [e] at this ⊢
          exact this
      · intro h
        constructor
        · intro k hk
          obtain ⟨y, hy, z, hz, hn, rfl⟩ := (hb _ k).1 hk
          have := h y hy z hz
          rcases ha _ (List.of_mem_zip hy).1 with e | e
          · rw [e] at this ⊢
            exact this
          · rw [e] at hn
            exact absurd hn (by decide)
        · intro k hk
          obtain ⟨y, hy, z, hz, hn, rfl⟩ := (hb _ k).1 hk
          have := h y hy z hz
          rcases ha _ (List.of_mem_zip hy).1 with e | e
          · rw [e] at hn
            exact absurd hn (by decide)
          · rw [e] at this ⊢
            exact this
  refine ⟨?_, Items.closed hitems, ?_⟩
  · simp only [compInner, compBody, Tab.inner, Tab.bodyLines, hn]
  · have hsec := section_body hu p1 p2 (pre := []) (by simp) h1 hw.field (subBody E)
    rw [List.nil_append] at hsec
    constructor
    · rintro ⟨is, h4, h5, h6⟩
      cases Items.unique h4 hitems
      intro y hy
      rcases List.mem_cons.1 hy with rfl | hy
      · exact hsec.1 h5
      · obtain ⟨a, ha, hy⟩ := List.mem_flatMap.1 hy
        obtain ⟨z, hz, hy⟩ := List.mem_flatMap.1 hy
        exact (hsub a ha z hz).2.2.1 (hinner.1 h6 a ha z hz) y hy
    · intro h
      refine ⟨_, hitems, hsec.2 (h _ List.mem_cons_self), hinner.2 fun a ha z hz => (hsub a ha z hz).2.2.2 fun y hy => ?_⟩
      exact h y (List.mem_cons_of_mem _ (List.mem_flatMap.2 ⟨a, ha, List.mem_flatMap.2 ⟨z, hz, hy⟩⟩))

theorem subs_blocks : ∀ x ∈ tabCalendar.subs, ∃ p ∈ [Part.event, .todo, .journal, .freeBusy, .timezone], p.block = x.1 ∧ partNamed x.1 = p := by
  intro x hx
  simp only [tabCalendar, List.mem_cons, List.not_mem_nil, or_false] at hx
  rcases hx with rfl | rfl | rfl | rfl | rfl
  · exact ⟨.event, by decide⟩
  · exact ⟨.todo, by decide⟩
  · exact ⟨.journal, by decide⟩
  · exact ⟨.freeBusy, by decide⟩
  · exact ⟨.timezone, by decide⟩

theorem cal_all {E : Env} {Uri : Str → Prop} (hu : ∀ s, Uri s → ∀ c ∈ s, NoCtl c) {c : Cal} (h : GoodCal (Written E Uri) c) :
    DocAll (RfcBody E Uri) (calLines E c) ↔ ∀ y ∈ calSecs c, RfcSec y := by
  obtain ⟨h1, _, h3, _⟩ := h
  have hsub : ∀ y ∈ tabCalendar.subs.zip c.subs, ∀ z ∈ y.2, compInner E y.1.2 z = compBody E y.1.2 z ++ [plainLine kEND y.1.1] ∧ Closed (compBody E y.1.2 z) ∧
      (ComponentAll (RfcBody E Uri) (partNamed y.1.1) (compBody E y.1.2 z) ↔ ∀ w ∈ compSecs y.1.1 y.1.2 z, RfcSec w) := by
    intro y hy z hz
    exact comp_all hu (List.of_mem_zip hy).1 (h3.of_zip y hy z hz)
  have hitems : Items (tabCalendar.bodyLines E (compInner E) c) ((fieldLines E tabCalendar.fields c.fields).map Item.line ++ subItems (compBody E) tabCalendar.subs c.subs) := by
    refine Spec.Items.append (items_lines fun l hl => ?_) ?_
    · obtain ⟨a, b, _⟩ := fieldLines_flat hu calTab_wf h1 l hl
      exact ⟨a, b⟩
    · exact items_subs calTab_wf.subNames fun y hy z hz => ⟨(hsub y hy z hz).1, (hsub y hy z hz).2.1⟩
  have hlines : calLines E c = plainLine kBEGIN tabCalendar.name :: tabCalendar.bodyLines E (compInner E) c ++ [plainLine kEND tabCalendar.name] := by
    simp [calLines, Tab.inner, Tab.bodyLines]
  have hsec := section_body (p := .calendar) hu rfl (by decide) (pre := []) (by simp) h1 calTab_wf.field (compBody E)
  rw [List.nil_append] at hsec
  constructor
  · rintro ⟨b, k, e, is, hl, _, _, _, _, h4, h5, h6⟩
    rw [hlines, List.cons_append, List.cons_append] at hl
    have hk := (List.append_inj' (List.cons.inj hl).2 rfl).1
    subst hk
    cases Items.unique h4 hitems
    intro y hy
    rcases List.mem_cons.1 hy with rfl | hy
    · exact hsec.1 h5
    · obtain ⟨a, ha, hy⟩ := List.mem_flatMap.1 hy
      obtain ⟨z, hz, hy⟩ := List.mem_flatMap.1 hy
      obtain ⟨p, hp, e1, e2⟩ := subs_blocks _ (List.of_mem_zip ha).1
      have := h6 p hp (compBody E a.1.2 z) (by
        rw [blocksNamed_append, blocksNamed_lines, List.nil_append, mem_blocksNamed, e1]
        exact List.mem_flatMap.2 ⟨a, ha, List.mem_map.2 ⟨z, hz, rfl⟩⟩)
      rw [← e2] at this
      exact (hsub a ha z hz).2.2.1 this y hy
  · intro h
    refine ⟨plainLine kBEGIN tabCalendar.name, _, plainLine kEND tabCalendar.name, _, hlines, show upper kBEGIN = _ by decide, show upper tabCalendar.name = _ by decide,
      show upper kEND = _ by decide, show tabCalendar.name = _ by decide, hitems, hsec.2 (h _ List.mem_cons_self), ?_⟩
    intro p hp j hj
    rw [blocksNamed_append, blocksNamed_lines, List.nil_append] at hj
    obtain ⟨y, hy, z, hz, e⟩ := mem_subItems (mem_blocksNamed.1 hj)
    injection e with e1 e2
    subst e2
    have := (hsub y hy z hz).2.2.2 fun w hw' => h w (List.mem_cons_of_mem _ (List.mem_flatMap.2 ⟨y, hy, List.mem_flatMap.2 ⟨z, hz, hw'⟩⟩))
    rw [← e1] at this
    have hb : ∀ p ∈ [Part.event, .todo, .journal, .freeBusy, .timezone], partNamed p.block = p := by decide
    rw [hb p hp] at this
    exact this

/-- The document of a calendar with such properties: it follows RFC 5545 exactly if the components have the right properties. -/
theorem doc_all {E : Env} {Uri : Str → Prop} (hu : ∀ s, Uri s → ∀ c ∈ s, NoCtl c) {c : Cal} (ht : c.typed = true) (hv : c.valid = .ok ())
    (hf : ∀ x ∈ calProps c, PropExpressible E Uri x.1 x.2) :
    ∃ s, encodeDoc E c = some s ∧ (tokenise s).term = .done ∧ (DocAll (RfcBody E Uri) (tokenise s).lines ↔ ∀ y ∈ calSecs c, RfcSec y) := by
  have hg : GoodCal (Written E Uri) c := GoodCal.build (PropExpressible E Uri) _ (fun f p hw ht hq hv => ⟨hw, ht, hv, hq⟩) c ht hv hf
  obtain ⟨h1, h2⟩ := encodeDoc_lines E c (hg.imp fun f p h => h.safe hu).safe
  refine ⟨_, h1, ?_⟩
  have := tokenise_prints _ h2 []
  rw [List.append_nil] at this
  rw [this]
  refine ⟨rfl, ?_⟩
  have e : (tokenise []).lines = [] := rfl
  rw [e, List.append_nil]
  exact cal_all hu hg

/-! ## Every line of a document -/

theorem items_cases {k : List Line} {is : List Item} (h : Items k is) : ∀ l ∈ k, Begins l ∨ Ends l ∨ .line l ∈ is ∨ ∃ n b, .block n b ∈ is ∧ l ∈ b := by
  induction h with
  | nil => simp
  | line h1 h2 _ ih =>
    intro l hl
    rcases List.mem_cons.1 hl with rfl | hl
    · exact .inr (.inr (.inl (List.mem_cons_self ..)))
    · rcases ih l hl with h | h | h | ⟨n, b, h, h'⟩
      · exact .inl h
      · exact .inr (.inl h)
      · exact .inr (.inr (.inl (List.mem_cons_of_mem _ h)))
      · exact .inr (.inr (.inr ⟨n, b, List.mem_cons_of_mem _ h, h'⟩))
  | block hb he _ _ _ ih =>
    intro l hl
    rcases List.mem_append.1 hl with hl | hl
    · rcases List.mem_cons.1 hl with rfl | hl
      · exact .inl hb
      · exact .inr (.inr (.inr ⟨_, _, List.mem_cons_self .., hl⟩))
    · rcases List.mem_cons.1 hl with rfl | hl
      · exact .inr (.inl he)
      · rcases ih l hl with h | h | h | ⟨n, b, h, h'⟩
        · exact .inl h
        · exact .inr (.inl h)
        · exact .inr (.inr (.inl (List.mem_cons_of_mem _ h)))
        · exact .inr (.inr (.inr ⟨n, b, List.mem_cons_of_mem _ h, h'⟩))

theorem blocksNamed_of_mem {is : List Item} {n : Str} {b : List Line} (h : .block n b ∈ is) : b ∈ blocksNamed is n := by
  unfold blocksNamed
  exact List.mem_filterMap.2 ⟨_, h, if_pos rfl⟩

/-- The line is one of a component, BEGIN or END, or the ACTION of an alarm. -/
def LineFine (E : Env) (Uri : Str → Prop) (l : Line) : Prop := Begins l ∨ Ends l ∨ l.name = c!"ACTION" ∨ ∃ p, RfcLine E Uri p l

section Lines

variable {E : Env} {Uri : Str → Prop} {k : List Line} {is : List Item} {p : Part}

theorem body_lines (hi : Items k is) (h : RfcBody E Uri p is) (hb : ∀ n b, n ∈ inside p → b ∈ blocksNamed is n → ∀ l ∈ b, LineFine E Uri l) : ∀ l ∈ k, LineFine E Uri l := by
  intro l hl
  rcases items_cases hi l hl with h' | h' | h' | ⟨n, b, h', hl⟩
  · exact .inl h'
  · exact .inr (.inl h')
  · rcases h.1 _ h' with ⟨h, _⟩ | ⟨_, h⟩
    · exact .inr (.inr (.inl h))
    · exact .inr (.inr (.inr ⟨p, h⟩))
  · exact hb n b (h.1 _ h') (blocksNamed_of_mem h') l hl

theorem component_lines (h : ComponentAll (RfcBody E Uri) p k) : p ∈ [Part.event, .todo, .journal, .freeBusy, .timezone] → ∀ l ∈ k, LineFine E Uri l := by
  obtain ⟨is, hi, h1, h2⟩ := h
  intro hp
  refine body_lines hi h1 ?_
  intro n b hn hb
  simp only [List.mem_cons, List.not_mem_nil, or_false] at hp
  rcases hp with rfl | rfl | rfl | rfl | rfl
  · cases List.mem_singleton.1 hn
    obtain ⟨_, _, a, _, _, js, hj, h⟩ := h2 b hb
    exact body_lines hj h (fun _ _ h => by cases h)
  · cases List.mem_singleton.1 hn
    obtain ⟨_, _, a, _, _, js, hj, h⟩ := h2 b hb
    exact body_lines hj h (fun _ _ h => by cases h)
  · cases hn
  · cases hn
  · simp only [inside, List.mem_cons, List.not_mem_nil, or_false] at hn
    rcases hn with rfl | rfl
    · obtain ⟨js, hj, h⟩ := h2.1 b hb
      exact body_lines hj h (fun _ _ h => by cases h)
    · obtain ⟨js, hj, h⟩ := h2.2 b hb
      exact body_lines hj h (fun _ _ h => by cases h)

theorem document_lines {ls : List Line} (h : DocAll (RfcBody E Uri) ls) : ∀ l ∈ ls, LineFine E Uri l := by
  obtain ⟨b, k, e, is, rfl, hb, _, he, _, hi, h1, h2⟩ := h
  have hk : ∀ l ∈ k, LineFine E Uri l := by
    refine body_lines hi h1 ?_
    intro n j hn hj
    have : ∃ p ∈ [Part.event, .todo, .journal, .freeBusy, .timezone], p.block = n := by
      simp only [inside, List.mem_cons, List.not_mem_nil, or_false] at hn
      rcases hn with rfl | rfl | rfl | rfl | rfl <;> decide
    obtain ⟨p, hp, rfl⟩ := this
    exact component_lines (h2 p hp j hj) hp
  intro l hl
  rcases List.mem_append.1 hl with hl | hl
  · rcases List.mem_cons.1 hl with rfl | hl
    · exact .inl hb
    · exact hk l hl
  · cases List.mem_singleton.1 hl
    exact .inr (.inl he)

end Lines

end Ics
