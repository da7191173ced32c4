import Verif.SectionLemmas
/-!
# What `Encode` writes, as content lines, and what `Decode` makes of them
-/

namespace Ics

open Spec

/-! ## Concatenation of lines -/

/-- The outputs make up these content lines. -/
def CatsTo (os : List (Option Str)) (ls : List Line) : Prop := cat os = some (ls.flatMap printLine)

theorem cat_append (a b : List (Option Str)) : cat (a ++ b) = (do
    let x ← cat a
    let y ← cat b
    return x ++ y) := by
  induction a with
  | nil => simp [cat]
  | cons x a ih =>
    simp only [List.cons_append, cat, ih]
    cases x with
    | none => rfl
    | some x =>
      cases cat a with
      | none => rfl
      | some y => cases cat b with
        | none => rfl
        | some z => simp

theorem CatsTo.append {a b : List (Option Str)} {x y : List Line} (h1 : CatsTo a x) (h2 : CatsTo b y) : CatsTo (a ++ b) (x ++ y) := by
  unfold CatsTo at *
  rw [cat_append, h1, h2]
  simp

theorem CatsTo.nil : CatsTo [] [] := rfl

theorem CatsTo.single {o : Option Str} {x : List Line} (h : o = some (x.flatMap printLine)) : CatsTo [o] x := by
  unfold CatsTo
  rw [h]
  simp [cat]

theorem CatsTo.map {α : Type} (f : α → Option Str) (g : α → List Line) (l : List α)
    (h : ∀ x ∈ l, f x = some ((g x).flatMap printLine)) : CatsTo (l.map f) (l.flatMap g) := by
  induction l with
  | nil => exact .nil
  | cons x l ih =>
    simp only [List.map_cons, List.flatMap_cons]
    exact (CatsTo.single (h x List.mem_cons_self)).append (b := l.map f) (ih fun y hy => h y (List.mem_cons_of_mem _ hy))

/-- The line `name:value`. -/
def plainLine (name value : Str) : Line := ⟨name, [], value⟩

theorem lineOf_print (name value : Str) : lineOf name value = printLine (plainLine name value) := by
  simp [lineOf, printLine, printBare, plainLine, printParams, crlf]

theorem plainLine_ok {name value : Str} (h1 : nameOk name = true) (h2 : nameOk value = true) : LineOk (plainLine name value) := by
  obtain ⟨a1, a2, _⟩ := nameOk_iff.1 h1
  obtain ⟨_, b2, _⟩ := nameOk_iff.1 h2
  exact ⟨a1, fun c hc => (isIana_iff c).1 (a2 c hc), by simp [plainLine], by simp [plainLine], by simp [plainLine],
    fun c hc => (isIana_NoCtl (b2 c hc)).1⟩

/-! ## Fields and subsections -/

def FieldsAll (P : SField → PropVal → Prop) : List SField → List (List PropVal) → Prop
  | [], [] => True
  | f :: fs, v :: vs => (∀ x ∈ v, P f x) ∧ FieldsAll P fs vs
  | _, _ => False

/-- At most one property where more are not allowed. -/
def MultOk : List SField → List (List PropVal) → Prop
  | [], [] => True
  | f :: fs, v :: vs => (f.mult ≠ .many → v.length ≤ 1) ∧ MultOk fs vs
  | _, _ => False

def fieldLines (E : Env) : List SField → List (List PropVal) → List Line
  | f :: fs, v :: vs => v.map (toLine E f.spec) ++ fieldLines E fs vs
  | _, _ => []

/-- What comes back of a field: nothing, if it is written under another name than the one it is read under. -/
def normField (E : Env) (f : SField) (v : List PropVal) : List PropVal := if f.key = f.spec.name then v.map (PropVal.norm E f.spec) else []

def normFields (E : Env) : List SField → List (List PropVal) → List (List PropVal)
  | f :: fs, v :: vs => normField E f v :: normFields E fs vs
  | _, _ => []

variable {κ σ : Type}

def SubsAll (P : κ → σ → Prop) : List (Str × κ) → List (List σ) → Prop
  | [], [] => True
  | (_, k) :: ks, v :: vs => (∀ x ∈ v, P k x) ∧ SubsAll P ks vs
  | _, _ => False

/-- The lines of the subsections; `inner` gives the lines behind a BEGIN line. -/
def subsLines (inner : κ → σ → List Line) : List (Str × κ) → List (List σ) → List Line
  | (n, k) :: ks, v :: vs => v.flatMap (fun x => plainLine kBEGIN n :: inner k x) ++ subsLines inner ks vs
  | _, _ => []

def normSubs (nrm : κ → σ → σ) : List (Str × κ) → List (List σ) → List (List σ)
  | (_, k) :: ks, v :: vs => v.map (nrm k) :: normSubs nrm ks vs
  | _, _ => []

/-- The lines of a section behind its BEGIN line. -/
def Tab.inner (E : Env) (T : Tab κ) (inner : κ → σ → List Line) (s : Sect σ) : List Line :=
  fieldLines E T.fields s.fields ++ subsLines inner T.subs s.subs ++ [plainLine kEND T.name]

def Tab.norm (E : Env) (T : Tab κ) (nrm : κ → σ → σ) (s : Sect σ) : Sect σ :=
  ⟨normFields E T.fields s.fields, normSubs nrm T.subs s.subs⟩

/-- The names in a rule. -/
def Rule.names : Rule → List Str
  | .notBoth a b => [a, b]
  | .needs a b => [a, b]
  | .onlyOne a b => [a, b]
  | .anySub => []

/-- Names fit the Go type `uint8`. -/
def PKind.small : PKind → Bool
  | .enum names => names.length < 255
  | _ => true

/-- The enumerations of a property type fit `uint8`. -/
def PSpec.small (sp : PSpec) : Bool :=
  match sp.shape with
  | .enum names => names.length < 256
  | .fields params _ => params.all fun d => d.kind.small

/-- A sane table. -/
def Tab.wf (T : Tab κ) : Bool :=
  T.fields.all (fun f => f.key == f.spec.name || (!decide (f.spec.name ∈ T.fields.map (·.key)) && f.mult != .req)) &&
  T.rules.all (fun r => r.names.all fun n => T.fields.all fun f => f.key != n || f.key == f.spec.name) &&
  nameOk T.name && decide (T.fields.map (·.key)).Nodup && decide (T.subs.map (·.1)).Nodup && T.subs.all (fun x => nameOk x.1) &&
    T.fields.all (fun f => f.spec.wf && nameOk f.key && !decide (f.key ∈ [kBEGIN, kEND, kACTION]) &&
      !decide (f.spec.name ∈ [kBEGIN, kEND, kACTION]) && f.spec.small)

structure FieldWf (f : SField) : Prop where
  spec : f.spec.wf = true
  key : nameOk f.key = true
  notCtl : f.key ≠ kBEGIN ∧ f.key ≠ kEND ∧ f.key ≠ kACTION
  notCtl2 : f.spec.name ≠ kBEGIN ∧ f.spec.name ≠ kEND ∧ f.spec.name ≠ kACTION
  small : f.spec.small = true

structure Tab.Wf (T : Tab κ) : Prop where
  name : nameOk T.name = true
  keys : (T.fields.map (·.key)).Nodup
  subs : (T.subs.map (·.1)).Nodup
  subNames : ∀ x ∈ T.subs, nameOk x.1 = true
  field : ∀ f ∈ T.fields, FieldWf f
  names : ∀ f ∈ T.fields, f.key ≠ f.spec.name → f.spec.name ∉ T.fields.map (·.key) ∧ f.mult ≠ .req
  ruleNames : ∀ r ∈ T.rules, ∀ n ∈ r.names, ∀ f ∈ T.fields, f.key = n → f.key = f.spec.name

theorem Tab.wf_iff {T : Tab κ} (h : T.wf = true) : T.Wf := by
  unfold Tab.wf at h
  simp only [Bool.and_eq_true, List.all_eq_true, decide_eq_true_eq, Bool.not_eq_true', decide_eq_false_iff_not, Bool.or_eq_true,
    beq_iff_eq, bne_iff_ne] at h
  obtain ⟨⟨⟨⟨⟨⟨h6, h7⟩, h1⟩, h2⟩, h3⟩, h4⟩, h5⟩ := h
  refine ⟨h1, h2, h3, h4, ?_, ?_, ?_⟩
  · intro f hf
    obtain ⟨⟨⟨⟨a, b⟩, c⟩, d⟩, e⟩ := h5 f hf
    simp only [List.mem_cons, List.not_mem_nil, or_false, not_or] at c d
    exact ⟨a, b, c, d, e⟩
  · intro f hf hn
    rcases h6 f hf with h | h
    · exact absurd h hn
    · exact h
  · intro r hr n hn f hf e
    rcases h7 r hr n hn f hf with h | h
    · exact absurd e h
    · exact h

theorem encFields_lines (E : Env) : ∀ (fs : List SField) (vs : List (List PropVal)), (∀ f ∈ fs, FieldWf f) →
    FieldsAll (fun f => PropSafe E f.spec) fs vs →
    CatsTo (encFields E fs vs) (fieldLines E fs vs) ∧ ∀ l ∈ fieldLines E fs vs, LineOk l ∧ ∃ f ∈ fs, l.name = f.spec.name := by
  intro fs
  induction fs with
  | nil =>
    intro vs _ h
    cases vs with
    | nil => exact ⟨.nil, by simp [fieldLines]⟩
    | cons => exact absurd h id
  | cons f fs ih =>
    intro vs hw h
    cases vs with
    | nil => exact absurd h id
    | cons v vs =>
      obtain ⟨h1, h2⟩ := h
      obtain ⟨r1, r2⟩ := ih vs (fun g hg => hw g (List.mem_cons_of_mem _ hg)) h2
      have hwf := hw f List.mem_cons_self
      simp only [encFields, fieldLines]
      constructor
      · apply CatsTo.append _ r1
        have : v.map (toLine E f.spec) = v.flatMap (fun x => [toLine E f.spec x]) := by
          clear h1
          induction v with
          | nil => rfl
          | cons x v ihv => simp only [List.map_cons, List.flatMap_cons, ihv, List.singleton_append]
        rw [this]
        apply CatsTo.map
        intro x hx
        rw [(PSpec.encode_line E f.spec x hwf.spec (h1 x hx)).1]
        simp
      · intro l hl
        rcases List.mem_append.1 hl with hl | hl
        · obtain ⟨x, hx, rfl⟩ := List.mem_map.1 hl
          obtain ⟨_, e2, e3⟩ := PSpec.encode_line E f.spec x hwf.spec (h1 x hx)
          exact ⟨e2, f, List.mem_cons_self, e3⟩
        · obtain ⟨e1, g, hg, e2⟩ := r2 l hl
          exact ⟨e1, g, List.mem_cons_of_mem _ hg, e2⟩

theorem encSubs_lines (enc : κ → σ → Option Str) (inner : κ → σ → List Line) (P : κ → σ → Prop) :
    ∀ (ks : List (Str × κ)) (vs : List (List σ)), (∀ x ∈ ks, nameOk x.1 = true) →
      (∀ x ∈ ks, ∀ s, P x.2 s → enc x.2 s = some ((plainLine kBEGIN x.1 :: inner x.2 s).flatMap printLine) ∧ ∀ l ∈ inner x.2 s, LineOk l) →
      SubsAll P ks vs →
      CatsTo (encSubs enc ks vs) (subsLines inner ks vs) ∧ ∀ l ∈ subsLines inner ks vs, LineOk l := by
  intro ks
  induction ks with
  | nil =>
    intro vs _ _ h
    cases vs with
    | nil => exact ⟨.nil, by simp [subsLines]⟩
    | cons => exact absurd h id
  | cons k ks ih =>
    obtain ⟨n, k⟩ := k
    intro vs hn he h
    cases vs with
    | nil => exact absurd h id
    | cons v vs =>
      obtain ⟨h1, h2⟩ := h
      obtain ⟨r1, r2⟩ := ih vs (fun g hg => hn g (List.mem_cons_of_mem _ hg)) (fun g hg => he g (List.mem_cons_of_mem _ hg)) h2
      have hek := he (n, k) List.mem_cons_self
      simp only [encSubs, subsLines]
      constructor
      · apply CatsTo.append _ r1
        apply CatsTo.map
        intro x hx
        exact (hek x (h1 x hx)).1
      · intro l hl
        rcases List.mem_append.1 hl with hl | hl
        · obtain ⟨x, hx, hl⟩ := List.mem_flatMap.1 hl
          rcases List.mem_cons.1 hl with rfl | hl
          · exact plainLine_ok (by decide) (hn (n, k) List.mem_cons_self)
          · exact (hek x (h1 x hx)).2 l hl
        · exact r2 l hl

/-- A section all of whose parts are safe is written as its lines. -/
theorem Tab.encode_lines (E : Env) (T : Tab κ) (hw : T.Wf) (enc : κ → σ → Option Str) (inner : κ → σ → List Line) (P : κ → σ → Prop)
    (he : ∀ x ∈ T.subs, ∀ s, P x.2 s → enc x.2 s = some ((plainLine kBEGIN x.1 :: inner x.2 s).flatMap printLine) ∧ ∀ l ∈ inner x.2 s, LineOk l)
    (s : Sect σ) (hf : FieldsAll (fun f => PropSafe E f.spec) T.fields s.fields) (hs : SubsAll P T.subs s.subs) :
    T.encode E enc s = some ((plainLine kBEGIN T.name :: T.inner E inner s).flatMap printLine) ∧ ∀ l ∈ T.inner E inner s, LineOk l := by
  obtain ⟨f1, f2⟩ := encFields_lines E T.fields s.fields hw.field hf
  obtain ⟨s1, s2⟩ := encSubs_lines enc inner P T.subs s.subs hw.subNames he hs
  constructor
  · have hb : CatsTo [some (lineOf kBEGIN T.name)] [plainLine kBEGIN T.name] := CatsTo.single (by rw [lineOf_print]; simp)
    have hend : CatsTo [some (lineOf kEND T.name)] [plainLine kEND T.name] := CatsTo.single (by rw [lineOf_print]; simp)
    exact (hb.append (f1.append s1)).append hend
  · intro l hl
    unfold Tab.inner at hl
    rw [List.mem_append, List.mem_append] at hl
    rcases hl with (hl | hl) | hl
    · exact (f2 l hl).1
    · exact s2 l hl
    · rw [List.mem_singleton] at hl
      subst hl
      exact plainLine_ok (by decide) hw.name

/-! ## Reading the lines -/

theorem fieldIdx_append (n : Str) (pre : List SField) (d : SField) (ds : List SField) (hp : n ∉ pre.map (·.key)) (hd : n = d.key) :
    fieldIdx n (pre ++ d :: ds) = some pre.length := by
  induction pre with
  | nil => simp [fieldIdx, hd]
  | cons p pre ih =>
    simp only [List.map_cons, List.mem_cons, not_or] at hp
    simp only [List.cons_append, fieldIdx, if_neg hp.1, ih hp.2, Option.map_some, List.length_cons]

/-- Properties that come back. -/
def FieldOk (E : Env) (f : SField) (x : PropVal) : Prop := PropOk E f.spec x

theorem FieldsAll.imp {P Q : SField → PropVal → Prop} : ∀ {fs : List SField} {vs : List (List PropVal)}, (∀ f x, P f x → Q f x) →
    FieldsAll P fs vs → FieldsAll Q fs vs := by
  intro fs
  induction fs with
  | nil => intro vs _ h; cases vs <;> exact h
  | cons f fs ih =>
    intro vs hi h
    cases vs with
    | nil => exact h
    | cons v vs => exact ⟨fun x hx => hi f x (h.1 x hx), ih hi h.2⟩

theorem modify_append {α : Type} (a : List α) (x : α) (b : List α) (f : α → α) : (a ++ x :: b).modify a.length f = a ++ f x :: b := by
  induction a with
  | nil => rfl
  | cons y a ih => simp only [List.cons_append, List.length_cons, List.modify_succ_cons, ih]

/-- Reading the lines of the fields from number `pre.length` on. -/
theorem fieldLines_run (E : Env) (T : Tab κ) (hw : T.Wf) (sub : κ → List Line → Res (σ × List Line)) (hs : Suffix sub) (t : Term)
    (r : List Line) (subs : List (List σ)) : ∀ (fs pre : List SField) (vs done : List (List PropVal)), T.fields = pre ++ fs →
      done.length = pre.length → FieldsAll (FieldOk E) fs vs → MultOk fs vs →
      Sect.run E T sub t ⟨done ++ fs.map (fun _ => []), subs⟩ (fieldLines E fs vs ++ r) =
        Sect.run E T sub t ⟨done ++ normFields E fs vs, subs⟩ r := by
  intro fs
  induction fs with
  | nil =>
    intro pre vs done _ _ h _
    cases vs with
    | nil => rfl
    | cons => exact absurd h id
  | cons f fs ih =>
    intro pre vs done hp hl h hm
    cases vs with
    | nil => exact absurd h id
    | cons v vs =>
      obtain ⟨h1, h2⟩ := h
      obtain ⟨m1, m2⟩ := hm
      have hff : f ∈ T.fields := by rw [hp]; simp
      have hwf := hw.field f hff
      have hpre : f.key ∉ pre.map (·.key) := by
        intro hm
        have := hw.keys
        rw [hp, List.map_append, List.nodup_append] at this
        exact this.2.2 _ hm f.key (by simp) rfl
      have key : f.key = f.spec.name → ∀ (w : List PropVal) (acc : List PropVal), (∀ x ∈ w, FieldOk E f x) → (f.mult ≠ .many → acc.length + w.length ≤ 1) →
          ∀ ls, Sect.run E T sub t ⟨done ++ acc :: fs.map (fun _ => []), subs⟩ (w.map (toLine E f.spec) ++ ls) =
            Sect.run E T sub t ⟨done ++ (acc ++ w.map (PropVal.norm E f.spec)) :: fs.map (fun _ => []), subs⟩ ls := by
        intro hkey w
        induction w with
        | nil => intro acc _ _ ls; simp
        | cons x w ihw =>
          intro acc hx hml ls
          have hok := hx x List.mem_cons_self
          obtain ⟨_, _, e3⟩ := PSpec.encode_line E f.spec x hwf.spec hok.safe
          have hd := PSpec.decode_line E f.spec x hwf.spec hok
          have hun : upper (toLine E f.spec x).name = f.key := by
            rw [e3, ← hkey]
            exact (nameOk_iff.1 hwf.key).2.2
          have hk : T.kindOf (toLine E f.spec x) = .prop pre.length f := by
            unfold Tab.kindOf
            rw [hun, if_neg hwf.notCtl.1, hp, fieldIdx_append f.key pre f fs hpre rfl]
            simp
          simp only [List.map_cons, List.cons_append]
          rw [Sect.run_cons hs, hk]
          have hadd : Sect.addProp E ⟨done ++ acc :: fs.map (fun _ => []), subs⟩ pre.length f (toLine E f.spec x) =
              .ok ⟨done ++ (acc ++ [x.norm E f.spec]) :: fs.map (fun _ => []), subs⟩ := by
            unfold Sect.addProp
            have hg : (done ++ acc :: fs.map (fun _ => [])).getD pre.length [] = acc := by
              rw [← hl]; simp
            rw [if_neg (by
              rintro ⟨q1, q2⟩
              have := hml q1
              simp only [hg] at q2
              cases acc with
              | nil => exact q2 rfl
              | cons => simp at this; omega), hd]
            simp only [Res.ok_bind, Res.pure_eq, ← hl, modify_append]
          simp only [hadd, Res.ok_bind]
          rw [ihw (acc ++ [x.norm E f.spec]) (fun y hy => hx y (List.mem_cons_of_mem _ hy)) (fun q => by
            have := hml q
            simp only [List.length_append, List.length_cons, List.length_nil] at this ⊢
            omega)]
          simp
      have drop : f.key ≠ f.spec.name → ∀ (w : List PropVal), (∀ x ∈ w, FieldOk E f x) → ∀ s ls,
          Sect.run E T sub t s (w.map (toLine E f.spec) ++ ls) = Sect.run E T sub t s ls := by
        intro hkey w
        induction w with
        | nil => intro _ s ls; rfl
        | cons x w ihw =>
          intro hx s ls
          obtain ⟨_, _, e3⟩ := PSpec.encode_line E f.spec x hwf.spec (PropOk.safe (hx x List.mem_cons_self))
          have hk : T.kindOf (toLine E f.spec x) = .other := by
            have hu : upper f.spec.name = f.spec.name := by
              have := hwf.spec
              unfold PSpec.wf at this
              rw [Bool.and_eq_true] at this
              exact (nameOk_iff.1 this.1).2.2
            have hn := fieldIdx_none.2 (hw.names f hff hkey).1
            unfold Tab.kindOf
            rw [e3, hu, if_neg hwf.notCtl2.1, hn]
            simp only [if_neg hwf.notCtl2.2.1]
          simp only [List.map_cons, List.cons_append]
          rw [Sect.run_cons hs, hk]
          exact ihw (fun y hy => hx y (List.mem_cons_of_mem _ hy)) s ls
      simp only [fieldLines, List.map_cons, List.append_assoc]
      by_cases hkey : f.key = f.spec.name
      · rw [key hkey v [] h1 (fun q => by simpa using m1 q)]
        have := ih (pre ++ [f]) vs (done ++ [v.map (PropVal.norm E f.spec)]) (by rw [hp]; simp) (by simp [hl]) h2 m2
        simpa [normFields, normField, hkey] using this
      · rw [drop hkey v h1]
        have := ih (pre ++ [f]) vs (done ++ [[]]) (by rw [hp]; simp) (by simp [hl]) h2 m2
        simpa [normFields, normField, hkey] using this

/-- Reading the subsections from kind `pre.length` on. -/
theorem subsLines_run (E : Env) (T : Tab κ) (hw : T.Wf) (sub : κ → List Line → Res (σ × List Line)) (hs : Suffix sub) (t : Term)
    (r : List Line) (fields : List (List PropVal)) (inner : κ → σ → List Line) (nrm : κ → σ → σ) (P : κ → σ → Prop)
    (hd : ∀ x ∈ T.subs, ∀ s, P x.2 s → ∀ r, sub x.2 (inner x.2 s ++ r) = .ok (nrm x.2 s, r)) :
    ∀ (ks pre : List (Str × κ)) (vs done : List (List σ)), T.subs = pre ++ ks → done.length = pre.length → SubsAll P ks vs →
      Sect.run E T sub t ⟨fields, done ++ ks.map (fun _ => [])⟩ (subsLines inner ks vs ++ r) =
        Sect.run E T sub t ⟨fields, done ++ normSubs nrm ks vs⟩ r := by
  intro ks
  induction ks with
  | nil =>
    intro pre vs done _ _ h
    cases vs with
    | nil => rfl
    | cons => exact absurd h id
  | cons k ks ih =>
    obtain ⟨n, k⟩ := k
    intro pre vs done hp hl h
    cases vs with
    | nil => exact absurd h id
    | cons v vs =>
      obtain ⟨h1, h2⟩ := h
      have hkk : (n, k) ∈ T.subs := by rw [hp]; simp
      have hk : T.kindOf (plainLine kBEGIN n) = .sub pre.length k := by
        unfold Tab.kindOf
        have hg : (T.subs.map (·.1))[pre.length]? = some n := by rw [hp]; simp
        have hu : upper n = n := (nameOk_iff.1 (hw.subNames _ hkk)).2.2
        have hb : upper kBEGIN = kBEGIN := by decide
        simp only [plainLine, hb, if_true, hu, indexOf_get _ _ _ hw.subs hg]
        rw [hp]
        simp
      have key : ∀ (w : List σ) (acc : List σ), (∀ x ∈ w, P k x) → ∀ ls,
          Sect.run E T sub t ⟨fields, done ++ acc :: ks.map (fun _ => [])⟩ (w.flatMap (fun x => plainLine kBEGIN n :: inner k x) ++ ls) =
            Sect.run E T sub t ⟨fields, done ++ (acc ++ w.map (nrm k)) :: ks.map (fun _ => [])⟩ ls := by
        intro w
        induction w with
        | nil => intro acc _ ls; simp
        | cons x w ihw =>
          intro acc hx ls
          simp only [List.flatMap_cons, List.cons_append, List.append_assoc]
          rw [Sect.run_cons hs, hk]
          simp only [hd (n, k) hkk x (hx x List.mem_cons_self), Res.ok_bind]
          have : Sect.addSub ⟨fields, done ++ acc :: ks.map (fun _ => [])⟩ pre.length (nrm k x) =
              ⟨fields, done ++ (acc ++ [nrm k x]) :: ks.map (fun _ => [])⟩ := by
            unfold Sect.addSub
            simp only [← hl, modify_append]
          rw [this, ihw (acc ++ [nrm k x]) (fun y hy => hx y (List.mem_cons_of_mem _ hy))]
          simp
      simp only [subsLines, List.map_cons, List.append_assoc]
      rw [key v [] h1]
      have := ih (pre ++ [(n, k)]) vs (done ++ [v.map (nrm k)]) (by rw [hp]; simp) (by simp [hl]) h2
      simpa [normSubs] using this

theorem normSubs_empty (nrm : κ → σ → σ) : ∀ (ks : List (Str × κ)) (vs : List (List σ)) (P : κ → σ → Prop), SubsAll P ks vs →
    (normSubs nrm ks vs).map List.isEmpty = vs.map List.isEmpty := by
  intro ks
  induction ks with
  | nil => intro vs P h; cases vs <;> first | rfl | exact absurd h id
  | cons f fs ih =>
    intro vs P h
    cases vs with
    | nil => exact absurd h id
    | cons v vs => simp [normSubs, ih vs P h.2]

theorem reqMet_norm (E : Env) : ∀ (fs : List SField) (vs : List (List PropVal)), (∀ f ∈ fs, f.key ≠ f.spec.name → f.mult ≠ .req) →
    reqMet fs (normFields E fs vs) = reqMet fs vs := by
  intro fs
  induction fs with
  | nil => intro vs _; cases vs <;> rfl
  | cons f fs ih =>
    intro vs h
    cases vs with
    | nil => rfl
    | cons v vs =>
      simp only [normFields, reqMet, ih vs (fun g hg => h g (List.mem_cons_of_mem _ hg))]
      congr 1
      unfold normField
      by_cases hk : f.key = f.spec.name
      · rw [if_pos hk]
        cases v <;> rfl
      · have := h f List.mem_cons_self hk
        cases hm : f.mult
        · exact absurd hm this
        · rfl
        · rfl

theorem normFields_getD (E : Env) : ∀ (fs : List SField) (vs : List (List PropVal)) (i : Nat) (f : SField), fs[i]? = some f →
    f.key = f.spec.name → fs.length = vs.length → (normFields E fs vs).getD i [] = (vs.getD i []).map (PropVal.norm E f.spec) := by
  intro fs
  induction fs with
  | nil => intro vs i f h; simp at h
  | cons g fs ih =>
    intro vs i f h hk hl
    cases vs with
    | nil => simp at hl
    | cons v vs =>
      cases i with
      | zero =>
        simp only [List.getElem?_cons_zero, Option.some.injEq] at h
        subst h
        simp [normFields, normField, hk]
      | succ i =>
        simp only [List.getElem?_cons_succ] at h
        simp only [normFields, List.getD_cons_succ]
        exact ih vs i f h hk (by simpa using hl)

theorem FieldsAll.len {P : SField → PropVal → Prop} : ∀ {fs : List SField} {vs : List (List PropVal)}, FieldsAll P fs vs →
    fs.length = vs.length := by
  intro fs
  induction fs with
  | nil => intro vs h; cases vs <;> first | rfl | exact absurd h id
  | cons f fs ih =>
    intro vs h
    cases vs with
    | nil => exact absurd h id
    | cons v vs => simpa using ih h.2

/-- What the checks behind the loop look at comes back. -/
theorem Tab.finish_norm (E : Env) (T : Tab κ) (hw : T.Wf) (nrm : κ → σ → σ) (P : κ → σ → Prop) (s : Sect σ)
    (hl : T.fields.length = s.fields.length) (hs : SubsAll P T.subs s.subs) : T.finish (T.norm E nrm s) = T.finish s := by
  unfold Tab.finish Tab.norm
  simp only
  rw [reqMet_norm E _ _ fun f hf hk => (hw.names f hf hk).2]
  congr 1
  funext _
  congr 1
  have hh : ∀ r ∈ T.rules, ∀ n ∈ r.names, hasField T ⟨normFields E T.fields s.fields, normSubs nrm T.subs s.subs⟩ n = hasField T s n := by
    intro r hr n hn
    unfold hasField
    split
    · next i hi =>
      obtain ⟨d, hd, hk⟩ := fieldIdx_some hi
      have hm : d ∈ T.fields := List.mem_of_getElem? hd
      simp only [normFields_getD E T.fields s.fields i d hd (hw.ruleNames r hr n hn d hm hk) hl]
      cases s.fields.getD i [] <;> rfl
    · rfl
  apply Bool.eq_iff_iff.2
  simp only [List.all_eq_true]
  have key : ∀ r ∈ T.rules, Rule.met T ⟨normFields E T.fields s.fields, normSubs nrm T.subs s.subs⟩ r = Rule.met T s r := by
    intro r hr
    have h := hh r hr
    cases r with
    | anySub =>
      simp only [Rule.met]
      have e : ∀ {α : Type} (l : List (List α)), l.any (fun x => !x.isEmpty) = (l.map List.isEmpty).any (fun x => !x) := by
        intro α l; rw [List.any_map]; rfl
      rw [e, e, normSubs_empty nrm _ _ P hs]
    | _ => simp only [Rule.met, h _ (List.mem_cons_self), h _ (List.mem_cons_of_mem _ List.mem_cons_self)]
  constructor
  · intro h r hr; rw [← key r hr]; exact h r hr
  · intro h r hr; rw [key r hr]; exact h r hr

/-- The lines of a good section are decoded to it. -/
theorem Tab.decode_lines (E : Env) (T : Tab κ) (hw : T.Wf) (sub : κ → List Line → Res (σ × List Line)) (hs : Suffix sub) (t : Term)
    (inner : κ → σ → List Line) (nrm : κ → σ → σ) (P : κ → σ → Prop)
    (hd : ∀ x ∈ T.subs, ∀ s, P x.2 s → ∀ r, sub x.2 (inner x.2 s ++ r) = .ok (nrm x.2 s, r))
    (s : Sect σ) (hf : FieldsAll (FieldOk E) T.fields s.fields) (hm : MultOk T.fields s.fields) (hsub : SubsAll P T.subs s.subs)
    (hfin : T.finish s = .ok ()) (r : List Line) : T.decode E sub t (T.inner E inner s ++ r) = .ok (T.norm E nrm s, r) := by
  rw [Tab.decode_ok]
  constructor
  · unfold Tab.inner Tab.start
    rw [List.append_assoc, List.append_assoc]
    have h1 := fieldLines_run E T hw sub hs t (subsLines inner T.subs s.subs ++ ([plainLine kEND T.name] ++ r))
      (T.subs.map fun _ => []) T.fields [] s.fields [] rfl rfl hf hm
    simp only [List.nil_append] at h1
    rw [h1]
    have h2 := subsLines_run E T hw sub hs t ([plainLine kEND T.name] ++ r) (normFields E T.fields s.fields) inner nrm P hd T.subs [] s.subs []
      rfl rfl hsub
    simp only [List.nil_append] at h2
    rw [h2, List.singleton_append, Sect.run_cons hs]
    have hk : T.kindOf (plainLine kEND T.name) = .fin := by
      unfold Tab.kindOf
      have hu : upper kEND = kEND := by decide
      have hn : fieldIdx kEND T.fields = none := by
        rw [fieldIdx_none]
        intro hm
        obtain ⟨f, hf, hk⟩ := List.mem_map.1 hm
        exact (hw.field f hf).notCtl.2.1 hk
      simp only [plainLine, hu, hn, if_neg (by decide : ¬ kEND = kBEGIN), if_true]
    rw [hk]
    simp only [plainLine, if_true]
    rfl
  · rw [← hfin]
    exact Tab.finish_norm E T hw nrm P s hf.len hsub

end Ics
