import Verif.EncodeLemmas
/-!
# Whole calendars: the lines of `Encode`, and `Decode` on them
-/

namespace Ics

open Spec

/-! ## The tables -/

/-- All tables without subsections but those of alarms. -/
def leafTabs : List (Tab Empty) := [tabStandard, tabDaylight]

def compTabs : List (Tab SubKind) := tabCalendar.subs.map (·.2)

theorem aTab_wf (k : AKind) : k.tab.Wf := by
  apply Tab.wf_iff
  cases k <;> decide

theorem aTab_name (k : AKind) : k.tab.name = kVALARM ∧ k.tab.subs = [] := by cases k <;> exact ⟨by decide, rfl⟩

theorem calTab_wf : tabCalendar.Wf := Tab.wf_iff (by decide)

/-- The table of a subsection is sane, and called by its name. -/
def SubKind.Good (x : Str × SubKind) : Prop :=
  match x.2 with
  | .alarm => x.1 = kVALARM
  | .leaf T => T.Wf ∧ T.name = x.1 ∧ T.subs = []

theorem compTab_good : ∀ x ∈ tabCalendar.subs, x.2.Wf ∧ x.2.name = x.1 ∧ ∀ y ∈ x.2.subs, SubKind.Good y := by
  intro x hx
  simp only [tabCalendar, List.mem_cons, List.not_mem_nil, or_false] at hx
  rcases hx with rfl | rfl | rfl | rfl | rfl <;> refine ⟨Tab.wf_iff (by decide), by decide, ?_⟩ <;> intro y hy
  all_goals
    simp only [tabEvent, tabTodo, tabJournal, tabFreeBusy, tabTimezone, List.mem_cons, List.not_mem_nil, or_false] at hy
  · subst hy; exact rfl
  · subst hy; exact rfl
  · rcases hy with rfl | rfl
    · exact ⟨Tab.wf_iff (by decide), by decide, rfl⟩
    · exact ⟨Tab.wf_iff (by decide), by decide, rfl⟩

/-! ## Lines -/

def noInner (k : Empty) (_ : Empty) : List Line := nomatch k
def noNrm (k : Empty) (_ : Empty) : Empty := nomatch k
def noP (k : Empty) (_ : Empty) : Prop := nomatch k

def alarmInner (E : Env) (k : AKind) (s : Leaf) : List Line :=
  plainLine kACTION k.action :: k.tab.inner E noInner s

/-- The lines of a subsection behind its BEGIN line. -/
def subInner (E : Env) (k : SubKind) (s : Sub) : List Line :=
  match k, s with
  | .alarm, .alarm (some (a, s)) => alarmInner E a s
  | .leaf T, .leaf s => T.inner E noInner s
  | _, _ => []

def compInner (E : Env) (T : Tab SubKind) (s : Comp) : List Line := T.inner E (subInner E) s

/-- All lines of a calendar. -/
def calLines (E : Env) (c : Cal) : List Line := plainLine kBEGIN tabCalendar.name :: tabCalendar.inner E (compInner E) c

def subNorm (E : Env) (k : SubKind) (s : Sub) : Sub :=
  match k, s with
  | .alarm, .alarm (some (a, s)) => .alarm (some (a, a.tab.norm E noNrm s))
  | .leaf T, .leaf s => .leaf (T.norm E noNrm s)
  | _, s => s

def Cal.norm (E : Env) (c : Cal) : Cal := tabCalendar.norm E (fun T s => T.norm E (subNorm E) s) c

/-! ## Encoding -/

def SubSafe (E : Env) (k : SubKind) (s : Sub) : Prop :=
  match k, s with
  | .alarm, .alarm (some (a, s)) => FieldsAll (fun f => PropSafe E f.spec) a.tab.fields s.fields ∧ SubsAll noP a.tab.subs s.subs
  | .leaf T, .leaf s => FieldsAll (fun f => PropSafe E f.spec) T.fields s.fields ∧ SubsAll noP T.subs s.subs
  | _, _ => False

def CompSafe (E : Env) (T : Tab SubKind) (s : Comp) : Prop :=
  FieldsAll (fun f => PropSafe E f.spec) T.fields s.fields ∧ SubsAll (SubSafe E) T.subs s.subs

/-- Every property of the calendar is written as one well formed line. -/
def CalSafe (E : Env) (c : Cal) : Prop :=
  FieldsAll (fun f => PropSafe E f.spec) tabCalendar.fields c.fields ∧ SubsAll (CompSafe E) tabCalendar.subs c.subs

theorem subEncode_lines (E : Env) (x : Str × SubKind) (hg : SubKind.Good x) (s : Sub) (h : SubSafe E x.2 s) :
    subEncode E x.2 s = some ((plainLine kBEGIN x.1 :: subInner E x.2 s).flatMap printLine) ∧ ∀ l ∈ subInner E x.2 s, LineOk l := by
  obtain ⟨n, k⟩ := x
  cases k with
  | leaf T =>
    cases s with
    | alarm a => exact absurd h id
    | leaf s =>
      obtain ⟨hw, hn, hsub⟩ := hg
      obtain ⟨h1, h2⟩ := h
      have := Tab.encode_lines E T hw noEnc noInner noP (by rw [hsub]; simp) s h1 h2
      simp only at hn
      subst hn
      exact this
  | alarm =>
    cases s with
    | leaf s => exact absurd h id
    | alarm a =>
      cases a with
      | none => exact absurd h id
      | some a =>
        obtain ⟨k, s⟩ := a
        obtain ⟨h1, h2⟩ := h
        have hw := aTab_wf k
        obtain ⟨hn, hsub⟩ := aTab_name k
        simp only [SubKind.Good] at hg
        subst hg
        have hlines := Tab.encode_lines E k.tab hw noEnc noInner noP (by rw [hsub]; simp) s h1 h2
        obtain ⟨f1, f2⟩ := encFields_lines E k.tab.fields s.fields hw.field h1
        obtain ⟨s1, s2⟩ := encSubs_lines noEnc noInner noP k.tab.subs s.subs hw.subNames (by rw [hsub]; simp) h2
        refine ⟨?_, ?_⟩
        · have hb : CatsTo [some (lineOf kBEGIN kVALARM)] [plainLine kBEGIN kVALARM] := CatsTo.single (by rw [lineOf_print]; simp)
          have ha : CatsTo [some (lineOf kACTION k.action)] [plainLine kACTION k.action] := CatsTo.single (by rw [lineOf_print]; simp)
          have hend : CatsTo [some (lineOf kEND kVALARM)] [plainLine kEND kVALARM] := CatsTo.single (by rw [lineOf_print]; simp)
          have := ((hb.append ha).append (f1.append s1)).append hend
          simp only [subEncode, alarmEncode, subInner, alarmInner, Tab.inner, hn]
          exact this
        · intro l hl
          rcases List.mem_cons.1 hl with rfl | hl
          · exact plainLine_ok (by decide) (by cases k <;> decide)
          · exact hlines.2 l hl

theorem compEncode_lines (E : Env) (x : Str × Tab SubKind) (hx : x ∈ tabCalendar.subs) (s : Comp) (h : CompSafe E x.2 s) :
    x.2.encode E (subEncode E) s = some ((plainLine kBEGIN x.1 :: compInner E x.2 s).flatMap printLine) ∧
      ∀ l ∈ compInner E x.2 s, LineOk l := by
  obtain ⟨hw, hn, hg⟩ := compTab_good x hx
  have := Tab.encode_lines E x.2 hw (subEncode E) (subInner E) (SubSafe E) (fun y hy s hs => subEncode_lines E y (hg y hy) s hs) s h.1 h.2
  rw [hn] at this
  exact this

/-- A safe calendar is written as its lines, all well formed. -/
theorem encodeDoc_lines (E : Env) (c : Cal) (h : CalSafe E c) :
    encodeDoc E c = some ((calLines E c).flatMap printLine) ∧ ∀ l ∈ calLines E c, LineOk l := by
  have := Tab.encode_lines E tabCalendar calTab_wf (fun T s => T.encode E (subEncode E) s) (compInner E) (CompSafe E)
    (fun y hy s hs => compEncode_lines E y hy s hs) c h.1 h.2
  refine ⟨this.1, ?_⟩
  intro l hl
  rcases List.mem_cons.1 hl with rfl | hl
  · exact plainLine_ok (by decide) (by decide)
  · exact this.2 l hl

/-! ## Decoding -/

def LeafOk (E : Env) (T : Tab Empty) (s : Leaf) : Prop :=
  FieldsAll (FieldOk E) T.fields s.fields ∧ MultOk T.fields s.fields ∧ SubsAll noP T.subs s.subs ∧ T.finish s = .ok ()

def SubOk (E : Env) (k : SubKind) (s : Sub) : Prop :=
  match k, s with
  | .alarm, .alarm (some (a, s)) => LeafOk E a.tab s
  | .leaf T, .leaf s => LeafOk E T s
  | _, _ => False

def CompOk (E : Env) (T : Tab SubKind) (s : Comp) : Prop :=
  FieldsAll (FieldOk E) T.fields s.fields ∧ MultOk T.fields s.fields ∧ SubsAll (SubOk E) T.subs s.subs ∧ T.finish s = .ok ()

/-- The calendar is read back from what is written. -/
def CalOk (E : Env) (c : Cal) : Prop :=
  FieldsAll (FieldOk E) tabCalendar.fields c.fields ∧ MultOk tabCalendar.fields c.fields ∧ SubsAll (CompOk E) tabCalendar.subs c.subs ∧
    tabCalendar.finish c = .ok ()

theorem SubsAll.imp {κ σ : Type} {P Q : κ → σ → Prop} : ∀ {ks : List (Str × κ)} {vs : List (List σ)}, (∀ k x, P k x → Q k x) →
    SubsAll P ks vs → SubsAll Q ks vs := by
  intro fs
  induction fs with
  | nil => intro vs _ h; cases vs <;> exact h
  | cons f fs ih =>
    intro vs hi h
    cases vs with
    | nil => exact h
    | cons v vs => exact ⟨fun x hx => hi f.2 x (h.1 x hx), ih hi h.2⟩

theorem FieldOk.safe {E : Env} {f : SField} {x : PropVal} (h : FieldOk E f x) : PropSafe E f.spec x := PropOk.safe h

theorem SubOk.safe {E : Env} {k : SubKind} {s : Sub} (h : SubOk E k s) : SubSafe E k s := by
  cases k with
  | leaf T =>
    cases s with
    | alarm a => exact absurd h id
    | leaf s => exact ⟨FieldsAll.imp (fun _ _ => FieldOk.safe) h.1, h.2.2.1⟩
  | alarm =>
    cases s with
    | leaf s => exact absurd h id
    | alarm a => cases a with
      | none => exact absurd h id
      | some a => exact ⟨FieldsAll.imp (fun _ _ => FieldOk.safe) h.1, h.2.2.1⟩

theorem CompOk.safe {E : Env} {T : Tab SubKind} {s : Comp} (h : CompOk E T s) : CompSafe E T s :=
  ⟨FieldsAll.imp (fun _ _ => FieldOk.safe) h.1, SubsAll.imp (fun _ _ => SubOk.safe) h.2.2.1⟩

theorem CalOk.safe {E : Env} {c : Cal} (h : CalOk E c) : CalSafe E c :=
  ⟨FieldsAll.imp (fun _ _ => FieldOk.safe) h.1, SubsAll.imp (fun _ _ => CompOk.safe) h.2.2.1⟩

theorem alarmCollect_skip (t : Term) (a : Option AKind) : ∀ (p : List Line) (l : Line) (r : List Line),
    (∀ x ∈ p, x.name ≠ kBEGIN ∧ x.name ≠ kEND ∧ x.name ≠ kACTION) → l.name = kEND →
    alarmCollect t a (p ++ l :: r) = .ok (a, p ++ [l], r) := by
  intro p
  induction p with
  | nil =>
    intro l r _ hl
    simp only [List.nil_append, alarmCollect, hl, if_neg (by decide : ¬ kEND = kBEGIN), if_neg (by decide : ¬ kEND = kACTION), if_true]
  | cons x p ih =>
    intro l r hp hl
    obtain ⟨h1, h2, h3⟩ := hp x List.mem_cons_self
    simp only [List.cons_append, alarmCollect, if_neg h1, if_neg h2, if_neg h3]
    rw [ih l r (fun y hy => hp y (List.mem_cons_of_mem _ hy)) hl]
    rfl

theorem AKind.ofAction_action (k : AKind) : AKind.ofAction k.action = some k := by cases k <;> decide

theorem leafDecode_lines (E : Env) (T : Tab Empty) (hw : T.Wf) (hsub : T.subs = []) (t : Term) (s : Leaf) (h : LeafOk E T s) (r : List Line) :
    T.decode E noSub t (T.inner E noInner s ++ r) = .ok (T.norm E noNrm s, r) :=
  Tab.decode_lines E T hw noSub noSub_suffix t noInner noNrm noP (by rw [hsub]; simp) s h.1 h.2.1 h.2.2.1 h.2.2.2 r

theorem alarmDecode_lines (E : Env) (t : Term) (k : AKind) (s : Leaf) (h : LeafOk E k.tab s) (r : List Line) :
    alarmDecode E t (alarmInner E k s ++ r) = .ok (.alarm (some (k, k.tab.norm E noNrm s)), r) := by
  have hw := aTab_wf k
  obtain ⟨hn, hsub⟩ := aTab_name k
  have hss : s.subs = [] := by
    have := h.2.2.1
    rw [hsub] at this
    cases hs : s.subs with
    | nil => rfl
    | cons => rw [hs] at this; exact absurd this id
  have hin : k.tab.inner E noInner s = fieldLines E k.tab.fields s.fields ++ [plainLine kEND kVALARM] := by
    unfold Tab.inner
    rw [hsub, hss, hn]
    simp [subsLines]
  have hc : alarmCollect t none (alarmInner E k s ++ r) = .ok (some k, alarmInner E k s, r) := by
    unfold alarmInner
    rw [hin]
    have hnames : ∀ x ∈ fieldLines E k.tab.fields s.fields, x.name ≠ kBEGIN ∧ x.name ≠ kEND ∧ x.name ≠ kACTION := by
      intro x hx
      obtain ⟨_, f, hf, e⟩ := (encFields_lines E k.tab.fields s.fields hw.field (FieldsAll.imp (fun _ _ => FieldOk.safe) h.1)).2 x hx
      rw [e]
      exact (hw.field f hf).notCtl2
    simp only [List.cons_append, List.append_assoc, List.nil_append, alarmCollect, plainLine,
      if_neg (by decide : ¬ kACTION = kBEGIN), if_true, Option.isSome_none, Bool.false_eq_true, if_false, AKind.ofAction_action]
    have := alarmCollect_skip t (some k) _ (plainLine kEND kVALARM) r hnames rfl
    simp only [plainLine] at this
    rw [this]
    rfl
  have hd : k.tab.decode E noSub (.error .unexpectedEOF) (alarmInner E k s) = .ok (k.tab.norm E noNrm s, []) := by
    have h0 := leafDecode_lines E k.tab hw hsub (.error .unexpectedEOF) s h []
    rw [List.append_nil] at h0
    rw [Tab.decode_ok] at h0 ⊢
    refine ⟨?_, h0.2⟩
    rw [← h0.1]
    unfold alarmInner
    rw [Sect.run_cons noSub_suffix]
    have hk : k.tab.kindOf (plainLine kACTION k.action) = .other := by
      have hf : fieldIdx kACTION k.tab.fields = none := by
        rw [fieldIdx_none]
        intro hm
        obtain ⟨f, hf, hk⟩ := List.mem_map.1 hm
        exact (hw.field f hf).notCtl.2.2 hk
      have hu : upper kACTION = kACTION := by decide
      unfold Tab.kindOf
      simp only [plainLine, hu, hf, if_neg (by decide : ¬ kACTION = kBEGIN), if_neg (by decide : ¬ kACTION = kEND)]
    rw [hk]
  unfold alarmDecode
  rw [hc]
  simp only [Res.ok_bind, hd]
  rfl

theorem subDecode_lines (E : Env) (t : Term) (x : Str × SubKind) (hg : SubKind.Good x) (s : Sub) (h : SubOk E x.2 s) (r : List Line) :
    subDecode E t x.2 (subInner E x.2 s ++ r) = .ok (subNorm E x.2 s, r) := by
  obtain ⟨n, k⟩ := x
  cases k with
  | leaf T =>
    cases s with
    | alarm a => exact absurd h id
    | leaf s =>
      obtain ⟨hw, hn, hsub⟩ := hg
      simp only [subDecode, subInner, subNorm]
      rw [leafDecode_lines E T hw hsub t s h r]
      rfl
  | alarm =>
    cases s with
    | leaf s => exact absurd h id
    | alarm a =>
      cases a with
      | none => exact absurd h id
      | some a => exact alarmDecode_lines E t a.1 a.2 h r

theorem compDecode_lines (E : Env) (t : Term) (x : Str × Tab SubKind) (hx : x ∈ tabCalendar.subs) (s : Comp) (h : CompOk E x.2 s)
    (r : List Line) : compDecode E t x.2 (compInner E x.2 s ++ r) = .ok (x.2.norm E (subNorm E) s, r) := by
  obtain ⟨hw, hn, hg⟩ := compTab_good x hx
  exact Tab.decode_lines E x.2 hw (subDecode E t) (subDecode_suffix E t) t (subInner E) (subNorm E) (SubOk E)
    (fun y hy s hs r => subDecode_lines E t y (hg y hy) s hs r) s h.1 h.2.1 h.2.2.1 h.2.2.2 r

/-- The lines of a good calendar are decoded to it, whatever follows. -/
theorem decodeStream_lines (E : Env) (c : Cal) (h : CalOk E c) (r : List Line) (t : Term) :
    decodeStream E ⟨calLines E c ++ r, t⟩ = .ok (c.norm E) := by
  have := Tab.decode_lines E tabCalendar calTab_wf (compDecode E t) (compDecode_suffix E t) t (compInner E)
    (fun T s => T.norm E (subNorm E) s) (CompOk E) (fun y hy s hs r => compDecode_lines E t y hy s hs r) c h.1 h.2.1 h.2.2.1 h.2.2.2 r
  unfold decodeStream calLines
  simp only [List.cons_append]
  rw [if_pos (by constructor <;> decide), this]
  rfl

end Ics
