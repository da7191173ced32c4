import Verif.Spec.Message
import Verif.VerdictLemmas
/-!
# Lemmas about the texts of errors
-/

namespace Ics
open Spec

variable {κ σ τ : Type}

/-! ## One line at a time -/

/-- A result without its text. -/
def follow (x : Res (τ ⊕ σ)) (go : τ → Option Str) (m : Str) : Option Str :=
  match x with
  | .ok (.inl y) => go y
  | .ok (.inr _) => none
  | .err _ => some m
  | .panic => none

section
variable {W : Words} {E : Env} {me : Str} {T : Tab κ} {sub : κ → List Line → Res (σ × List Line)} {called : κ → Str} {below : κ → List Line → Option Str} {t : Term}

theorem Sect.says_fuel (hs : Suffix sub) : ∀ {f g : Nat} {ls : List Line}, ls.length < f → ls.length < g → ∀ s : Sect σ,
    Sect.says W E me T sub called below t f s ls = Sect.says W E me T sub called below t g s ls := by
  intro f
  induction f with
  | zero => intro g ls h; omega
  | succ f ih =>
    intro g ls hf hg s
    cases g with
    | zero => omega
    | succ g =>
      cases ls with
      | nil => rfl
      | cons l r =>
        simp only [List.length_cons] at hf hg
        simp only [Sect.says]
        split
        · split
          · split
            · split
              · rename_i x r1 hr
                have := hs.length hr
                exact ih (by omega) (by omega) _
              · rfl
              · rfl
            · rfl
          · split
            · rename_i r1 hr
              have := dummy_length hr
              exact ih (by omega) (by omega) _
            · rfl
            · rfl
        · split
          · split
            · split
              · rfl
              · split
                · exact ih (by omega) (by omega) _
                · rfl
                · rfl
            · rfl
          · split
            · rfl
            · exact ih (by omega) (by omega) _

variable (W E me T sub called below t) in
def Sect.saysRun (s : Sect σ) (ls : List Line) : Option Str := Sect.says W E me T sub called below t (ls.length + 1) s ls

theorem Sect.saysRun_nil (s : Sect σ) : Sect.saysRun W E me T sub called below t s [] = some (saysType me (t.err.text W)) := rfl

/-- The text about a line of the section itself, if it is at fault. -/
def ownSays (W : Words) (me : Str) (T : Tab κ) (s : Sect σ) (l : Line) : Str :=
  match T.kindOf l with
  | .prop i f => if f.mult ≠ .many ∧ s.fields.getD i [] ≠ [] then saysMultiple me (goField me f.key) else saysProp me (goField me f.key) (W.prop f l)
  | .fin => if l.value = T.name then match T.finish s with
      | .err e => saysType me (e.text W)
      | _ => []
    else saysType me (Err.invalidEnd.text W)
  | _ => []

theorem Sect.saysRun_cons (hs : Suffix sub) (s : Sect σ) (l : Line) (r : List Line) :
    Sect.saysRun W E me T sub called below t s (l :: r) =
      match T.kindOf l with
      | .sub i k => match sub k r with
        | .ok x => Sect.saysRun W E me T sub called below t (s.addSub i x.1) x.2
        | .err _ => (below k r).map (saysProp me (called k))
        | .panic => none
      | .unk => match skip t (upper l.value) r with
        | .ok r => Sect.saysRun W E me T sub called below t s r
        | .err e => some (saysType me (e.text W))
        | .panic => none
      | .prop i f => match s.addProp E i f l with
        | .ok s => Sect.saysRun W E me T sub called below t s r
        | .err _ => some (ownSays W me T s l)
        | .panic => none
      | .fin => if l.value = T.name then match T.finish s with
          | .err _ => some (ownSays W me T s l)
          | _ => none
        else some (ownSays W me T s l)
      | .other => Sect.saysRun W E me T sub called below t s r := by
  unfold Sect.saysRun ownSays Tab.kindOf
  simp only [List.length_cons]
  rw [Sect.says]
  by_cases hb : upper l.name = kBEGIN
  · simp only [if_pos hb]
    cases hi : indexOf (upper l.value) (T.subs.map (·.1)) with
    | some i =>
      have hg := indexOf_some _ _ _ hi
      rw [List.getElem?_map] at hg
      obtain ⟨⟨n, k⟩, hk, _⟩ := Option.map_eq_some_iff.1 hg
      simp only [hk]
      cases hd : sub k r with
      | ok x =>
        obtain ⟨x, r1⟩ := x
        have := hs.length hd
        exact Sect.says_fuel hs (by omega) (Nat.lt_succ_self _) _
      | err e => rfl
      | panic => rfl
    | none =>
      simp only
      unfold skip
      cases hd : dummy t (r.length + 1) (upper l.value) r with
      | ok r1 =>
        have := dummy_length hd
        exact Sect.says_fuel hs (by omega) (by omega) _
      | err e => rfl
      | panic => rfl
  · simp only [if_neg hb]
    cases hi : fieldIdx (upper l.name) T.fields with
    | some i =>
      obtain ⟨d, hd, _⟩ := fieldIdx_some hi
      simp only [hd]
      by_cases hm : d.mult ≠ .many ∧ s.fields.getD i [] ≠ []
      · rw [if_pos hm, show s.addProp E i d l = .err .multiple from if_pos hm]
        simp only [if_pos hm]
      · rw [if_neg hm]
        simp only [if_neg hm]
        cases s.addProp E i d l <;> rfl
    | none =>
      by_cases he : upper l.name = kEND
      · simp only [if_pos he]
        by_cases hv : l.value = T.name
        · simp only [if_pos hv]
          cases T.finish s <;> rfl
        · simp only [if_neg hv]
      · simp only [if_neg he]

end

/-- The text about a line, if it is at fault. -/
def SCfg.stepSays (W : Words) (me : Str) (T : Tab κ) (called : τ → Str) (sstepSays : τ → Line → Str) (c : SCfg σ τ) (l : Line) : Str :=
  match c.inner with
  | .own => ownSays W me T c.s l
  | .skip _ _ => saysType me (Err.invalidEnd.text W)
  | .sub _ x => saysProp me (called x) (sstepSays x l)

/-- The text about the rest of a section. -/
def SCfg.runSays (W : Words) (E : Env) (me : Str) (T : Tab κ) (sub : Term → κ → List Line → Res (σ × List Line)) (called : κ → Str) (below : Term → κ → List Line → Option Str)
    (srun : Term → τ → List Line → Res (σ × List Line)) (scalled : τ → Str) (srunSays : Term → τ → List Line → Option Str) (t : Term) (c : SCfg σ τ) (ls : List Line) : Option Str :=
  let go (s : Sect σ) (ls : List Line) := Sect.saysRun W E me T (sub t) called (below t) t s ls
  match c.inner with
  | .own => go c.s ls
  | .skip n ns => match skips t (n :: ns) ls with
    | .ok r => go c.s r
    | .err e => some (saysType me (e.text W))
    | .panic => none
  | .sub i x => match srun t x ls with
    | .ok y => go (c.s.addSub i y.1) y.2
    | .err _ => (srunSays t x ls).map (saysProp me (scalled x))
    | .panic => none

/-- The step is a step of this text. -/
def StepsSay (srunSays : Term → τ → List Line → Option Str) (sstep : τ → Line → Res (τ ⊕ σ)) (sstepSays : τ → Line → Str) : Prop :=
  ∀ t x l r, srunSays t x (l :: r) = follow (sstep x l) (fun y => srunSays t y r) (sstepSays x l)

theorem SCfg.runSays_cons {W : Words} {E : Env} {me : Str} {T : Tab κ} {sub : Term → κ → List Line → Res (σ × List Line)} {called : κ → Str}
    {below : Term → κ → List Line → Option Str} {srun : Term → τ → List Line → Res (σ × List Line)} {scalled : τ → Str} {srunSays : Term → τ → List Line → Option Str}
    {init : κ → τ} {sstep : τ → Line → Res (τ ⊕ σ)} {sstepSays : τ → Line → Str} (hs : ∀ t, Suffix (sub t)) (hi : ∀ t k ls, sub t k ls = srun t (init k) ls)
    (hb : ∀ t k ls, below t k ls = srunSays t (init k) ls) (hc : ∀ k, called k = scalled (init k)) (hn : ∀ x l y, sstep x l = .ok (.inl y) → scalled y = scalled x)
    (hst : Steps srun sstep) (hsay : StepsSay srunSays sstep sstepSays) :
    StepsSay (SCfg.runSays W E me T sub called below srun scalled srunSays) (SCfg.step E T init sstep) (SCfg.stepSays W me T scalled sstepSays) := by
  rintro t ⟨s, inner⟩ l r
  cases inner with
  | own =>
    simp only [SCfg.runSays, SCfg.step, SCfg.stepSays, Sect.saysRun_cons (hs t)]
    cases hk : T.kindOf l with
    | sub i k =>
      simp only [hi, hb, hc, follow]
    | unk =>
      simp only [follow, skips]
      cases skip t (upper l.value) r <;> rfl
    | prop i f =>
      simp only
      cases s.addProp E i f l <;> rfl
    | fin =>
      simp only
      by_cases hv : l.value = T.name
      · rw [if_pos hv, if_pos hv]
        cases T.finish s <;> rfl
      · rw [if_neg hv, if_neg hv]
        rfl
    | other => rfl
  | skip n ns =>
    simp only [SCfg.runSays, SCfg.step, SCfg.stepSays, skips, skip_cons]
    by_cases hb : upper l.name = kBEGIN
    · rw [if_pos hb, if_pos hb]
      simp only [follow, skips]
      cases skip t l.value r <;> rfl
    · rw [if_neg hb, if_neg hb]
      by_cases he : upper l.name = kEND
      · rw [if_pos he, if_pos he]
        by_cases hv : upper l.value = n
        · rw [if_pos hv, if_pos hv]
          cases ns with
          | nil => rfl
          | cons m ms => rfl
        · rw [if_neg hv, if_neg hv]
          rfl
      · rw [if_neg he, if_neg he]
        rfl
  | sub i x =>
    simp only [SCfg.runSays, SCfg.step, SCfg.stepSays, hst t x l r, hsay t x l r]
    cases hx : sstep x l with
    | ok y =>
      cases y with
      | inl y =>
        simp only [Res.ok_bind, follow]
        rw [hn _ _ _ hx]
      | inr v => rfl
    | err e => rfl
    | panic => rfl

/-! ## There is a text exactly if there is an error -/

/-- The text goes with the result. -/
def Agree {α : Type} (o : Option Str) (r : Res α) : Prop :=
  match r with
  | .err _ => ∃ m, o = some m
  | _ => o = none

theorem agrees {srun : Term → τ → List Line → Res (σ × List Line)} {srunSays : Term → τ → List Line → Option Str} {sstep : τ → Line → Res (τ ⊕ σ)} {sstepSays : τ → Line → Str}
    (hst : Steps srun sstep) (hsay : StepsSay srunSays sstep sstepSays) (h0 : ∀ t x, Agree (srunSays t x []) (srun t x [])) :
    ∀ (ls : List Line) (t : Term) (x : τ), Agree (srunSays t x ls) (srun t x ls) := by
  intro ls
  induction ls with
  | nil => exact h0
  | cons l r ih =>
    intro t x
    rw [hst t x l r, hsay t x l r]
    cases sstep x l with
    | ok y =>
      cases y with
      | inl y => exact ih t y
      | inr v => rfl
    | err e => exact ⟨_, rfl⟩
    | panic => rfl

theorem SCfg.agree_nil {W : Words} {E : Env} {me : Str} {T : Tab κ} {sub : Term → κ → List Line → Res (σ × List Line)} {called : κ → Str}
    {below : Term → κ → List Line → Option Str} {srun : Term → τ → List Line → Res (σ × List Line)} {scalled : τ → Str} {srunSays : Term → τ → List Line → Option Str}
    (h0 : ∀ t x, Agree (srunSays t x []) (srun t x [])) (hne : ∀ t x y, srun t x [] ≠ .ok y) (t : Term) (c : SCfg σ τ) :
    Agree (SCfg.runSays W E me T sub called below srun scalled srunSays t c []) (SCfg.run E T sub srun t c []) := by
  obtain ⟨s, inner⟩ := c
  cases inner with
  | own => exact ⟨_, rfl⟩
  | skip n ns => exact ⟨_, rfl⟩
  | sub i x =>
    have := h0 t x
    simp only [SCfg.runSays, SCfg.run]
    cases hr : srun t x [] with
    | ok y => exact absurd hr (hne t x y)
    | err e =>
      rw [hr] at this
      obtain ⟨m, hm⟩ := this
      rw [hm]
      exact ⟨_, rfl⟩
    | panic => rfl

/-! ## Sections without subsections -/

def noStepSays (x : Empty) (_ : Line) : Str := nomatch x
def noRunSays (_ : Term) (x : Empty) (_ : List Line) : Option Str := nomatch x

def leafStepSays (W : Words) (me : Str) (T : Tab Empty) : LCfg → Line → Str := SCfg.stepSays W me T noName noStepSays
def leafRunSays (W : Words) (E : Env) (me : Str) (T : Tab Empty) : Term → LCfg → List Line → Option Str :=
  SCfg.runSays W E me T (fun _ => noSub) noName (fun _ => noBelow) noRun noName noRunSays

theorem leaf_stepsSay (W : Words) (E : Env) (me : Str) (T : Tab Empty) : StepsSay (leafRunSays W E me T) (leafStep E T) (leafStepSays W me T) :=
  SCfg.runSays_cons (fun _ => noSub_suffix) (fun _ k => nomatch k) (fun _ k => nomatch k) (fun k => nomatch k) (fun x => nomatch x) (fun _ x => nomatch x) (fun _ x => nomatch x)

theorem leafSays_run (W : Words) (E : Env) (me : Str) (T : Tab Empty) (t : Term) (ls : List Line) :
    leafSays W E me T t ls = leafRunSays W E me T t ⟨T.start Empty, .own⟩ ls := rfl

theorem leafRunSays_nil {W : Words} {E : Env} {me : Str} {T : Tab Empty} {t : Term} {c : LCfg} : leafRunSays W E me T t c [] = some (saysType me (t.err.text W)) := by
  obtain ⟨s, inner⟩ := c
  cases inner with
  | own => rfl
  | skip n ns => rfl
  | sub i x => exact nomatch x

theorem leaf_agree (W : Words) (E : Env) (me : Str) (T : Tab Empty) (ls : List Line) (t : Term) (c : LCfg) : Agree (leafRunSays W E me T t c ls) (leafRun E T t c ls) :=
  agrees (leaf_steps E T) (leaf_stepsSay W E me T) (fun t c => by rw [leafRunSays_nil, leafRun_nil]; exact ⟨_, rfl⟩) ls t c

/-! ## Subsections of components -/

def SubCfg.called : SubCfg → Str
  | .leaf T _ => goSect T.name
  | .alarm _ _ => c!"Alarm"

/-- The end of an alarm. -/
def alarmEndSays (W : Words) (E : Env) (a : Option AKind) (k : List Line) : Option Str :=
  match a with
  | none => some (Err.missingAlarmAction.text W)
  | some a => leafSays W E a.goName a.tab (.error .unexpectedEOF) k

theorem alarmEnd_agree (W : Words) (E : Env) (a : Option AKind) (k : List Line) : Agree (alarmEndSays W E a k) (alarmEnd E a k) := by
  cases a with
  | none => exact ⟨_, rfl⟩
  | some a =>
    have := leaf_agree W E a.goName a.tab k (.error .unexpectedEOF) ⟨a.tab.start Empty, .own⟩
    rw [← leafSays_run, show leafRun E a.tab (.error .unexpectedEOF) ⟨a.tab.start Empty, .own⟩ k = a.tab.decode E noSub (.error .unexpectedEOF) k from rfl] at this
    simp only [alarmEndSays, alarmEnd]
    cases hr : a.tab.decode E noSub (.error .unexpectedEOF) k with
    | ok x => rw [hr] at this; exact this
    | err e => rw [hr] at this; exact this
    | panic => rw [hr] at this; exact this

def subStepSays (W : Words) (E : Env) : SubCfg → Line → Str
  | .leaf T c, l => leafStepSays W (goSect T.name) T c l
  | .alarm a k, l => if l.name = kEND then (alarmEndSays W E a (k ++ [l])).getD [] else Err.invalidStructure.text W

def subRunSays (W : Words) (E : Env) (t : Term) : SubCfg → List Line → Option Str
  | .leaf T c, ls => leafRunSays W E (goSect T.name) T t c ls
  | .alarm a k, ls => match alarmCollect t a ls with
    | .ok x => alarmEndSays W E x.1 (k ++ x.2.1)
    | .err e => some (e.text W)
    | .panic => none

theorem sub_stepsSay (W : Words) (E : Env) : StepsSay (subRunSays W E) (subStep E) (subStepSays W E) := by
  intro t x l r
  cases x with
  | leaf T c =>
    simp only [subRunSays, subStep, subStepSays, leaf_stepsSay W E (goSect T.name) T t c l r]
    cases leafStep E T c l with
    | ok y => cases y <;> rfl
    | err e => rfl
    | panic => rfl
  | alarm a k =>
    simp only [subRunSays, subStep, subStepSays, alarmCollect]
    by_cases hb : l.name = kBEGIN
    · rw [if_pos hb, if_pos hb, if_neg (by rw [hb]; decide)]; rfl
    rw [if_neg hb, if_neg hb]
    by_cases ha : l.name = kACTION
    · rw [if_pos ha, if_pos ha]
      by_cases hn : a.isSome = true
      · rw [if_pos hn, if_pos hn, if_neg (by rw [ha]; decide)]; rfl
      · rw [if_neg hn, if_neg hn]
        simp only [follow, subRunSays]
        cases alarmCollect t (AKind.ofAction l.value) r with
        | ok y => simp [Res.ok_bind]
        | err e => rfl
        | panic => rfl
    rw [if_neg ha, if_neg ha]
    by_cases he : l.name = kEND
    · rw [if_pos he, if_pos he, if_pos he]
      have h := alarmEnd_agree W E a (k ++ [l])
      cases hr : alarmEnd E a (k ++ [l]) with
      | ok x => rw [hr] at h; exact h
      | err e =>
        rw [hr] at h
        obtain ⟨m, hm⟩ := h
        simp only [hm]
        rfl
      | panic => rw [hr] at h; exact h
    · rw [if_neg he, if_neg he]
      simp only [follow, subRunSays]
      cases alarmCollect t a r with
      | ok y => simp [Res.ok_bind]
      | err e => rfl
      | panic => rfl

theorem subInit_says (W : Words) (E : Env) (t : Term) (k : SubKind) (ls : List Line) : subSays W E t k ls = subRunSays W E t (subInit k) ls := by
  cases k with
  | leaf T => rfl
  | alarm =>
    simp only [subSays, alarmSays, subRunSays, subInit, List.nil_append]
    cases alarmCollect t none ls with
    | ok x =>
      obtain ⟨a, pt, r⟩ := x
      cases a <;> rfl
    | err e => rfl
    | panic => rfl

theorem subCalled_step {E : Env} (x : SubCfg) (l : Line) (y : SubCfg) (h : subStep E x l = .ok (.inl y)) : y.called = x.called := by
  cases x with
  | leaf T c =>
    obtain ⟨a, _, h⟩ := Res.bind_eq_ok.1 h
    cases a <;> cases h
    rfl
  | alarm a k =>
    simp only [subStep] at h
    split at h
    · cases h
    split at h
    · split at h <;> cases h
      rfl
    split at h
    · obtain ⟨_, _, h⟩ := Res.bind_eq_ok.1 h
      cases h
    · cases h
      rfl

theorem subRun_nil {E : Env} {t : Term} {x : SubCfg} : subRun E t x [] = match x, t with
    | .alarm _ _, .done => .panic
    | _, t => .err t.err := by
  cases x with
  | leaf T c => simp only [subRun, leafRun_nil]; rfl
  | alarm a k => cases t <;> rfl

theorem subRunSays_nil {W : Words} {E : Env} {t : Term} {x : SubCfg} : subRunSays W E t x [] = match x, t with
    | .alarm _ _, .done => none
    | .alarm _ _, t => some (t.err.text W)
    | .leaf T _, t => some (saysType (goSect T.name) (t.err.text W)) := by
  cases x with
  | leaf T c => simp only [subRunSays, leafRunSays_nil]
  | alarm a k => cases t <;> rfl

theorem sub_agree_nil {W : Words} {E : Env} (t : Term) (x : SubCfg) : Agree (subRunSays W E t x []) (subRun E t x []) := by
  rw [subRun_nil, subRunSays_nil]
  cases x <;> cases t <;> first | rfl | exact ⟨_, rfl⟩

/-! ## Components and the calendar -/

def CompCfg.called (x : CompCfg) : Str := goSect x.T.name

def compStepSays (W : Words) (E : Env) (x : CompCfg) (l : Line) : Str := SCfg.stepSays W (goSect x.T.name) x.T SubCfg.called (subStepSays W E) x.c l

def compRunSays (W : Words) (E : Env) (t : Term) (x : CompCfg) : List Line → Option Str :=
  SCfg.runSays W E (goSect x.T.name) x.T (subDecode E) SubKind.called (subSays W E) (subRun E) SubCfg.called (subRunSays W E) t x.c

theorem comp_stepsSay (W : Words) (E : Env) : StepsSay (compRunSays W E) (compStep E) (compStepSays W E) := by
  rintro t ⟨T, c⟩ l r
  have := SCfg.runSays_cons (W := W) (E := E) (me := goSect T.name) (T := T) (called := SubKind.called) (subDecode_suffix E) (subInit_run E) (subInit_says W E) (scalled := SubCfg.called)
    (fun k => by cases k <;> rfl) subCalled_step (sub_steps E) (sub_stepsSay W E) t c l r
  simp only [compRunSays, compStep, compStepSays, this]
  cases SCfg.step E T subInit (subStep E) c l with
  | ok y => cases y <;> rfl
  | err e => rfl
  | panic => rfl

theorem compCalled_step {E : Env} (x : CompCfg) (l : Line) (y : CompCfg) (h : compStep E x l = .ok (.inl y)) : y.called = x.called := by
  obtain ⟨a, _, h⟩ := Res.bind_eq_ok.1 h
  cases a <;> cases h
  rfl

def calStepSays (W : Words) (E : Env) : CalCfg → Line → Str := SCfg.stepSays W (goSect tabCalendar.name) tabCalendar CompCfg.called (compStepSays W E)

def calRunSays (W : Words) (E : Env) : Term → CalCfg → List Line → Option Str :=
  SCfg.runSays W E (goSect tabCalendar.name) tabCalendar (compDecode E) (fun T => goSect T.name) (compSays W E) (compRun E) CompCfg.called (compRunSays W E)

theorem cal_stepsSay (W : Words) (E : Env) : StepsSay (calRunSays W E) (calStep E) (calStepSays W E) :=
  SCfg.runSays_cons (compDecode_suffix E) (compInit_run E) (fun _ _ _ => rfl) (fun _ => rfl) compCalled_step (comp_steps E) (comp_stepsSay W E)

theorem compRun_nil {E : Env} (t : Term) (x : CompCfg) (y : Comp × List Line) : compRun E t x [] ≠ .ok y := by
  obtain ⟨T, s, inner⟩ := x
  unfold compRun
  rw [SCfg.run_nil]
  cases inner with
  | own => intro h; cases h
  | skip n ns => intro h; cases h
  | sub i x =>
    simp only [subRun_nil]
    intro h
    obtain ⟨a, h, _⟩ := Res.bind_eq_ok.1 h
    cases x <;> cases t <;> cases h

theorem comp_agree_nil {W : Words} {E : Env} (t : Term) (x : CompCfg) : Agree (compRunSays W E t x []) (compRun E t x []) :=
  SCfg.agree_nil sub_agree_nil (fun t x y => by rw [subRun_nil]; cases x <;> cases t <;> intro h <;> cases h) t x.c

theorem cal_agree (W : Words) (E : Env) (ls : List Line) (t : Term) (c : CalCfg) : Agree (calRunSays W E t c ls) (calRun E t c ls) :=
  agrees (cal_steps E) (cal_stepsSay W E) (SCfg.agree_nil comp_agree_nil compRun_nil) ls t c

/-! ## Documents -/

theorem streamSays_run (W : Words) (E : Env) (t : Term) (l : Line) (r : List Line) (h : Opening l) : streamSays W E ⟨l :: r, t⟩ = calRunSays W E t calInit r := by
  unfold streamSays
  simp only
  rw [if_pos (show upper l.name = kBEGIN ∧ upper l.value = tabCalendar.name from h)]
  rfl

theorem stream_agree (W : Words) (E : Env) (st : Stream) : Agree (streamSays W E st) (decodeStream E st) := by
  obtain ⟨ls, t⟩ := st
  cases ls with
  | nil => exact ⟨_, rfl⟩
  | cons l r =>
    by_cases h : Opening l
    · rw [streamSays_run W E t l r h]
      have h1 := cal_agree W E r t calInit
      unfold decodeStream
      simp only
      rw [if_pos (show upper l.name = kBEGIN ∧ upper l.value = tabCalendar.name from h), show tabCalendar.decode E (compDecode E t) t r = calRun E t calInit r from rfl]
      cases hr : calRun E t calInit r with
      | ok x => rw [hr] at h1; exact h1
      | err e => rw [hr] at h1; exact h1
      | panic => rw [hr] at h1; exact h1
    · rw [decodeStream_closed h]
      unfold streamSays
      simp only
      rw [if_neg (show ¬ (upper l.name = kBEGIN ∧ upper l.value = tabCalendar.name) from h)]
      exact ⟨_, rfl⟩

/-! ## The way to a line -/

theorem trail_last {a : List Level} {z b : Level} (h : z.frame ≠ .unknown) : trail (a ++ [z] ++ [b]) = c!"error decoding " ++ b.frame.title ++ c!"->" ++ z.frame.title ++ c!": " ++ trail (a ++ [z]) := by
  induction a with
  | nil =>
    obtain ⟨f, n, o⟩ := z
    cases f with
    | unknown => exact absurd rfl h
    | cal => simp [trail]
    | comp T => simp [trail]
    | leaf T => simp [trail]
    | alarm => simp [trail]
  | cons p a ih =>
    cases a with
    | nil =>
      simp only [List.nil_append, List.cons_append] at ih ⊢
      rw [trail, ih, trail]
      simp
    | cons q a =>
      simp only [List.cons_append] at ih ⊢
      rw [trail, ih, trail]
      simp

theorem trail_unknown {us : List Level} {b : Level} (h : ∀ u ∈ us, u.frame = .unknown) : trail (us ++ [b]) = [] := by
  induction us with
  | nil => rfl
  | cons u us ih =>
    have hu := h u (List.mem_cons_self ..)
    have := ih fun v hv => h v (List.mem_cons_of_mem _ hv)
    cases us with
    | nil => simp only [List.nil_append, List.cons_append, trail, hu]
    | cons v us =>
      simp only [List.cons_append] at this ⊢
      rw [trail, this, hu]
      rfl

theorem home_unknown {us : List Level} {b : Level} (h : ∀ u ∈ us, u.frame = .unknown) (hb : b.frame ≠ .unknown) (st : List Level) : home (us ++ b :: st) = b.frame := by
  induction us with
  | nil =>
    obtain ⟨f, n, o⟩ := b
    cases f with
    | unknown => exact absurd rfl hb
    | cal => rfl
    | comp T => rfl
    | leaf T => rfl
    | alarm => rfl
  | cons u us ih =>
    simp only [List.cons_append, home]
    rw [h u (List.mem_cons_self ..)]
    exact ih fun v hv => h v (List.mem_cons_of_mem _ hv)

theorem home_append {a : List Level} {z : Level} (h : z.frame ≠ .unknown) (st : List Level) : home (a ++ [z] ++ st) = home (a ++ [z]) := by
  induction a with
  | nil =>
    simp only [List.nil_append, List.cons_append]
    exact (home_unknown (us := []) (by simp) h st).trans (home_unknown (us := []) (by simp) h []).symm
  | cons p a ih =>
    simp only [List.cons_append, home] at ih ⊢
    rw [ih]

theorem Spec.Says.congr {W : Words} {E : Env} {p : Level} {st st' : List Level} {l : Line} {m : Str} (h : Says W E p st l m) (hh : home (p :: st) = home (p :: st')) : Says W E p st' l m := by
  cases h with
  | sect h1 h2 => exact .sect h1 (hh ▸ h2)
  | block h1 h2 => exact .block h1 h2
  | twoActions h1 h2 h3 => exact .twoActions h1 h2 h3
  | noAction h1 h2 h3 => exact .noAction h1 h2 h3
  | alarm h1 h2 h3 h4 h5 h6 => exact .alarm h1 h2 h3 h4 h5 h6
  | unclosed h1 h2 h3 h4 => exact .unclosed h1 h2 h3 h4

/-! ## The line at fault -/

/-- A line of the section itself. -/
theorem own_says {W : Words} {E : Env} {me : Str} {F : Frame} {T : Tab κ} (hF : FrameOf F T) {own : List Item} {s : Sect σ} (h : Counts T own s) {l : Line} {m : Str}
    (hs : SectSays W E me ⟨F, T.name, own⟩ l m) : ownSays W me T s l = m := by
  have hfield : ∀ {f : SField}, f ∈ F.fields → f.key = upper l.name → ∃ i, T.fields[i]? = some f ∧ T.kindOf l = .prop i f := by
    intro f hf hk
    rw [hF.fields] at hf
    have hc := (hF.wf.field f hf).notCtl
    have hb : ¬ Begins l := fun hb => hc.1 (hk.trans hb)
    have he : ¬ Ends l := fun he => hc.2.1 (hk.trans he)
    rcases Tab.kindOf_line (T := T) hb he with ⟨i, g, hkd, hg, hgk⟩ | ⟨_, hn⟩
    · obtain ⟨j, hj⟩ := List.getElem?_of_mem hf
      have := hF.wf.key_inj hg hj (hgk.trans hk.symm)
      subst this
      rw [hg] at hj
      cases hj
      exact ⟨i, hg, hkd⟩
    · exact absurd (List.mem_map.2 ⟨f, hf, hk⟩) hn
  cases hs with
  | again hf hk hm hl =>
    obtain ⟨i, hi, hkd⟩ := hfield hf hk
    unfold ownSays
    rw [hkd]
    simp only
    rw [if_pos ⟨hm, (h.hasLine hi).1 hl⟩]
    rfl
  | value hf hk hor hd =>
    obtain ⟨i, hi, hkd⟩ := hfield hf hk
    unfold ownSays
    rw [hkd]
    simp only
    rw [if_neg]
    · rfl
    · rintro ⟨h1, h2⟩
      exact (hor.resolve_left h1) ((h.hasLine hi).2 h2)
  | ending he hf =>
    next e =>
    unfold ownSays
    rw [Tab.kindOf_end hF.wf he]
    simp only
    have hj := judged_end (E := E) hF h he
    by_cases hv : l.value = T.name
    · rw [if_pos hv] at hj ⊢
      cases hfin : T.finish s with
      | ok u =>
        rw [hfin] at hj
        exact absurd hf (hj _)
      | err e' =>
        rw [hfin] at hj
        have := (hj _).1 hf
        cases this
        rfl
      | panic =>
        rw [hfin] at hj
        have := (hj _).1 hf
        cases this
    · rw [if_neg hv] at hj ⊢
      have := (hj _).1 hf
      cases this
      rfl

/-- A line of an unknown component. -/
theorem unknown_says {W : Words} {E : Env} {me n : Str} {own : List Item} {l : Line} {m : Str} (hs : SectSays W E me ⟨.unknown, n, own⟩ l m) :
    saysType me (Err.invalidEnd.text W) = m := by
  cases hs with
  | again hf => cases hf
  | value hf => cases hf
  | ending he hf =>
    have := (sectFault_unknown.1 hf).2.2
    cases this
    rfl

/-- A line in a section that is not in a known subsection. -/
theorem section_says {W : Words} {E : Env} {me : Str} {F : Frame} {T : Tab κ} (hF : FrameOf F T) {scalled : τ → Str} {sstepSays : τ → Line → Str} {M : Str → τ → List Level → Prop}
    {c : SCfg σ τ} {p : Level} {s0 : List Level} (hM : SegOf F T M c (p :: s0)) (hi : ∀ i x, c.inner ≠ .sub i x) {l : Line} {m : Str} (hs : SectSays W E me p l m) :
    SCfg.stepSays W me T scalled sstepSays c l = m := by
  obtain ⟨s, inner⟩ := c
  obtain ⟨own, hc, hm⟩ := hM
  cases inner with
  | own =>
    simp only [List.cons.injEq] at hm
    obtain ⟨rfl, rfl⟩ := hm
    exact own_says hF hc hs
  | skip n ns =>
    obtain ⟨us, hus, hunk, _, he⟩ := hm
    cases us with
    | nil => cases hus
    | cons u us =>
      simp only [List.cons_append, List.cons.injEq] at he
      obtain ⟨rfl, rfl⟩ := he
      obtain ⟨f, k, o⟩ := p
      have : f = .unknown := hunk _ (List.mem_cons_self ..)
      subst this
      exact unknown_says hs
  | sub i x => exact absurd rfl (hi i x)

/-- The texts of a decoder are those of the specification, for a relation between its states and the open blocks. -/
structure Tells (W : Words) (E : Env) (srun : Term → τ → List Line → Res (σ × List Line)) (srunSays : Term → τ → List Line → Option Str) (scalled : τ → Str)
    (sstepSays : τ → Line → Str) (M : τ → List Level → Prop) : Prop where
  step : ∀ {x : τ} {p : Level} {s0 : List Level} {l : Line} {m : Str}, M x (p :: s0) → Says W E p s0 l m → sstepSays x l = trail (p :: s0) ++ m
  last : ∀ {x : τ} {seg : List Level}, M x seg → ∃ a z, seg = a ++ [z] ∧ z.frame ≠ .unknown ∧ z.frame.title = scalled x
  fin : ∀ {x : τ} {p : Level} {s0 : List Level} {t : Term}, M x (p :: s0) → ¬ (p.frame = .alarm ∧ t = .done) →
    srun t x [] = .err t.err ∧ srunSays t x [] = some (trail (p :: s0) ++ endSays W p s0 t.err)

theorem Spec.Frame.IsSection.ne_unknown {F : Frame} (h : F.IsSection) : F ≠ .unknown := by
  rintro rfl
  exact h

theorem endSays_section {W : Words} {p : Level} {st : List Level} {e : Err} (h : p.frame ≠ .alarm) : endSays W p st e = saysType (home (p :: st)).title (e.text W) := by
  unfold endSays saysType
  split
  · next h' => exact absurd h' h
  · rfl

theorem endSays_congr {W : Words} {p : Level} {st st' : List Level} {e : Err} (h : home (p :: st) = home (p :: st')) : endSays W p st e = endSays W p st' e := by
  unfold endSays
  rw [h]

theorem section_tells {W : Words} {E : Env} {F : Frame} {T : Tab κ} (hF : FrameOf F T) {me : Str} (hme : F.title = me) {sub : Term → κ → List Line → Res (σ × List Line)} {called : κ → Str}
    {below : Term → κ → List Line → Option Str} {srun : Term → τ → List Line → Res (σ × List Line)} {scalled : τ → Str} {srunSays : Term → τ → List Line → Option Str}
    {sstepSays : τ → Line → Str} {M : Str → τ → List Level → Prop} (hsub : ∀ n, n ∈ T.subs.map (·.1) → Tells W E srun srunSays scalled sstepSays (M n)) :
    Tells W E (SCfg.run E T sub srun) (SCfg.runSays W E me T sub called below srun scalled srunSays) (fun _ => me) (SCfg.stepSays W me T scalled sstepSays) (SegOf F T M) := by
  subst hme
  have hun := hF.isSection.ne_unknown
  refine ⟨?_, ?_, ?_⟩
  · rintro ⟨s, inner⟩ p s0 l m hM hs
    by_cases hi : ∀ i x, inner ≠ .sub i x
    · have hp : p.frame ≠ .alarm ∧ trail (p :: s0) = [] ∧ home (p :: s0) = F := by
        obtain ⟨own, _, hm⟩ := hM
        cases inner with
        | own =>
          simp only [List.cons.injEq] at hm
          obtain ⟨rfl, rfl⟩ := hm
          exact ⟨hF.ne_alarm, rfl, home_unknown (us := []) (b := ⟨F, T.name, own⟩) (by simp) hun []⟩
        | skip n ns =>
          obtain ⟨us, hus, hunk, _, he⟩ := hm
          rw [he]
          refine ⟨?_, trail_unknown hunk, home_unknown hunk hun []⟩
          cases us with
          | nil => cases hus
          | cons u us =>
            simp only [List.cons_append, List.cons.injEq] at he
            rw [he.1, hunk u (List.mem_cons_self ..)]
            simp
        | sub i x => exact absurd rfl (hi i x)
      rw [hp.2.1, List.nil_append]
      cases hs with
      | sect _ hs =>
        rw [hp.2.2] at hs
        exact section_says hF hM hi hs
      | block h => exact absurd h hp.1
      | twoActions h => exact absurd h hp.1
      | noAction h => exact absurd h hp.1
      | alarm h => exact absurd h hp.1
      | unclosed h => exact absurd h hp.1
    · cases inner with
      | own => exact absurd (fun i x h => by cases h) hi
      | skip n ns => exact absurd (fun i x h => by cases h) hi
      | sub i x =>
        obtain ⟨own, _, n, k, sg, hk, hm, he⟩ := hM
        have ht := hsub n (List.mem_map.2 ⟨_, List.mem_of_getElem? hk, rfl⟩)
        obtain ⟨a, z, rfl, hz, hzt⟩ := ht.last hm
        rw [he, trail_last hz]
        simp only [SCfg.stepSays]
        cases hsg : a ++ [z] with
        | nil => simp at hsg
        | cons q r =>
          rw [hsg] at he hm
          simp only [List.cons_append, List.cons.injEq] at he
          obtain ⟨rfl, rfl⟩ := he
          have hh : home (p :: (r ++ [⟨F, T.name, own⟩])) = home (p :: r) := by
            have := home_append (a := a) hz [⟨F, T.name, own⟩]
            rw [hsg] at this
            exact this
          rw [ht.step hm (hs.congr hh)]
          unfold saysProp
          rw [hzt]
          simp only [List.append_assoc]
  · rintro ⟨s, inner⟩ seg ⟨own, _, hm⟩
    cases inner with
    | own => exact ⟨[], _, hm, hun, rfl⟩
    | skip n ns =>
      obtain ⟨us, _, _, _, he⟩ := hm
      exact ⟨us, _, he, hun, rfl⟩
    | sub i x =>
      obtain ⟨n, k, sg, hk, hm, he⟩ := hm
      exact ⟨sg, _, he, hun, rfl⟩
  · rintro ⟨s, inner⟩ p s0 t ⟨own, _, hm⟩ hna
    cases inner with
    | own =>
      simp only [List.cons.injEq] at hm
      obtain ⟨rfl, rfl⟩ := hm
      refine ⟨rfl, ?_⟩
      rw [endSays_section hF.ne_alarm, show home [⟨F, T.name, own⟩] = F from home_unknown (us := []) (b := ⟨F, T.name, own⟩) (by simp) hun []]
      rfl
    | skip n ns =>
      obtain ⟨us, hus, hunk, _, he⟩ := hm
      refine ⟨rfl, ?_⟩
      rw [endSays_section, he, trail_unknown hunk, home_unknown hunk hun []]
      · rfl
      · cases us with
        | nil => cases hus
        | cons u us =>
          simp only [List.cons_append, List.cons.injEq] at he
          rw [he.1, hunk u (List.mem_cons_self ..)]
          simp
    | sub i x =>
      obtain ⟨n, k, sg, hk, hm, he⟩ := hm
      have ht := hsub n (List.mem_map.2 ⟨_, List.mem_of_getElem? hk, rfl⟩)
      obtain ⟨a, z, rfl, hz, hzt⟩ := ht.last hm
      rw [he, trail_last hz]
      cases hsg : a ++ [z] with
      | nil => simp at hsg
      | cons q r =>
        rw [hsg] at he hm
        simp only [List.cons_append, List.cons.injEq] at he
        obtain ⟨rfl, rfl⟩ := he
        have hh : home (p :: (r ++ [⟨F, T.name, own⟩])) = home (p :: r) := by
          have := home_append (a := a) hz [⟨F, T.name, own⟩]
          rw [hsg] at this
          exact this
        obtain ⟨h1, h2⟩ := ht.fin hm hna
        simp only [SCfg.run, SCfg.runSays, h1, h2]
        refine ⟨rfl, ?_⟩
        rw [endSays_congr hh, hzt]
        simp only [Option.map_some, saysProp, List.append_assoc]

/-- Reading lines without a fault. -/
theorem StepsSay.sails {F : Level → Line → Option Err → Prop} {srunSays : Term → τ → List Line → Option Str} {sstep : τ → Line → Res (τ ⊕ σ)} {sstepSays : τ → Line → Str} {n : Str}
    {M : τ → List Level → Prop} (hst : StepsSay srunSays sstep sstepSays) (hs : Tracks F sstep n M) {seg seg' : List Level} {ls : List Line} (h : Sails F seg ls seg') :
    ∀ x, M x seg → ∃ y, M y seg' ∧ ∀ t r, srunSays t x (ls ++ r) = srunSays t y r := by
  induction h with
  | nil _ => exact fun x hx => ⟨x, hx, fun _ _ => rfl⟩
  | cons hf hsl ih =>
    next p st st' l ls =>
    intro x hx
    obtain ⟨q, s0, he, hj, h1, h2⟩ := hs.step l hx
    simp only [List.cons.injEq] at he
    obtain ⟨rfl, rfl⟩ := he
    cases hr : sstep x l with
    | ok y =>
      cases y with
      | inl y =>
        obtain ⟨seg1, hM1, hadv⟩ := h1 y hr
        have hadv : advance p st l = seg1 := by simpa using hadv []
        obtain ⟨z, hz, hrun⟩ := ih y (hadv ▸ hM1)
        refine ⟨z, hz, fun t r => ?_⟩
        rw [List.cons_append, hst t x l, hr]
        exact hrun t r
      | inr v =>
        have hadv : advance p st l = [] := by simpa [close] using h2 v hr []
        exact absurd hadv (sails_ne hsl).1
    | err e =>
      rw [hr] at hj
      exact absurd ((hj _).2 rfl) (hf _)
    | panic =>
      rw [hr] at hj
      exact absurd ((hj _).2 rfl) (hf _)

/-- The line at fault behind them. -/
theorem StepsSay.fault {F : Level → Line → Option Err → Prop} {srunSays : Term → τ → List Line → Option Str} {sstep : τ → Line → Res (τ ⊕ σ)} {sstepSays : τ → Line → Str} {n : Str}
    {M : τ → List Level → Prop} (hst : StepsSay srunSays sstep sstepSays) (hs : Tracks F sstep n M) {x : τ} {p : Level} {s0 : List Level} (hM : M x (p :: s0)) {l : Line} {e : Err}
    (hf : F p l (some e)) (t : Term) (r : List Line) : srunSays t x (l :: r) = some (sstepSays x l) := by
  obtain ⟨q, s1, he, hj, _⟩ := hs.step l hM
  simp only [List.cons.injEq] at he
  obtain ⟨rfl, rfl⟩ := he
  rw [hst t x l r]
  cases hr : sstep x l with
  | ok y =>
    rw [hr] at hj
    exact absurd hf (hj _)
  | err e => rfl
  | panic =>
    rw [hr] at hj
    have := (hj _).1 hf
    cases this

theorem Spec.SectSays.fault {W : Words} {E : Env} {me : Str} {p : Level} {l : Line} {m : Str} (h : SectSays W E me p l m) : ∃ e, SectFault E p l (some e) := by
  cases h with
  | again h1 h2 h3 h4 => exact ⟨_, .again h1 h2 h3 h4⟩
  | value h1 h2 h3 h4 => exact ⟨_, .value h1 h2 h3 h4⟩
  | ending _ h => exact ⟨_, h⟩

theorem Spec.Says.fault {W : Words} {E : Env} {p : Level} {st : List Level} {l : Line} {m : Str} (h : Says W E p st l m) : ∃ e, Fault E p l (some e) := by
  cases h with
  | sect h1 h2 =>
    obtain ⟨e, he⟩ := h2.fault
    exact ⟨e, .sect h1 he⟩
  | block h1 h2 => exact ⟨_, .block h1 h2⟩
  | twoActions h1 h2 h3 => exact ⟨_, .twoActions h1 h2 h3⟩
  | noAction h1 h2 h3 => exact ⟨_, .noAction h1 h2 h3⟩
  | alarm h1 h2 h3 h4 h5 h6 =>
    obtain ⟨e, he⟩ := h6.fault
    exact ⟨e, .alarm h1 h2 h3 h4 h5 he⟩
  | unclosed h1 h2 h3 h4 => exact ⟨_, .unclosed h1 h2 h3 h4⟩

/-- Every line at fault has a text. -/
theorem Spec.SectFault.says {E : Env} {p : Level} {l : Line} {e : Err} (h : SectFault E p l (some e)) (W : Words) (me : Str) : ∃ m, SectSays W E me p l m := by
  have h0 := h
  cases h with
  | again h1 h2 h3 h4 => exact ⟨_, .again h1 h2 h3 h4⟩
  | value h1 h2 h3 h4 => exact ⟨_, .value h1 h2 h3 h4⟩
  | wrongEnd _ he => exact ⟨_, .ending he h0⟩
  | wrongEndUnknown _ he => exact ⟨_, .ending he h0⟩
  | missing he => exact ⟨_, .ending he h0⟩
  | rule he => exact ⟨_, .ending he h0⟩

theorem Spec.Fault.says {E : Env} {p : Level} {l : Line} {e : Err} (h : Fault E p l (some e)) (W : Words) (st : List Level) : ∃ m, Says W E p st l m := by
  cases h with
  | sect h1 h2 =>
    obtain ⟨m, hm⟩ := h2.says W (home (p :: st)).title
    exact ⟨m, .sect h1 hm⟩
  | block h1 h2 => exact ⟨_, .block h1 h2⟩
  | twoActions h1 h2 h3 => exact ⟨_, .twoActions h1 h2 h3⟩
  | noAction h1 h2 h3 => exact ⟨_, .noAction h1 h2 h3⟩
  | alarm h1 h2 h3 h4 h5 h6 =>
    next a _ _ _ _ _ =>
    obtain ⟨m, hm⟩ := h6.says W a.goName
    exact ⟨m, .alarm h1 h2 h3 h4 h5 hm⟩
  | unclosed h1 h2 h3 h4 => exact ⟨_, .unclosed h1 h2 h3 h4⟩

/-! ## Alarms, components and the calendar -/

theorem leaf_says {W : Words} {E : Env} {me : Str} {T : Tab Empty} (hF : FrameOf (.leaf T) T) {c : LCfg} {p : Level} {s0 : List Level} (hM : SegOf (.leaf T) T noMatch c (p :: s0)) {l : Line}
    {m : Str} (hs : SectSays W E me p l m) : leafStepSays W me T c l = m :=
  section_says hF hM (fun _ x => nomatch x) hs

theorem alarmEnd_says {W : Words} {E : Env} {a : AKind} {k : List Line} :
    (∀ {pre m post q sq x}, k = pre ++ m :: post → Sails (SectFault E) (alarmStart a) pre (q :: sq) → SectSays W E a.goName q m x → alarmEndSays W E (some a) k = some x) ∧
    (∀ {st}, Sails (SectFault E) (alarmStart a) k st → alarmEndSays W E (some a) k = some (saysType a.goName c!"unexpected EOF")) := by
  have h0 : alarmStart a = [⟨.leaf a.tab, a.tab.name, []⟩] := by rw [(aTab_name a).1]; rfl
  have hsim := leaf_sim (E := E) (G := SectFault E) (fun _ _ _ _ => Iff.rfl) (alarm_frame a)
  rw [h0]
  constructor
  · rintro pre m post q sq x rfl hsl hs
    obtain ⟨y, hy, hrun⟩ := (leaf_stepsSay W E a.goName a.tab).sails hsim hsl _ (leaf_start a.tab)
    obtain ⟨e, he⟩ := hs.fault
    simp only [alarmEndSays]
    rw [leafSays_run, hrun, (leaf_stepsSay W E a.goName a.tab).fault hsim hy he, leaf_says (alarm_frame a) hy hs]
  · intro st hsl
    obtain ⟨y, hy, hrun⟩ := (leaf_stepsSay W E a.goName a.tab).sails hsim hsl _ (leaf_start a.tab)
    have := hrun (.error .unexpectedEOF) []
    rw [List.append_nil] at this
    simp only [alarmEndSays]
    rw [leafSays_run, this, leafRunSays_nil]
    rfl

theorem sub_tells (W : Words) (E : Env) (n : Str) : Tells W E (subRun E) (subRunSays W E) SubCfg.called (subStepSays W E) (SubOf n) := by
  have hleaf : ∀ {T : Tab Empty}, FrameOf (.leaf T) T → Tells W E (leafRun E T) (leafRunSays W E (goSect T.name) T) (fun _ => goSect T.name) (leafStepSays W (goSect T.name) T)
      (SegOf (.leaf T) T noMatch) := by
    intro T hF
    exact section_tells hF rfl fun _ _ => ⟨(fun {x} => nomatch x), (fun {x} => nomatch x), (fun {x} => nomatch x)⟩
  refine ⟨?_, ?_, ?_⟩
  · intro x p s0 l m hM hs
    cases x with
    | leaf T c =>
      obtain ⟨hF, _, hM⟩ := hM
      exact (hleaf hF).step hM hs
    | alarm a k =>
      obtain ⟨own, he, rfl, hk⟩ := hM
      simp only [List.cons.injEq] at he
      obtain ⟨rfl, rfl⟩ := he
      have htr : trail [⟨.alarm, n, own⟩] = [] := rfl
      rw [htr, List.nil_append]
      simp only [subStepSays]
      cases hs with
      | sect h => exact absurd rfl h
      | block _ h => rw [if_neg (by rw [h]; decide)]; rfl
      | twoActions _ h => rw [if_neg (by rw [h]; decide)]; rfl
      | noAction _ h hno =>
        rw [if_pos (show l.name = kEND from h)]
        cases a with
        | none => rfl
        | some a => exact absurd ((hk a).2 rfl) (hno a)
      | alarm _ h ha h1 h2 h3 =>
        rw [if_pos (show l.name = kEND from h), (hk _).1 ha, alarmEnd_says.1 h1 h2 h3]
        rfl
      | unclosed _ h ha h1 =>
        rw [if_pos (show l.name = kEND from h), (hk _).1 ha, alarmEnd_says.2 h1]
        simp only [Option.getD_some, saysType, List.append_assoc]
        rfl
  · intro x seg hM
    cases x with
    | leaf T c =>
      obtain ⟨hF, _, hM⟩ := hM
      exact (hleaf hF).last hM
    | alarm a k =>
      obtain ⟨own, he, rfl, hk⟩ := hM
      exact ⟨[], _, he, by simp, rfl⟩
  · intro x p s0 t hM hna
    cases x with
    | leaf T c =>
      obtain ⟨hF, _, hM⟩ := hM
      have := (hleaf hF).fin hM hna
      refine ⟨?_, this.2⟩
      simp only [subRun, this.1]
      rfl
    | alarm a k =>
      obtain ⟨own, he, rfl, hk⟩ := hM
      simp only [List.cons.injEq] at he
      obtain ⟨rfl, rfl⟩ := he
      cases t with
      | done => exact absurd ⟨rfl, rfl⟩ hna
      | error e => exact ⟨rfl, rfl⟩

theorem comp_tells (W : Words) (E : Env) (n : Str) : Tells W E (compRun E) (compRunSays W E) CompCfg.called (compStepSays W E) (CompOf n) := by
  have hsec : ∀ {T : Tab SubKind}, (n, T) ∈ tabCalendar.subs → Tells W E (SCfg.run E T (subDecode E) (subRun E))
      (SCfg.runSays W E (goSect T.name) T (subDecode E) SubKind.called (subSays W E) (subRun E) SubCfg.called (subRunSays W E)) (fun _ => goSect T.name)
      (SCfg.stepSays W (goSect T.name) T SubCfg.called (subStepSays W E)) (SegOf (.comp T) T SubOf) :=
    fun hT => section_tells (comp_frame hT) rfl fun n _ => sub_tells W E n
  exact ⟨fun hM hs => (hsec hM.1).step hM.2 hs, fun hM => (hsec hM.1).last hM.2, fun hM hna => (hsec hM.1).fin hM.2 hna⟩

theorem cal_tells (W : Words) (E : Env) : Tells W E (calRun E) (calRunSays W E) (fun _ => goSect tabCalendar.name) (calStepSays W E) CalOf :=
  section_tells cal_frame rfl fun n _ => comp_tells W E n

/-! ## Documents -/

theorem streamSays_fault {W : Words} {E : Env} {pre : List Line} {l : Line} {r : List Line} {p : Level} {st : List Level} (h : Midway E pre (p :: st)) {m : Str} (hs : Says W E p st l m)
    (t : Term) : streamSays W E ⟨pre ++ l :: r, t⟩ = some (trail (p :: st) ++ m) := by
  obtain ⟨b, k, rfl, hb, hsl⟩ := h
  obtain ⟨y, hy, hrun⟩ := (cal_stepsSay W E).sails (cal_sim E) hsl _ cal_start
  obtain ⟨e, he⟩ := hs.fault
  rw [List.cons_append, streamSays_run W E t b _ hb, hrun, (cal_stepsSay W E).fault (cal_sim E) hy he, (cal_tells W E).step hy hs]

theorem streamSays_reading {W : Words} {E : Env} {ls : List Line} {p : Level} {st : List Level} (h : Midway E ls (p :: st)) {t : Term} (hna : ¬ (p.frame = .alarm ∧ t = .done)) :
    streamSays W E ⟨ls, t⟩ = some (trail (p :: st) ++ endSays W p st t.err) := by
  obtain ⟨b, k, rfl, hb, hsl⟩ := h
  obtain ⟨y, hy, hrun⟩ := (cal_stepsSay W E).sails (cal_sim E) hsl _ cal_start
  have := hrun t []
  rw [List.append_nil] at this
  rw [streamSays_run W E t b _ hb, this, ((cal_tells W E).fin hy hna).2]

theorem streamSays_closed {W : Words} {E : Env} {l : Line} {r : List Line} {t : Term} (h : ¬ Opening l) : streamSays W E ⟨l :: r, t⟩ = some c!"invalid calendar" := by
  unfold streamSays
  simp only
  rw [if_neg (show ¬ (upper l.name = kBEGIN ∧ upper l.value = tabCalendar.name) from h)]
  rfl

/-- Exactly what is said. -/
theorem streamSays_iff {W : Words} {E : Env} {s : Stream} {m : Str} : streamSays W E s = some m ↔
    (s.lines = [] ∧ m = s.term.err.text W) ∨ (∃ l r, s.lines = l :: r ∧ ¬ Opening l ∧ m = c!"invalid calendar") ∨
    (∃ p st, Midway E s.lines (p :: st) ∧ (p.frame = .alarm → s.term ≠ .done) ∧ m = trail (p :: st) ++ endSays W p st s.term.err) ∨
    (∃ pre l r p st x, s.lines = pre ++ l :: r ∧ Midway E pre (p :: st) ∧ Says W E p st l x ∧ m = trail (p :: st) ++ x) := by
  obtain ⟨ls, t⟩ := s
  simp only
  constructor
  · intro h
    have ha := stream_agree W E ⟨ls, t⟩
    rw [h] at ha
    cases hr : decodeStream E ⟨ls, t⟩ with
    | ok c => rw [hr] at ha; cases ha
    | panic => rw [hr] at ha; cases ha
    | err e =>
      rcases decodeStream_err_iff.1 hr with ⟨h1, h2⟩ | ⟨l, r, h1, h2, h3⟩ | ⟨p, st, h1, h2, h3⟩ | ⟨pre, l, r, p, st, h1, h2, h3⟩
      · dsimp only at h1
        subst h1
        cases h
        exact Or.inl ⟨rfl, rfl⟩
      · dsimp only at h1
        subst h1
        rw [streamSays_closed h2] at h
        cases h
        exact Or.inr (Or.inl ⟨_, _, rfl, h2, rfl⟩)
      · dsimp only at h1 h3
        rw [streamSays_reading h1 (fun hh => h3 hh.1 hh.2)] at h
        cases h
        exact Or.inr (Or.inr (Or.inl ⟨p, st, h1, h3, rfl⟩))
      · dsimp only at h1
        subst h1
        obtain ⟨x, hx⟩ := h3.says W st
        rw [streamSays_fault h2 hx] at h
        cases h
        exact Or.inr (Or.inr (Or.inr ⟨_, _, _, _, _, x, rfl, h2, hx, rfl⟩))
  · rintro (⟨rfl, rfl⟩ | ⟨l, r, rfl, h, rfl⟩ | ⟨p, st, h, hna, rfl⟩ | ⟨pre, l, r, p, st, x, rfl, h, hx, rfl⟩)
    · rfl
    · exact streamSays_closed h
    · exact streamSays_reading h fun hh => hna hh.1 hh.2
    · exact streamSays_fault h hx t

end Ics
