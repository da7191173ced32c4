import Verif.StructureLemmas
import Verif.EarlyLemmas
/-!
# Lemmas: Decode one line at a time

The decoders are functions of all lines.  Here is the same, one line at a time: a state, and a step for each line.  That they are the same is `decodeStream_steps`.
-/

namespace Ics

open Spec

variable {κ σ τ : Type}

/-! ## Sections -/

/-- What a section is in the middle of: nothing, unknown components (the names of the innermost and of those around it), or the component `x` that will be its
subsection with number `i`.
Not in /repo: the loops of sections.go and sections_alarm.go one line at a time (see above). Where sections.go:42-93, 247-258, 4176-4198 are. -/
inductive Inner (τ : Type) where
  | own
  | skip (n : Str) (ns : List Str)
  | sub (i : Nat) (x : τ)

/-- A section that is being read.  Not in /repo: the loops of sections.go and sections_alarm.go one line at a time (see above). Local state of e.g. sections.go:25-122. -/
structure SCfg (σ τ : Type) where
  s : Sect σ
  inner : Inner τ

/-- The names around the innermost unknown component.
Not in /repo: the loops of sections.go and sections_alarm.go one line at a time (see above). The call of `decodeDummy` that sections.go:4192 returns to. -/
def Inner.outer : List Str → Inner τ
  | [] => .own
  | n :: ns => .skip n ns

/-- One line of a section.  Not in /repo: the loops of sections.go and sections_alarm.go one line at a time (see above). sections.go:40-110 and its like, 4185-4196. -/
def SCfg.step (E : Env) (T : Tab κ) (init : κ → τ) (sstep : τ → Line → Res (τ ⊕ σ)) (c : SCfg σ τ) (l : Line) : Res (SCfg σ τ ⊕ Sect σ) :=
  match c.inner with
  | .own =>
    match T.kindOf l with
    | .sub i k => .ok (.inl ⟨c.s, .sub i (init k)⟩)
    | .unk => .ok (.inl ⟨c.s, .skip (upper l.value) []⟩)
    | .prop i f => c.s.addProp E i f l >>= fun s => .ok (.inl ⟨s, .own⟩)
    | .fin => if l.value = T.name then T.finish c.s >>= fun _ => .ok (.inr c.s) else .err .invalidEnd
    | .other => .ok (.inl c)
  | .skip n ns =>
    if upper l.name = kBEGIN then .ok (.inl ⟨c.s, .skip l.value (n :: ns)⟩)
    else if upper l.name = kEND then
      if upper l.value = n then .ok (.inl ⟨c.s, .outer ns⟩) else .err .invalidEnd
    else .ok (.inl c)
  | .sub i x => sstep x l >>= fun
    | .inl y => .ok (.inl ⟨c.s, .sub i y⟩)
    | .inr v => .ok (.inl ⟨c.s.addSub i v, .own⟩)

/-- The rest of unknown components.
Not in /repo: the loops of sections.go and sections_alarm.go one line at a time (see above). sections.go:4176-4198, for the calls that have not returned. -/
def skips (t : Term) : List Str → List Line → Res (List Line)
  | [], ls => .ok ls
  | n :: ns, ls => skip t n ls >>= skips t ns

/-- The rest of a section.
Not in /repo: the loops of sections.go and sections_alarm.go one line at a time (see above). sections.go:25-122 and its like, from some round on. -/
def SCfg.run (E : Env) (T : Tab κ) (sub : Term → κ → List Line → Res (σ × List Line)) (srun : Term → τ → List Line → Res (σ × List Line)) (t : Term) (c : SCfg σ τ)
    (ls : List Line) : Res (Sect σ × List Line) :=
  let go (s : Sect σ) (ls : List Line) : Res (Sect σ × List Line) := Sect.run E T (sub t) t s ls >>= fun x => T.finish x.1 >>= fun _ => .ok x
  match c.inner with
  | .own => go c.s ls
  | .skip n ns => skips t (n :: ns) ls >>= go c.s
  | .sub i x => srun t x ls >>= fun y => go (c.s.addSub i y.1) y.2

/-- The step is a step of this decoder.  Not in /repo: the loops of sections.go and sections_alarm.go one line at a time (see above). -/
def Steps (srun : Term → τ → List Line → Res (σ × List Line)) (sstep : τ → Line → Res (τ ⊕ σ)) : Prop :=
  ∀ t x l r, srun t x (l :: r) = sstep x l >>= fun
    | .inl y => srun t y r
    | .inr v => .ok (v, r)

theorem SCfg.run_cons {E : Env} {T : Tab κ} {sub : Term → κ → List Line → Res (σ × List Line)} {srun : Term → τ → List Line → Res (σ × List Line)}
    {init : κ → τ} {sstep : τ → Line → Res (τ ⊕ σ)} (hs : ∀ t, Suffix (sub t)) (hi : ∀ t k ls, sub t k ls = srun t (init k) ls) (hst : Steps srun sstep) :
    Steps (SCfg.run E T sub srun) (SCfg.step E T init sstep) := by
  rintro t ⟨s, inner⟩ l r
  cases inner with
  | own =>
    simp only [SCfg.run, SCfg.step, Sect.run_cons (hs t)]
    cases hk : T.kindOf l with
    | sub i k =>
      simp only [hi, Res.ok_bind]
      cases srun t (init k) r <;> rfl
    | unk =>
      simp only [Res.ok_bind, skips]
      cases skip t (upper l.value) r <;> rfl
    | prop i f =>
      simp only
      cases s.addProp E i f l <;> rfl
    | fin =>
      simp only
      by_cases hv : l.value = T.name
      · rw [if_pos hv, if_pos hv]
        simp only [Res.ok_bind]
        cases T.finish s <;> rfl
      · rw [if_neg hv, if_neg hv]
        rfl
    | other => rfl
  | skip n ns =>
    simp only [SCfg.run, SCfg.step, skips, skip_cons]
    by_cases hb : upper l.name = kBEGIN
    · rw [if_pos hb, if_pos hb]
      simp only [Res.ok_bind]
      cases skip t l.value r <;> rfl
    · rw [if_neg hb, if_neg hb]
      by_cases he : upper l.name = kEND
      · rw [if_pos he, if_pos he]
        by_cases hv : upper l.value = n
        · rw [if_pos hv, if_pos hv]
          cases ns with
          | nil => rfl
          | cons m ms => rfl
        · rw [if_neg hv, if_neg hv]
          rfl
      · rw [if_neg he, if_neg he]
        rfl
  | sub i x =>
    simp only [SCfg.run, SCfg.step, hst t x l r]
    cases sstep x l with
    | ok y => cases y <;> rfl
    | err e => rfl
    | panic => rfl

theorem skips_nil (t : Term) (n : Str) (ns : List Str) : skips t (n :: ns) [] = .err t.err := rfl

/-- What happens at the end of the lines. -/
theorem SCfg.run_nil {E : Env} {T : Tab κ} {sub : Term → κ → List Line → Res (σ × List Line)} {srun : Term → τ → List Line → Res (σ × List Line)} {t : Term} {s : Sect σ}
    {inner : Inner τ} : SCfg.run E T sub srun t ⟨s, inner⟩ [] = match inner with
      | .sub i x => srun t x [] >>= fun y => SCfg.run E T sub srun t ⟨s.addSub i y.1, .own⟩ y.2
      | _ => .err t.err := by
  cases inner <;> rfl

theorem SCfg.run_start {E : Env} {T : Tab κ} {sub : Term → κ → List Line → Res (σ × List Line)} {srun : Term → τ → List Line → Res (σ × List Line)} {t : Term} {ls : List Line} :
    SCfg.run E T sub srun t ⟨T.start σ, .own⟩ ls = T.decode E (sub t) t ls := rfl

/-! ## Sections without subsections -/

/-- Not in /repo: the loops of sections.go and sections_alarm.go one line at a time (see above). There are no subsections. -/
def noStep (x : Empty) (_ : Line) : Res (Empty ⊕ Empty) := nomatch x
/-- Not in /repo: the loops of sections.go and sections_alarm.go one line at a time (see above). There are no subsections. -/
def noRun (_ : Term) (x : Empty) (_ : List Line) : Res (Empty × List Line) := nomatch x
/-- Not in /repo: the loops of sections.go and sections_alarm.go one line at a time (see above). There are no subsections. -/
def noInit (x : Empty) : Empty := x

/-- Not in /repo: the loops of sections.go and sections_alarm.go one line at a time (see above). A section without subsections (sections.go:2507, 2686, 2871). -/
abbrev LCfg := SCfg Empty Empty

/-- Not in /repo: the loops of sections.go and sections_alarm.go one line at a time (see above). sections.go:2507-2608, 2686-2787, 2871-3034. -/
def leafStep (E : Env) (T : Tab Empty) : LCfg → Line → Res (LCfg ⊕ Leaf) := SCfg.step E T noInit noStep
/-- Not in /repo: the loops of sections.go and sections_alarm.go one line at a time (see above). sections.go:2507-2608, 2686-2787, 2871-3034, from some round on. -/
def leafRun (E : Env) (T : Tab Empty) : Term → LCfg → List Line → Res (Leaf × List Line) := SCfg.run E T (fun _ => noSub) noRun

theorem leaf_steps (E : Env) (T : Tab Empty) : Steps (leafRun E T) (leafStep E T) :=
  SCfg.run_cons (fun _ => noSub_suffix) (fun _ k => nomatch k) (fun _ x => nomatch x)

/-! ## Subsections of components -/

/-- A subsection that is being read; of an alarm the kind, if known, and the lines.
Not in /repo: the loops of sections.go and sections_alarm.go one line at a time (see above). `pt` and `a.AlarmType` (sections_alarm.go:38-39). -/
inductive SubCfg where
  | leaf (T : Tab Empty) (c : LCfg)
  | alarm (a : Option AKind) (k : List Line)

/-- Not in /repo: the loops of sections.go and sections_alarm.go one line at a time (see above). The state on entry (sections_alarm.go:38-39, sections.go:2507-2508, 2686-2687). -/
def subInit : SubKind → SubCfg
  | .leaf T => .leaf T ⟨T.start Empty, .own⟩
  | .alarm => .alarm none []

/-- The end of an alarm.  Not in /repo: the loops of sections.go and sections_alarm.go one line at a time (see above). sections_alarm.go:75-79. -/
def alarmEnd (E : Env) (a : Option AKind) (k : List Line) : Res Sub :=
  match a with
  | none => .err .missingAlarmAction
  | some a => a.tab.decode E noSub (.error .unexpectedEOF) k >>= fun x => .ok (.alarm (some (a, x.1)))

/-- Not in /repo: the loops of sections.go and sections_alarm.go one line at a time (see above). sections_alarm.go:43-73, sections.go:2510-2600, 2689-2779. -/
def subStep (E : Env) : SubCfg → Line → Res (SubCfg ⊕ Sub)
  | .leaf T c, l => leafStep E T c l >>= fun
    | .inl c => .ok (.inl (.leaf T c))
    | .inr s => .ok (.inr (.leaf s))
  | .alarm a k, l =>
    if l.name = kBEGIN then .err .invalidStructure
    else if l.name = kACTION then
      if a.isSome then .err .invalidStructure else .ok (.inl (.alarm (AKind.ofAction l.value) (k ++ [l])))
    else if l.name = kEND then alarmEnd E a (k ++ [l]) >>= fun s => .ok (.inr s)
    else .ok (.inl (.alarm a (k ++ [l])))

/-- Not in /repo: the loops of sections.go and sections_alarm.go one line at a time (see above). sections_alarm.go:38-80, sections.go:2507-2608, 2686-2787, from some round on. -/
def subRun (E : Env) (t : Term) : SubCfg → List Line → Res (Sub × List Line)
  | .leaf T c, ls => leafRun E T t c ls >>= fun x => .ok (.leaf x.1, x.2)
  | .alarm a k, ls => alarmCollect t a ls >>= fun x => alarmEnd E x.1 (k ++ x.2.1) >>= fun s => .ok (s, x.2.2)

theorem sub_steps (E : Env) : Steps (subRun E) (subStep E) := by
  intro t x l r
  cases x with
  | leaf T c =>
    simp only [subRun, subStep, leaf_steps E T t c l r]
    cases leafStep E T c l with
    | ok y => cases y <;> rfl
    | err e => rfl
    | panic => rfl
  | alarm a k =>
    simp only [subRun, subStep, alarmCollect]
    by_cases hb : l.name = kBEGIN
    · rw [if_pos hb, if_pos hb]; rfl
    rw [if_neg hb, if_neg hb]
    by_cases ha : l.name = kACTION
    · rw [if_pos ha, if_pos ha]
      by_cases hn : a.isSome = true
      · rw [if_pos hn, if_pos hn]; rfl
      · rw [if_neg hn, if_neg hn]
        simp only [Res.ok_bind]
        cases alarmCollect t (AKind.ofAction l.value) r with
        | ok y => simp [Res.ok_bind]
        | err e => rfl
        | panic => rfl
    rw [if_neg ha, if_neg ha]
    by_cases he : l.name = kEND
    · rw [if_pos he, if_pos he]
      simp only [Res.ok_bind]
      cases alarmEnd E a (k ++ [l]) <;> rfl
    · rw [if_neg he, if_neg he]
      simp only [Res.ok_bind]
      cases alarmCollect t a r with
      | ok y => simp [Res.ok_bind]
      | err e => rfl
      | panic => rfl

theorem subInit_run (E : Env) (t : Term) (k : SubKind) (ls : List Line) : subDecode E t k ls = subRun E t (subInit k) ls := by
  cases k with
  | leaf T => rfl
  | alarm =>
    simp only [subDecode, alarmDecode, subRun, subInit, List.nil_append]
    cases alarmCollect t none ls with
    | ok x =>
      obtain ⟨a, pt, r⟩ := x
      simp only [Res.ok_bind, alarmEnd]
      cases a with
      | none => rfl
      | some a =>
        simp only
        cases a.tab.decode E noSub (.error .unexpectedEOF) pt <;> rfl
    | err e => rfl
    | panic => rfl

/-! ## Components -/

/-- Not in /repo: the loops of sections.go and sections_alarm.go one line at a time (see above). sections.go:229, 905, 1578, 2092, 2352. -/
abbrev CCfg := SCfg Sub SubCfg

/-- A component that is being read.
Not in /repo: the loops of sections.go and sections_alarm.go one line at a time (see above). sections.go:229, 905, 1578, 2092, 2352. -/
structure CompCfg where
  T : Tab SubKind
  c : CCfg

/-- Not in /repo: the loops of sections.go and sections_alarm.go one line at a time (see above). The state on entry (sections.go:229-230). -/
def compInit (T : Tab SubKind) : CompCfg := ⟨T, ⟨T.start Sub, .own⟩⟩

/-- Not in /repo: the loops of sections.go and sections_alarm.go one line at a time (see above). sections.go:232-546 and its like. -/
def compStep (E : Env) (x : CompCfg) (l : Line) : Res (CompCfg ⊕ Comp) :=
  SCfg.step E x.T subInit (subStep E) x.c l >>= fun
    | .inl c => .ok (.inl ⟨x.T, c⟩)
    | .inr s => .ok (.inr s)

/-- Not in /repo: the loops of sections.go and sections_alarm.go one line at a time (see above). sections.go:229-558 and its like, from some round on. -/
def compRun (E : Env) (t : Term) (x : CompCfg) : List Line → Res (Comp × List Line) := SCfg.run E x.T (subDecode E) (subRun E) t x.c

theorem comp_steps (E : Env) : Steps (compRun E) (compStep E) := by
  rintro t ⟨T, c⟩ l r
  have := SCfg.run_cons (E := E) (T := T) (subDecode_suffix E) (subInit_run E) (sub_steps E) t c l r
  simp only [compRun, compStep, this]
  cases SCfg.step E T subInit (subStep E) c l with
  | ok y => cases y <;> rfl
  | err e => rfl
  | panic => rfl

theorem compInit_run (E : Env) (t : Term) (T : Tab SubKind) (ls : List Line) : compDecode E t T ls = compRun E t (compInit T) ls := rfl

/-! ## The calendar -/

/-- Not in /repo: the loops of sections.go and sections_alarm.go one line at a time (see above). sections.go:25. -/
abbrev CalCfg := SCfg Comp CompCfg

/-- Not in /repo: the loops of sections.go and sections_alarm.go one line at a time (see above). sections.go:28-110. -/
def calStep (E : Env) : CalCfg → Line → Res (CalCfg ⊕ Cal) := SCfg.step E tabCalendar compInit (compStep E)
/-- Not in /repo: the loops of sections.go and sections_alarm.go one line at a time (see above). sections.go:25-122, from some round on. -/
def calRun (E : Env) : Term → CalCfg → List Line → Res (Cal × List Line) := SCfg.run E tabCalendar (compDecode E) (compRun E)

theorem cal_steps (E : Env) : Steps (calRun E) (calStep E) :=
  SCfg.run_cons (compDecode_suffix E) (compInit_run E) (comp_steps E)

/-- Not in /repo: the loops of sections.go and sections_alarm.go one line at a time (see above). The state on entry (sections.go:25-26). -/
def calInit : CalCfg := ⟨tabCalendar.start Comp, .own⟩

/-- The state after some lines, or the calendar and the lines that are left.
Not in /repo: the loops of sections.go and sections_alarm.go one line at a time (see above). sections.go:28-110. -/
def calSteps (E : Env) : CalCfg → List Line → Res (CalCfg ⊕ (Cal × List Line))
  | c, [] => .ok (.inl c)
  | c, l :: r => calStep E c l >>= fun
    | .inl c => calSteps E c r
    | .inr s => .ok (.inr (s, r))

theorem calRun_steps (E : Env) (t : Term) : ∀ (ls : List Line) (c : CalCfg), calRun E t c ls = calSteps E c ls >>= fun
    | .inl c => calRun E t c []
    | .inr x => .ok x := by
  intro ls
  induction ls with
  | nil => intro c; rfl
  | cons l r ih =>
    intro c
    rw [cal_steps E t c l r]
    unfold calSteps
    cases calStep E c l with
    | ok y =>
      cases y with
      | inl c => exact ih c
      | inr s => rfl
    | err e => rfl
    | panic => rfl

/-- In the middle of an alarm.  Not in /repo: the loops of sections.go and sections_alarm.go one line at a time (see above). sections_alarm.go:41-74. -/
def CalCfg.inAlarm (c : CalCfg) : Bool :=
  match c.inner with
  | .sub _ x => match x.c.inner with
    | .sub _ (.alarm _ _) => true
    | _ => false
  | _ => false

theorem leafRun_nil {E : Env} {T : Tab Empty} {t : Term} {c : LCfg} : leafRun E T t c [] = .err t.err := by
  obtain ⟨s, inner⟩ := c
  unfold leafRun
  rw [SCfg.run_nil]
  cases inner with
  | own => rfl
  | skip n ns => rfl
  | sub i x => exact nomatch x

/-- The end of the lines: an error, or a panic inside an alarm. -/
theorem calRun_nil {E : Env} {t : Term} {c : CalCfg} : calRun E t c [] = if c.inAlarm = true ∧ t = .done then .panic else .err t.err := by
  obtain ⟨s, inner⟩ := c
  unfold calRun
  rw [SCfg.run_nil]
  cases inner with
  | own => rfl
  | skip n ns => rfl
  | sub i x =>
    obtain ⟨T, s2, inner2⟩ := x
    simp only [compRun]
    rw [SCfg.run_nil]
    cases inner2 with
    | own => rfl
    | skip n ns => rfl
    | sub j y =>
      cases y with
      | leaf T' c => simp only [subRun, leafRun_nil, CalCfg.inAlarm]; rfl
      | alarm a k =>
        simp only [subRun, CalCfg.inAlarm]
        cases t with
        | done => rfl
        | error e => rfl

/-- `Decode`, one line at a time. -/
theorem decodeStream_steps (E : Env) (t : Term) (l : Line) (r : List Line) : decodeStream E ⟨l :: r, t⟩ =
    if Begins l ∧ upper l.value = c!"VCALENDAR" then
      calSteps E calInit r >>= fun
        | .inl c => if c.inAlarm = true ∧ t = .done then .panic else .err t.err
        | .inr x => .ok x.1
    else .err .invalidCalendar := by
  unfold decodeStream
  simp only
  have h : tabCalendar.decode E (compDecode E t) t r = calRun E t calInit r := rfl
  by_cases hb : Begins l ∧ upper l.value = c!"VCALENDAR"
  · rw [if_pos hb, if_pos (show upper l.name = kBEGIN ∧ upper l.value = tabCalendar.name from hb), h, calRun_steps]
    cases calSteps E calInit r with
    | ok y =>
      cases y with
      | inl c =>
        simp only [Res.ok_bind, calRun_nil]
        split <;> rfl
      | inr x => rfl
    | err e => rfl
    | panic => rfl
  · rw [if_neg hb, if_neg (show ¬ (upper l.name = kBEGIN ∧ upper l.value = tabCalendar.name) from hb)]

end Ics
