import Verif.FaultLemmas
import Verif.Spec.Looked
/-!
# Lemmas: the lines that are read, on two machines
-/

namespace Ics

open Spec

variable {κ σ τ α : Type}

/-! ## Faults on two machines -/

/-- The line can be read as this property. -/
def LineDecodes (E : Env) (y : SField × Line) : Prop := ∃ v, y.1.spec.decode E y.2.params y.2.value = .ok v

theorem mem_sectLooked {p : Level} {l : Line} {y : SField × Line} : y ∈ sectLooked p l ↔ y.1 ∈ p.frame.fields ∧ y.1.key = upper l.name ∧ y.2 = l := by
  unfold sectLooked
  simp only [List.mem_map, List.mem_filter, decide_eq_true_eq]
  constructor
  · rintro ⟨f, ⟨h1, h2⟩, rfl⟩
    exact ⟨h1, h2, rfl⟩
  · rintro ⟨h1, h2, h3⟩
    exact ⟨y.1, ⟨h1, h2⟩, by rw [← h3]⟩

theorem mem_actKinds {own : List Item} {a : AKind} : a ∈ actKinds own ↔ Acts own a := by
  unfold actKinds Acts
  have hm : ∀ l, l ∈ ownLines own ↔ Item.line l ∈ own := by
    intro l
    unfold ownLines
    rw [List.mem_filterMap]
    constructor
    · rintro ⟨i, hi, e⟩
      cases i with
      | line m => cases e; exact hi
      | block => cases e
    · intro h
      exact ⟨_, h, rfl⟩
  rw [List.mem_filter]
  simp only [List.any_eq_true, Bool.and_eq_true, decide_eq_true_eq, hm]
  exact ⟨fun h => h.2, fun h => ⟨by cases a <;> simp, h⟩⟩

theorem sect_quiet {E E' : Env} {p : Level} {l : Line} (h : ∀ x, ¬ SectFault E p l x) :
    (∀ x, ¬ SectFault E' p l x) ↔ ∀ y ∈ sectLooked p l, LineDecodes E' y := by
  constructor
  · intro h' y hy
    obtain ⟨f, m⟩ := y
    obtain ⟨h1, h2, rfl⟩ := mem_sectLooked.1 hy
    dsimp only at h1 h2
    have hor : f.mult = .many ∨ ¬ HasLine p.own f.key := by
      by_cases hm : f.mult = .many
      · exact .inl hm
      · exact .inr fun hl => h _ (.again h1 h2 hm hl)
    unfold LineDecodes
    dsimp only
    cases hd : f.spec.decode E' m.params m.value with
    | ok v => exact ⟨v, rfl⟩
    | err e => exact absurd (SectFault.value h1 h2 hor hd) (h' _)
    | panic => exact absurd (SectFault.crash h1 h2 hor hd) (h' _)
  · intro hy x hx
    have hr : ∀ f, f ∈ p.frame.fields → f.key = upper l.name → ∃ v, f.spec.decode E' l.params l.value = .ok v := fun f h1 h2 => hy (f, l) (mem_sectLooked.2 ⟨h1, h2, rfl⟩)
    cases hx with
    | again h1 h2 h3 h4 => exact h _ (.again h1 h2 h3 h4)
    | value h1 h2 h3 h4 =>
      obtain ⟨v, hv⟩ := hr _ h1 h2
      rw [hv] at h4
      cases h4
    | crash h1 h2 h3 h4 =>
      obtain ⟨v, hv⟩ := hr _ h1 h2
      rw [hv] at h4
      cases h4
    | wrongEnd h1 h2 h3 => exact h _ (.wrongEnd h1 h2 h3)
    | wrongEndUnknown h1 h2 h3 => exact h _ (.wrongEndUnknown h1 h2 h3)
    | missing h1 h2 h3 h4 h5 => exact h _ (.missing h1 h2 h3 h4 h5)
    | rule h1 h2 h3 h4 h5 => exact h _ (.rule h1 h2 h3 h4 h5)

/-- Without faults, the lines that are gathered from some lines and those behind. -/
theorem gather_sails {F : Level → Line → Option Err → Prop} {H : Level → Line → List α} {st st' : List Level} {a : List Line} (h : Sails F st a st') (b : List Line) :
    gather H st (a ++ b) = gather H st a ++ gather H st' b := by
  induction h with
  | nil hn =>
    rename_i s
    cases s with
    | nil => exact absurd rfl hn
    | cons => simp [gather]
  | cons _ _ ih => simp [gather, ih]

section
variable {F F' : Level → Line → Option Err → Prop} {H : Level → Line → List (SField × Line)} {E' : Env}
  (hq : ∀ p l, (∀ x, ¬ F p l x) → ((∀ x, ¬ F' p l x) ↔ ∀ y ∈ H p l, LineDecodes E' y))
include hq

theorem sails_quiet {st st' : List Level} {ls : List Line} (h : Sails F st ls st') : Sails F' st ls st' ↔ ∀ y ∈ gather H st ls, LineDecodes E' y := by
  induction h with
  | nil hn =>
    rename_i s
    refine ⟨fun _ y hy => ?_, fun _ => .nil hn⟩
    cases s <;> cases hy
  | cons hf _ ih =>
    simp only [gather, List.mem_append]
    constructor
    · intro h y hy
      cases h with
      | cons h1 h2 =>
        rcases hy with hy | hy
        · exact (hq _ _ hf).1 h1 y hy
        · exact ih.1 h2 y hy
    · intro h
      exact .cons ((hq _ _ hf).2 fun y hy => h y (.inl hy)) (ih.2 fun y hy => h y (.inr hy))

omit hq in
/-- All lines are read on the second machine as well, or there is a first that is not. -/
theorem sails_or {st st' : List Level} {ls : List Line} (h : Sails F st ls st') :
    Sails F' st ls st' ∨ ∃ pre m post q sq, ls = pre ++ m :: post ∧ Sails F' st pre (q :: sq) ∧ ∃ x, F' q m x := by
  induction h with
  | nil hn => exact .inl (.nil hn)
  | @cons p st _ l ls hf _ ih =>
    by_cases hx : ∃ x, F' p l x
    · exact .inr ⟨[], l, ls, p, st, rfl, .nil (by simp), hx⟩
    · have hx : ∀ x, ¬ F' p l x := fun x h => hx ⟨x, h⟩
      rcases ih with h | ⟨pre, m, post, q, sq, rfl, h1, h2⟩
      · exact .inl (.cons hx h)
      · exact .inr ⟨l :: pre, m, post, q, sq, rfl, .cons hx h1, h2⟩

/-- Lines without a fault up to one that ends the outermost block: so on the second machine exactly if all that is looked at can be read, and otherwise there is a fault. -/
theorem ends_quiet {st : List Level} {pre post : List Line} {m : Line} {q : Level} {sq : List Level} (h : Sails F st pre (q :: sq)) (hf : ∀ x, ¬ F q m x)
    (ha : advance q sq m = []) :
    ((Sails F' st pre (q :: sq) ∧ ∀ x, ¬ F' q m x) ↔ ∀ y ∈ gather H st (pre ++ m :: post), LineDecodes E' y) ∧
    ((Sails F' st pre (q :: sq) ∧ ∀ x, ¬ F' q m x) ∨
      ∃ pre' m' post' q' sq', pre ++ m :: post = pre' ++ m' :: post' ∧ Sails F' st pre' (q' :: sq') ∧ ∃ x, F' q' m' x) := by
  constructor
  · rw [gather_sails h, sails_quiet hq h, hq _ _ hf]
    have : gather H (q :: sq) (m :: post) = H q m := by
      simp only [gather, ha]
      simp
    rw [this]
    simp only [List.mem_append]
    exact ⟨fun ⟨a, b⟩ y hy => hy.elim (a y) (b y), fun h => ⟨fun y hy => h y (.inl hy), fun y hy => h y (.inr hy)⟩⟩
  · rcases sails_or (F' := F') h with h' | ⟨pre', m', post', q', sq', rfl, h1, h2⟩
    · by_cases hx : ∃ x, F' q m x
      · exact .inr ⟨pre, m, post, q, sq, rfl, h', hx⟩
      · exact .inl ⟨h', fun x h => hx ⟨x, h⟩⟩
    · exact .inr ⟨pre', m', post' ++ m :: post, q', sq', by simp, h1, h2⟩

end

theorem alarm_quiet {E E' : Env} {p : Level} {l : Line} (hp : p.frame = .alarm) (h : ∀ x, ¬ Fault E p l x) :
    (∀ x, ¬ Fault E' p l x) ↔ ∀ y ∈ looked p l, LineDecodes E' y := by
  unfold looked
  rw [hp]
  dsimp only
  by_cases he : l.name = c!"END"
  · rw [if_pos he]
    have each : ∀ a, Acts p.own a → ∃ pre m post q sq, ownLines p.own ++ [l] = pre ++ m :: post ∧ Sails (SectFault E) (alarmStart a) pre (q :: sq) ∧
        (∀ z, ¬ SectFault E q m z) ∧ advance q sq m = [] := by
      intro a ha
      rcases alarm_decode E a (ownLines p.own ++ [l]) with ⟨_, st, hs⟩ | ⟨pre, m, post, q, sq, e, hs, ⟨e', h1, _⟩ | ⟨h1, _⟩ | ⟨v, h1, h2, _⟩⟩
      · exact absurd (Fault.unclosed hp he ha hs) (h _)
      · exact absurd (Fault.alarm hp he ha e hs ((h1 _).2 rfl)) (h _)
      · exact absurd (Fault.alarm hp he ha e hs ((h1 _).2 rfl)) (h _)
      · exact ⟨pre, m, post, q, sq, e, hs, h1, h2⟩
    constructor
    · intro h' y hy
      obtain ⟨a, ha, hy⟩ := List.mem_flatMap.1 hy
      have ha := mem_actKinds.1 ha
      obtain ⟨pre, m, post, q, sq, e, hs, h1, h2⟩ := each a ha
      obtain ⟨i, o⟩ := ends_quiet (F' := SectFault E') (H := sectLooked) (E' := E') (post := post) (fun p l => sect_quiet) hs h1 h2
      rw [e] at hy
      rcases o with o | ⟨pre', m', post', q', sq', e', hs', x, hx⟩
      · exact i.1 o y hy
      · exact absurd (Fault.alarm hp he ha (e.trans e') hs' hx) (h' _)
    · intro hy x hx
      have key : ∀ a, Acts p.own a → ∃ pre m post q sq, ownLines p.own ++ [l] = pre ++ m :: post ∧ Sails (SectFault E') (alarmStart a) pre (q :: sq) ∧
          (∀ z, ¬ SectFault E' q m z) ∧ advance q sq m = [] := by
        intro a ha
        obtain ⟨pre, m, post, q, sq, e, hs, h1, h2⟩ := each a ha
        obtain ⟨i, _⟩ := ends_quiet (F' := SectFault E') (H := sectLooked) (E' := E') (post := post) (fun p l => sect_quiet) hs h1 h2
        obtain ⟨i1, i2⟩ := i.2 fun y hm => hy y (List.mem_flatMap.2 ⟨a, mem_actKinds.2 ha, by rw [e]; exact hm⟩)
        exact ⟨pre, m, post, q, sq, e, i1, i2, h2⟩
      cases hx with
      | sect h' => exact h' hp
      | block h1 h2 => exact h _ (.block h1 h2)
      | twoActions h1 h2 h3 => exact h _ (.twoActions h1 h2 h3)
      | noAction h1 h2 h3 => exact h _ (.noAction h1 h2 h3)
      | alarm _ _ ha e' hs' hf' =>
        obtain ⟨pre, m, post, q, sq, e, hs, h1, h2⟩ := key _ ha
        obtain ⟨_, rfl, _, rfl, _⟩ := halts_unique e hs (Or.inr h2) e' hs' (Or.inl ⟨_, hf'⟩)
        exact h1 _ hf'
      | unclosed _ _ ha hs' =>
        obtain ⟨pre, m, post, q, sq, e, hs, h1, h2⟩ := key _ ha
        exact sails_not_halts hs' e hs (Or.inr h2)
  · rw [if_neg he]
    refine ⟨fun _ y hy => (nomatch hy), fun _ x hx => ?_⟩
    cases hx with
    | sect h' => exact h' hp
    | block h1 h2 => exact h _ (.block h1 h2)
    | twoActions h1 h2 h3 => exact h _ (.twoActions h1 h2 h3)
    | noAction h1 h2 h3 => exact he h2
    | alarm _ h2 => exact he h2
    | unclosed _ h2 => exact he h2

theorem looked_section {p : Level} (h : p.frame ≠ .alarm) (l : Line) : looked p l = sectLooked p l := by
  unfold looked
  split
  · next e => exact absurd e h
  · rfl

theorem fault_quiet {E E' : Env} (p : Level) (l : Line) (h : ∀ x, ¬ Fault E p l x) : (∀ x, ¬ Fault E' p l x) ↔ ∀ y ∈ looked p l, LineDecodes E' y := by
  by_cases hp : p.frame = .alarm
  · exact alarm_quiet hp h
  · rw [looked_section hp]
    simp only [fault_section _ _ _ hp] at h ⊢
    exact sect_quiet h

/-! ## Results on two machines -/

/-- The two machines read the same from the line. -/
def SameRead (E E' : Env) (y : SField × Line) : Prop := y.1.spec.decode E' y.2.params y.2.value = y.1.spec.decode E y.2.params y.2.value

/-- Two runs over the same lines: the states after a line are the same exactly if those before are, and what is read is. -/
structure Twins (A : Level → Line → Prop) (sstep sstep' : τ → Line → Res (τ ⊕ σ)) (n : Str) (M : τ → τ → List Level → Prop) : Prop where
  step : ∀ {x x' : τ} {seg : List Level} (l : Line), M x x' seg → ∃ p st0, seg = p :: st0 ∧ ∀ a a', sstep x l = .ok a → sstep' x' l = .ok a' →
    (∃ y y' seg', a = .inl y ∧ a' = .inl y' ∧ M y y' seg' ∧ (∀ st, advance p (st0 ++ st) l = seg' ++ st) ∧ (y = y' ↔ x = x' ∧ A p l)) ∨
    (∃ v v', a = .inr v ∧ a' = .inr v' ∧ (∀ st, advance p (st0 ++ st) l = close st n) ∧ (v = v' ↔ x = x' ∧ A p l))

/-- The lines that are looked at are read the same. -/
def AgreeAt (H : Level → Line → List (SField × Line)) (E E' : Env) (p : Level) (l : Line) : Prop := ∀ y ∈ H p l, SameRead E E' y

theorem Twins.run {H : Level → Line → List (SField × Line)} {E E' : Env} {srun srun' : Term → τ → List Line → Res (σ × List Line)} {sstep sstep' : τ → Line → Res (τ ⊕ σ)}
    {n : Str} {M : τ → τ → List Level → Prop} (hst : Steps srun sstep) (hst' : Steps srun' sstep') (hnil : ∀ t x y, srun t x [] ≠ .ok y)
    (hs : Twins (AgreeAt H E E') sstep sstep' n M) : ∀ (t : Term) (ls : List Line) (x x' : τ) (seg : List Level), M x x' seg → ∀ y y', srun t x ls = .ok y → srun' t x' ls = .ok y' →
      y.2 = y'.2 ∧ (y.1 = y'.1 ↔ x = x' ∧ ∀ z ∈ gather H seg ls, SameRead E E' z) := by
  intro t ls
  induction ls with
  | nil => intro x x' seg _ y y' h; exact absurd h (hnil t x y)
  | cons l r ih =>
    intro x x' seg hM y y' h h'
    rw [hst] at h
    rw [hst'] at h'
    obtain ⟨a, ha, h⟩ := Res.bind_eq_ok.1 h
    obtain ⟨a', ha', h'⟩ := Res.bind_eq_ok.1 h'
    obtain ⟨p, st0, rfl, hstep⟩ := hs.step l hM
    simp only [gather, List.mem_append]
    rcases hstep a a' ha ha' with ⟨z, z', seg', rfl, rfl, hM', hadv, hiff⟩ | ⟨v, v', rfl, rfl, hadv, hiff⟩
    · have hadv : advance p st0 l = seg' := by simpa using hadv []
      obtain ⟨e1, e2⟩ := ih z z' seg' hM' y y' h h'
      refine ⟨e1, e2.trans ?_⟩
      rw [hiff, hadv]
      exact ⟨fun ⟨⟨a, b⟩, c⟩ => ⟨a, fun w hw => hw.elim (b w) (c w)⟩, fun ⟨a, b⟩ => ⟨⟨a, fun w hw => b w (.inl hw)⟩, fun w hw => b w (.inr hw)⟩⟩
    · have hadv : advance p st0 l = [] := by simpa [close] using hadv []
      cases h
      cases h'
      refine ⟨rfl, hiff.trans ?_⟩
      rw [hadv]
      simp only [gather, List.not_mem_nil, or_false]
      rfl

/-- Two sections that are being read, in the same blocks. -/
def TwinOf (F : Frame) (T : Tab κ) (M : Str → τ → τ → List Level → Prop) (c c' : SCfg σ τ) (seg : List Level) : Prop :=
  ∃ own, Counts T own c.s ∧ Counts T own c'.s ∧ match c.inner, c'.inner with
    | .own, .own => seg = [⟨F, T.name, own⟩]
    | .skip n ns, .skip n' ns' => n = n' ∧ ns = ns' ∧ ∃ us : List Level, us.map (·.name) = n :: ns ∧ (∀ u ∈ us, u.frame = .unknown) ∧
        (n :: ns).getLast? ∉ (T.subs.map (·.1)).map some ∧ seg = us ++ [⟨F, T.name, own⟩]
    | .sub i x, .sub j y => i = j ∧ ∃ n k s0, T.subs[i]? = some (n, k) ∧ M n x y s0 ∧ seg = s0 ++ [⟨F, T.name, own⟩]
    | _, _ => False

theorem modify_snoc_inj {α : Type} : ∀ {as bs : List (List α)} {i : Nat} {v w : α}, i < as.length → i < bs.length →
    (as.modify i (· ++ [v]) = bs.modify i (· ++ [w]) ↔ as = bs ∧ v = w)
  | [], _, _, _, _, h, _ => nomatch h
  | _ :: _, [], _, _, _, _, h => nomatch h
  | a :: as, b :: bs, 0, v, w, _, _ => by
    simp only [List.modify_zero_cons, List.cons.injEq]
    constructor
    · rintro ⟨e, rfl⟩
      obtain ⟨e1, e2⟩ := List.append_inj' (show a ++ [v] = b ++ [w] from e) rfl
      cases e2
      cases e1
      exact ⟨⟨rfl, rfl⟩, rfl⟩
    · rintro ⟨⟨rfl, rfl⟩, rfl⟩
      exact ⟨rfl, rfl⟩
  | a :: as, b :: bs, i + 1, v, w, h1, h2 => by
    have := modify_snoc_inj (as := as) (bs := bs) (i := i) (v := v) (w := w) (by simpa using h1) (by simpa using h2)
    simp only [List.modify_succ_cons, List.cons.injEq, this]
    exact ⟨fun ⟨a, b, c⟩ => ⟨⟨a, b⟩, c⟩, fun ⟨⟨a, b⟩, c⟩ => ⟨a, b, c⟩⟩

theorem addProp_ok {E : Env} {s s' : Sect σ} {i : Nat} {f : SField} {l : Line} (h : s.addProp E i f l = .ok s') :
    ∃ v, f.spec.decode E l.params l.value = .ok v ∧ s' = { s with fields := s.fields.modify i (· ++ [v]) } := by
  unfold Sect.addProp at h
  split at h
  · cases h
  · obtain ⟨v, h1, h2⟩ := Res.bind_eq_ok.1 h
    cases h2
    exact ⟨v, h1, rfl⟩

theorem looked_none {p : Level} {l : Line} (h : upper l.name ∉ p.frame.fields.map (·.key)) : sectLooked p l = [] := by
  refine List.eq_nil_iff_forall_not_mem.2 fun y hy => ?_
  obtain ⟨h1, h2, _⟩ := mem_sectLooked.1 hy
  exact h (List.mem_map.2 ⟨_, h1, h2⟩)

theorem section_twins {E E' : Env} {H : Level → Line → List (SField × Line)} (hH : ∀ p l, p.frame ≠ .alarm → H p l = sectLooked p l) {F : Frame} {T : Tab κ} (hF : FrameOf F T)
    {init : κ → τ} {sstep sstep' : τ → Line → Res (τ ⊕ σ)} {M : Str → τ → τ → List Level → Prop} (hinit : ∀ n k, (n, k) ∈ T.subs → M n (init k) (init k) [⟨F.enter n, n, []⟩])
    (hsim : ∀ n, n ∈ T.subs.map (·.1) → Twins (AgreeAt H E E') sstep sstep' n (M n)) :
    Twins (AgreeAt H E E') (SCfg.step E T init sstep) (SCfg.step E' T init sstep') T.name (TwinOf F T M) := by
  refine ⟨?_⟩
  rintro ⟨s, inner⟩ ⟨s', inner'⟩ seg l ⟨own, hc, hc', hm⟩
  have hadv := fun st => advance_section (p := ⟨F, T.name, own⟩) hF.ne_alarm st l
  have hown : ∀ n own, H ⟨F, n, own⟩ l = sectLooked ⟨F, n, own⟩ l := fun n own => hH _ _ hF.ne_alarm
  have agree_nil : ∀ {p : Level}, H p l = [] → ∀ {P : Prop}, (P ↔ P ∧ AgreeAt H E E' p l) := by
    intro p hp P
    refine ⟨fun h => ⟨h, ?_⟩, fun h => h.1⟩
    intro y hy
    rw [hp] at hy
    cases hy
  cases inner with
  | own =>
    cases inner' with
    | skip => exact hm.elim
    | sub => exact hm.elim
    | own =>
    dsimp only at hm hc hc'
    subst hm
    refine ⟨_, [], rfl, ?_⟩
    simp only [SCfg.step, List.nil_append]
    intro a a' ha ha'
    by_cases hb : Begins l
    · have hnone : H ⟨F, T.name, own⟩ l = [] := by
        rw [hown]
        refine looked_none ?_
        rw [show upper l.name = c!"BEGIN" from hb]
        dsimp only
        rw [hF.fields]
        exact fun h => by obtain ⟨f, hf, e⟩ := List.mem_map.1 h; exact (hF.wf.field f hf).notCtl.1 e
      rcases Tab.kindOf_begin (T := T) hb with ⟨i, k, hk, hi⟩ | ⟨hk, hn⟩ <;> rw [hk] at ha ha' <;> cases ha <;> cases ha'
      · refine .inl ⟨_, _, [⟨F.enter (upper l.value), upper l.value, []⟩] ++ [⟨F, T.name, own⟩], rfl, rfl,
          ⟨own, hc, hc', rfl, _, _, _, hi, hinit _ _ (List.mem_of_getElem? hi), rfl⟩, fun st => ?_, ?_⟩
        · rw [hadv, if_pos hb, hF.ending]
          rfl
        · refine Iff.trans ?_ (agree_nil hnone)
          simp
      · refine .inl ⟨_, _, [⟨.unknown, upper l.value, []⟩] ++ [⟨F, T.name, own⟩], rfl, rfl, ⟨own, hc, hc', rfl, rfl, _, rfl, by simp, by simpa using hn, rfl⟩, fun st => ?_, ?_⟩
        · rw [hadv, if_pos hb, hF.ending]
          dsimp only
          rw [Frame.enter_unknown (by rw [hF.parts]; exact hn)]
          rfl
        · refine Iff.trans ?_ (agree_nil hnone)
          simp
    · by_cases he : Ends l
      · have hnone : H ⟨F, T.name, own⟩ l = [] := by
          rw [hown]
          refine looked_none ?_
          rw [show upper l.name = c!"END" from he]
          dsimp only
          rw [hF.fields]
          exact fun h => by obtain ⟨f, hf, e⟩ := List.mem_map.1 h; exact (hF.wf.field f hf).notCtl.2.1 e
        rw [Tab.kindOf_end hF.wf he] at ha ha'
        dsimp only at ha ha'
        split at ha
        · next hv =>
          rw [if_pos hv] at ha'
          obtain ⟨_, _, h2⟩ := Res.bind_eq_ok.1 ha
          obtain ⟨_, _, h2'⟩ := Res.bind_eq_ok.1 ha'
          cases h2
          cases h2'
          refine .inr ⟨_, _, rfl, rfl, fun st => ?_, ?_⟩
          · rw [hadv, if_neg hb, if_pos he]
          · refine Iff.trans ?_ (agree_nil hnone)
            simp
        · cases ha
      · rcases Tab.kindOf_line (T := T) hb he with ⟨i, f, hk, hf, hfk⟩ | ⟨hk, hn⟩ <;> rw [hk] at ha ha' <;> dsimp only at ha ha'
        · obtain ⟨x, h1, h2⟩ := Res.bind_eq_ok.1 ha
          obtain ⟨x', h1', h2'⟩ := Res.bind_eq_ok.1 ha'
          cases h2
          cases h2'
          refine .inl ⟨_, _, _, rfl, rfl, ⟨_, hc.prop hF.wf hf hfk h1, hc'.prop hF.wf hf hfk h1', rfl⟩, fun st => ?_, ?_⟩
          · rw [hadv, if_neg hb, if_neg he]
            rfl
          · obtain ⟨v, hv, rfl⟩ := addProp_ok h1
            obtain ⟨v', hv', rfl⟩ := addProp_ok h1'
            have hi : i < T.fields.length := (List.getElem?_eq_some_iff.1 hf).1
            have hag : AgreeAt H E E' ⟨F, T.name, own⟩ l ↔ v = v' := by
              unfold AgreeAt
              rw [hown]
              constructor
              · intro h
                have := h (f, l) (mem_sectLooked.2 ⟨by dsimp only; rw [hF.fields]; exact List.mem_of_getElem? hf, hfk, rfl⟩)
                unfold SameRead at this
                dsimp only at this
                rw [hv, hv'] at this
                cases this
                rfl
              · rintro rfl ⟨g, m⟩ hy
                obtain ⟨g1, g2, rfl⟩ := mem_sectLooked.1 hy
                dsimp only at g1 g2
                rw [hF.fields] at g1
                obtain ⟨j, hj⟩ := List.mem_iff_getElem?.1 g1
                have := hF.wf.key_inj hj hf (g2.trans hfk.symm)
                subst this
                rw [hf] at hj
                cases hj
                unfold SameRead
                dsimp only
                rw [hv, hv']
            rw [hag]
            have := modify_snoc_inj (as := s.fields) (bs := s'.fields) (i := i) (v := v) (w := v') (by rw [hc.lenF]; exact hi) (by rw [hc'.lenF]; exact hi)
            cases s
            cases s'
            simp only [SCfg.mk.injEq, Sect.mk.injEq, and_true] at this ⊢
            rw [this]
            exact ⟨fun ⟨⟨a, b⟩, c⟩ => ⟨⟨a, c⟩, b⟩, fun ⟨⟨a, c⟩, b⟩ => ⟨⟨a, b⟩, c⟩⟩
        · cases ha
          cases ha'
          refine .inl ⟨_, _, _, rfl, rfl, ⟨_, hc.other hn, hc'.other hn, rfl⟩, fun st => ?_, ?_⟩
          · rw [hadv, if_neg hb, if_neg he]
            rfl
          · refine agree_nil ?_
            rw [hown]
            refine looked_none ?_
            dsimp only
            rw [hF.fields]
            exact hn
  | skip n ns =>
    cases inner' with
    | own => exact hm.elim
    | sub => exact hm.elim
    | skip n' ns' =>
    obtain ⟨rfl, rfl, us, hus, hunk, hlast, rfl⟩ := hm
    cases us with
    | nil => cases hus
    | cons u us =>
      obtain ⟨uf, un, uo⟩ := u
      have huf : uf = .unknown := hunk _ (List.mem_cons_self ..)
      subst huf
      simp only [List.map_cons, List.cons.injEq] at hus
      obtain ⟨rfl, rfl⟩ := hus
      refine ⟨_, us ++ [⟨F, T.name, own⟩], rfl, ?_⟩
      have hadv := fun st => advance_section (p := ⟨.unknown, un, uo⟩) (by simp) st l
      have hnone : H ⟨.unknown, un, uo⟩ l = [] := by
        rw [hH _ _ (by simp)]
        exact looked_none (by simp [Frame.fields])
      have hunk' : ∀ u ∈ us, u.frame = .unknown := fun u hu => hunk u (List.mem_cons_of_mem _ hu)
      simp only [SCfg.step]
      intro a a' ha ha'
      by_cases hb : Begins l
      · rw [if_pos (show upper l.name = kBEGIN from hb)] at ha ha'
        cases ha
        cases ha'
        refine .inl ⟨_, _, (⟨.unknown, l.value, []⟩ :: ⟨.unknown, un, uo⟩ :: us) ++ [⟨F, T.name, own⟩], rfl, rfl, ⟨own, hc, hc', rfl, rfl, _, by simp, ?_, ?_, rfl⟩, fun st => ?_, ?_⟩
        · intro u hu
          rcases List.mem_cons.1 hu with rfl | hu
          · rfl
          · exact hunk u hu
        · rw [List.getLast?_cons_cons]
          exact hlast
        · rw [hadv, if_pos hb]
          simp only [List.cons_append, List.append_assoc]
          rw [Frame.enter_unknown (by simp [Frame.parts])]
          rfl
        · refine Iff.trans ?_ (agree_nil hnone)
          simp
      · rw [if_neg (show ¬ upper l.name = kBEGIN from hb)] at ha ha'
        by_cases he : Ends l
        · rw [if_pos (show upper l.name = kEND from he)] at ha ha'
          by_cases hv : upper l.value = un
          · rw [if_pos hv] at ha ha'
            cases ha
            cases ha'
            cases us with
            | nil =>
              refine .inl ⟨_, _, _, rfl, rfl, ⟨_, hc.unk (n := un) (by simpa using hlast), hc'.unk (n := un) (by simpa using hlast), rfl⟩, fun st => ?_, ?_⟩
              · rw [hadv, if_neg hb, if_pos he]
                rfl
              · refine Iff.trans ?_ (agree_nil hnone)
                simp
            | cons w ws =>
              refine .inl ⟨_, _, ({ w with own := w.own ++ [.block un []] } :: ws) ++ [⟨F, T.name, own⟩], rfl, rfl, ⟨own, hc, hc', rfl, rfl, _, rfl, ?_, ?_, rfl⟩, fun st => ?_, ?_⟩
              · intro u hu
                rcases List.mem_cons.1 hu with rfl | hu
                · exact hunk' w (List.mem_cons_self ..)
                · exact hunk' u (List.mem_cons_of_mem _ hu)
              · simp only [List.map_cons] at hlast
                rw [List.getLast?_cons_cons] at hlast
                exact hlast
              · rw [hadv, if_neg hb, if_pos he]
                rfl
              · refine Iff.trans ?_ (agree_nil hnone)
                simp
          · rw [if_neg hv] at ha
            cases ha
        · rw [if_neg (show ¬ upper l.name = kEND from he)] at ha ha'
          cases ha
          cases ha'
          refine .inl ⟨_, _, (Level.add ⟨.unknown, un, uo⟩ l :: us) ++ [⟨F, T.name, own⟩], rfl, rfl, ⟨own, hc, hc', rfl, rfl, _, rfl, ?_, hlast, rfl⟩, fun st => ?_, agree_nil hnone⟩
          · intro u hu
            rcases List.mem_cons.1 hu with rfl | hu
            · rfl
            · exact hunk' u hu
          · rw [hadv, if_neg hb, if_neg he]
            simp
  | sub i x =>
    cases inner' with
    | own => exact hm.elim
    | skip => exact hm.elim
    | sub j x' =>
    obtain ⟨rfl, n, k, s0, hi, hM, rfl⟩ := hm
    obtain ⟨p, st0, rfl, hstep⟩ := (hsim n (List.mem_map.2 ⟨_, List.mem_of_getElem? hi, rfl⟩)).step l hM
    refine ⟨p, st0 ++ [⟨F, T.name, own⟩], rfl, ?_⟩
    simp only [SCfg.step]
    intro a a' ha ha'
    obtain ⟨b, hb, ha⟩ := Res.bind_eq_ok.1 ha
    obtain ⟨b', hb', ha'⟩ := Res.bind_eq_ok.1 ha'
    rcases hstep b b' hb hb' with ⟨y, y', seg', rfl, rfl, hM', hadv', hiff⟩ | ⟨v, v', rfl, rfl, hadv', hiff⟩ <;> cases ha <;> cases ha'
    · refine .inl ⟨_, _, seg' ++ [⟨F, T.name, own⟩], rfl, rfl, ⟨own, hc, hc', rfl, n, k, seg', hi, hM', rfl⟩, fun st => ?_, ?_⟩
      · have := hadv' (⟨F, T.name, own⟩ :: st)
        simpa using this
      · simp only [SCfg.mk.injEq, Inner.sub.injEq, true_and, hiff, and_assoc]
    · refine .inl ⟨_, _, _, rfl, rfl, ⟨_, hc.sub hF.wf hi v, hc'.sub hF.wf hi v', rfl⟩, fun st => ?_, ?_⟩
      · have := hadv' (⟨F, T.name, own⟩ :: st)
        simpa [close] using this
      · have hl : i < T.subs.length := (List.getElem?_eq_some_iff.1 hi).1
        have := modify_snoc_inj (as := s.subs) (bs := s'.subs) (i := i) (v := v) (w := v') (by rw [hc.lenS]; exact hl) (by rw [hc'.lenS]; exact hl)
        cases s
        cases s'
        simp only [SCfg.mk.injEq, Sect.addSub, Sect.mk.injEq, and_true, Inner.sub.injEq, true_and] at this ⊢
        rw [this, hiff]
        exact ⟨fun ⟨a, b, c, d⟩ => ⟨⟨⟨a, b⟩, c⟩, d⟩, fun ⟨⟨⟨a, b⟩, c⟩, d⟩ => ⟨a, b, c, d⟩⟩

/-! ## Rules of time zones, alarms, components, the calendar -/

def noTwins (_ : Str) (x _ : Empty) (_ : List Level) : Prop := nomatch x

theorem leaf_twins {E E' : Env} {H : Level → Line → List (SField × Line)} (hH : ∀ p l, p.frame ≠ .alarm → H p l = sectLooked p l) {T : Tab Empty} (hF : FrameOf (.leaf T) T) :
    Twins (AgreeAt H E E') (leafStep E T) (leafStep E' T) T.name (TwinOf (.leaf T) T noTwins) :=
  section_twins hH hF (fun _ k => nomatch k) (fun _ _ => ⟨fun {x} => nomatch x⟩)

theorem leaf_twins_start (T : Tab Empty) : TwinOf (.leaf T) T noTwins (⟨T.start Empty, .own⟩ : LCfg) ⟨T.start Empty, .own⟩ [⟨.leaf T, T.name, []⟩] :=
  ⟨[], counts_start T, counts_start T, rfl⟩

/-- What is made of an alarm on two machines. -/
theorem alarm_same {E E' : Env} (a : AKind) {ls : List Line} {x x' : Leaf × List Line} (h : a.tab.decode E noSub (.error .unexpectedEOF) ls = .ok x)
    (h' : a.tab.decode E' noSub (.error .unexpectedEOF) ls = .ok x') : x.1 = x'.1 ↔ ∀ z ∈ gather sectLooked (alarmStart a) ls, SameRead E E' z := by
  have h0 : alarmStart a = [⟨.leaf a.tab, a.tab.name, []⟩] := by rw [(aTab_name a).1]; rfl
  have := ((leaf_twins (E := E) (E' := E') (H := sectLooked) (fun _ _ _ => rfl) (alarm_frame a)).run (leaf_steps E a.tab) (leaf_steps E' a.tab)
    (fun t x y => by rw [leafRun_nil]; exact nofun) (.error .unexpectedEOF) ls _ _ _ (leaf_twins_start a.tab) x x' h h').2
  rw [h0, this]
  exact ⟨fun h => h.2, fun h => ⟨rfl, h⟩⟩

/-- Two subsections that are being read, in the same blocks. -/
def SubTwins (n : Str) (x x' : SubCfg) (seg : List Level) : Prop :=
  match x, x' with
  | .leaf T c, .leaf T' c' => T' = T ∧ FrameOf (.leaf T) T ∧ T.name = n ∧ TwinOf (.leaf T) T noTwins c c' seg
  | .alarm a k, .alarm a' k' => a' = a ∧ k' = k ∧ ∃ own, seg = [⟨.alarm, n, own⟩] ∧ ownLines own = k ∧ KindOf a own
  | _, _ => False

theorem actKinds_kind {a : AKind} {own : List Item} (h : KindOf (some a) own) {y : SField × Line} {g : AKind → List (SField × Line)} :
    y ∈ (actKinds own).flatMap g ↔ y ∈ g a := by
  rw [List.mem_flatMap]
  constructor
  · rintro ⟨b, hb, hy⟩
    have := (h b).1 (mem_actKinds.1 hb)
    cases this
    exact hy
  · exact fun hy => ⟨a, mem_actKinds.2 ((h a).2 rfl), hy⟩

theorem sub_twins (E E' : Env) (n : Str) : Twins (AgreeAt looked E E') (subStep E) (subStep E') n (SubTwins n) := by
  refine ⟨?_⟩
  intro x x' seg l hM
  cases x with
  | leaf T c =>
    cases x' with
    | alarm => exact hM.elim
    | leaf T' c' =>
    obtain ⟨rfl, hF, rfl, hM⟩ := hM
    obtain ⟨p, st0, rfl, hstep⟩ := (leaf_twins (E := E) (E' := E') (H := looked) (fun p l h => looked_section h l) hF).step l hM
    refine ⟨p, st0, rfl, ?_⟩
    intro a a' ha ha'
    obtain ⟨b, hb, ha⟩ := Res.bind_eq_ok.1 ha
    obtain ⟨b', hb', ha'⟩ := Res.bind_eq_ok.1 ha'
    rcases hstep b b' hb hb' with ⟨y, y', seg', rfl, rfl, hM', hadv, hiff⟩ | ⟨v, v', rfl, rfl, hadv, hiff⟩ <;> cases ha <;> cases ha'
    · exact .inl ⟨_, _, seg', rfl, rfl, ⟨rfl, hF, rfl, hM'⟩, hadv, by simpa using hiff⟩
    · exact .inr ⟨_, _, rfl, rfl, hadv, by simpa using hiff⟩
  | alarm a k =>
    cases x' with
    | leaf => exact hM.elim
    | alarm a' k' =>
    obtain ⟨rfl, rfl, own, rfl, rfl, hk⟩ := hM
    refine ⟨_, [], rfl, ?_⟩
    simp only [subStep, List.nil_append, advance_alarm]
    intro b b' hb hb'
    by_cases hbg : l.name = c!"BEGIN"
    · rw [if_pos (show l.name = kBEGIN from hbg)] at hb
      cases hb
    rw [if_neg (show ¬ l.name = kBEGIN from hbg)] at hb hb'
    have none : ¬ l.name = c!"END" → ∀ {P : Prop}, P ↔ P ∧ AgreeAt looked E E' ⟨.alarm, n, own⟩ l := by
      intro he P
      refine ⟨fun h => ⟨h, ?_⟩, fun h => h.1⟩
      intro y hy
      unfold looked at hy
      dsimp only at hy
      rw [if_neg he] at hy
      cases hy
    by_cases ha : l.name = c!"ACTION"
    · have he : ¬ l.name = c!"END" := by rw [ha]; decide
      rw [if_pos (show l.name = kACTION from ha)] at hb hb'
      cases a' with
      | some a =>
        rw [if_pos (show (some a).isSome = true from rfl)] at hb
        cases hb
      | none =>
        rw [if_neg (by simp)] at hb hb'
        cases hb
        cases hb'
        have hno : ∀ b, ¬ Acts own b := fun b hb => by have := (hk b).1 hb; cases this
        refine .inl ⟨_, _, _, rfl, rfl, ⟨rfl, rfl, own ++ [.line l], rfl, ownLines_add, ?_⟩, fun st => ?_, ?_⟩
        · intro b
          rw [acts_add, ofAction_some]
          exact ⟨fun h => (h.resolve_left (hno b)).2, fun h => Or.inr ⟨ha, h⟩⟩
        · rw [if_neg he]
          rfl
        · refine Iff.trans ?_ (none he)
          simp
    rw [if_neg (show ¬ l.name = kACTION from ha)] at hb hb'
    by_cases he : l.name = c!"END"
    · rw [if_pos (show l.name = kEND from he)] at hb hb'
      obtain ⟨v, hv, hb⟩ := Res.bind_eq_ok.1 hb
      obtain ⟨v', hv', hb'⟩ := Res.bind_eq_ok.1 hb'
      cases hb
      cases hb'
      refine .inr ⟨_, _, rfl, rfl, fun st => by rw [if_pos he], ?_⟩
      unfold alarmEnd at hv hv'
      cases a' with
      | none => cases hv
      | some a =>
        dsimp only at hv hv'
        obtain ⟨x, hx, hv⟩ := Res.bind_eq_ok.1 hv
        obtain ⟨x', hx', hv'⟩ := Res.bind_eq_ok.1 hv'
        cases hv
        cases hv'
        have := alarm_same a hx hx'
        simp only [Sub.alarm.injEq, Option.some.injEq, Prod.mk.injEq, true_and, this]
        unfold AgreeAt looked
        dsimp only
        rw [if_pos he]
        simp only [actKinds_kind hk]
    · rw [if_neg (show ¬ l.name = kEND from he)] at hb hb'
      cases hb
      cases hb'
      refine .inl ⟨_, _, _, rfl, rfl, ⟨rfl, rfl, own ++ [.line l], rfl, ownLines_add, ?_⟩, fun st => ?_, ?_⟩
      · intro b
        rw [acts_add]
        exact ⟨fun h => (hk b).1 (h.resolve_right fun h => ha h.1), fun h => Or.inl ((hk b).2 h)⟩
      · rw [if_neg he]
        rfl
      · refine Iff.trans ?_ (none he)
        simp

/-- Two components that are being read, in the same blocks. -/
def CompTwins (n : Str) (x x' : CompCfg) (seg : List Level) : Prop := x'.T = x.T ∧ (n, x.T) ∈ tabCalendar.subs ∧ TwinOf (.comp x.T) x.T SubTwins x.c x'.c seg

theorem comp_twins (E E' : Env) (n : Str) : Twins (AgreeAt looked E E') (compStep E) (compStep E') n (CompTwins n) := by
  refine ⟨?_⟩
  rintro ⟨T, c⟩ ⟨T', c'⟩ seg l ⟨e, hT, hM⟩
  dsimp only at e
  subst e
  have hF := comp_frame hT
  obtain ⟨_, hn, hg⟩ := compTab_good _ hT
  dsimp only at hn hT hM hF hg
  have hsim : Twins (AgreeAt looked E E') (SCfg.step E T' subInit (subStep E)) (SCfg.step E' T' subInit (subStep E')) T'.name (TwinOf (.comp T') T' SubTwins) := by
    refine section_twins (fun p l h => looked_section h l) hF ?_ fun n _ => sub_twins E E' n
    intro m k hk
    have hgk := hg _ hk
    have hnd : ((Frame.comp T').parts.map (·.1)).Nodup := by
      rw [hF.parts]
      exact hF.wf.subs
    cases k with
    | leaf T2 =>
      obtain ⟨g1, g2, g3⟩ := hgk
      rw [Frame.enter_known (k := .leaf T2) hnd (List.mem_map.2 ⟨_, hk, rfl⟩)]
      dsimp only at g2
      subst g2
      exact ⟨rfl, leaf_frame g1 g3 ((compTab_rules _ hT).2 _ hk T2 rfl), rfl, leaf_twins_start T2⟩
    | alarm =>
      rw [Frame.enter_known (k := .alarm) hnd (List.mem_map.2 ⟨_, hk, rfl⟩)]
      refine ⟨rfl, rfl, [], rfl, rfl, fun b => ⟨?_, fun h => by cases h⟩⟩
      rintro ⟨l, hl, _⟩
      cases hl
  obtain ⟨p, st0, rfl, hstep⟩ := hsim.step l hM
  refine ⟨p, st0, rfl, ?_⟩
  intro a a' ha ha'
  obtain ⟨b, hb, ha⟩ := Res.bind_eq_ok.1 ha
  obtain ⟨b', hb', ha'⟩ := Res.bind_eq_ok.1 ha'
  rcases hstep b b' hb hb' with ⟨y, y', seg', rfl, rfl, hM', hadv, hiff⟩ | ⟨v, v', rfl, rfl, hadv, hiff⟩ <;> cases ha <;> cases ha'
  · exact .inl ⟨_, _, seg', rfl, rfl, ⟨rfl, hT, hM'⟩, hadv, by simpa using hiff⟩
  · exact .inr ⟨_, _, rfl, rfl, by rw [← hn]; exact hadv, by simpa using hiff⟩

theorem cal_twins (E E' : Env) : Twins (AgreeAt looked E E') (calStep E) (calStep E') tabCalendar.name (TwinOf .cal tabCalendar CompTwins) := by
  refine section_twins (fun p l h => looked_section h l) cal_frame ?_ fun n _ => comp_twins E E' n
  intro n T hT
  have hent : Frame.cal.enter n = .comp T := by
    refine Frame.enter_known ?_ (List.mem_map.2 ⟨_, hT, rfl⟩)
    rw [cal_frame.parts]
    exact calTab_wf.subs
  rw [hent]
  obtain ⟨_, hn, _⟩ := compTab_good _ hT
  refine ⟨rfl, hT, [], counts_start T, counts_start T, ?_⟩
  dsimp only at hn
  simp only [compInit]
  rw [hn]

/-! ## Documents -/

theorem decodeStream_open {E : Env} {b : Line} (hb : Opening b) (ls : List Line) (t : Term) : decodeStream E ⟨b :: ls, t⟩ = calRun E t calInit ls >>= fun x => .ok x.1 := by
  unfold decodeStream
  simp only
  rw [if_pos (show upper b.name = kBEGIN ∧ upper b.value = tabCalendar.name from hb)]
  have h : tabCalendar.decode E (compDecode E t) t ls = calRun E t calInit ls := rfl
  rw [h]
  cases calRun E t calInit ls <;> rfl

theorem decodeStream_opening {E : Env} {b : Line} {ls : List Line} {t : Term} {c : Cal} (h : decodeStream E ⟨b :: ls, t⟩ = .ok c) : Opening b := by
  unfold decodeStream at h
  simp only at h
  split at h
  · next hb => exact hb
  · cases h

/-- A document that one machine accepts is accepted by another exactly if it can read all that is read. -/
theorem accepted_too {E E' : Env} {ls : List Line} {t : Term} {c : Cal} (h : decodeStream E ⟨ls, t⟩ = .ok c) :
    (∃ c', decodeStream E' ⟨ls, t⟩ = .ok c') ↔ ∀ y ∈ lookedAt ls, LineDecodes E' y := by
  cases ls with
  | nil =>
    unfold decodeStream at h
    cases h
  | cons b ls =>
    have hb := decodeStream_opening h
    have ok : ∃ pre m post q sq, ls = pre ++ m :: post ∧ Sails (Fault E) calStart pre (q :: sq) ∧ (∀ z, ¬ Fault E q m z) ∧ advance q sq m = [] := by
      rcases decodeStream_cases E b hb ls with ⟨p, st, _, ht⟩ | ⟨pre, m, post, q, sq, e, ⟨_, _, hm, _, hs⟩, hor⟩
      · by_cases hc : p.frame = .alarm ∧ t = .done
        · rw [(ht t).1 hc] at h; cases h
        · rw [(ht t).2 hc] at h; cases h
      · cases hm
        rcases hor with ⟨e', _, ht⟩ | ⟨_, ht⟩ | ⟨v, h1, h2, _⟩
        · rw [ht] at h; cases h
        · rw [ht] at h; cases h
        · exact ⟨pre, m, post, q, sq, e, hs, h1, h2⟩
    obtain ⟨pre, m, post, q, sq, rfl, hs, h1, h2⟩ := ok
    obtain ⟨i, o⟩ := ends_quiet (F' := Fault E') (H := looked) (E' := E') (post := post) (fun p l => fault_quiet p l) hs h1 h2
    unfold lookedAt
    dsimp only
    rw [← i]
    rcases decodeStream_cases E' b hb (pre ++ m :: post) with ⟨p, st, ⟨_, _, hm, _, hs'⟩, ht⟩ | ⟨pre', m', post', q', sq', e, ⟨_, _, hm, _, hs'⟩, hor⟩
    · cases hm
      refine ⟨fun ⟨c', hc'⟩ => ?_, fun ⟨s1, s2⟩ => absurd (sails_not_halts hs' rfl s1 (Or.inr h2)) id⟩
      by_cases hc : p.frame = .alarm ∧ t = .done
      · rw [(ht t).1 hc] at hc'; cases hc'
      · rw [(ht t).2 hc] at hc'; cases hc'
    · cases hm
      rcases hor with ⟨e', g1, ht⟩ | ⟨g1, ht⟩ | ⟨v, g1, g2, ht⟩
      · rw [ht]
        refine ⟨fun ⟨c', hc'⟩ => (by cases hc'), fun ⟨s1, s2⟩ => ?_⟩
        have := (g1 _).2 rfl
        obtain ⟨_, rfl, _, rfl, _⟩ := halts_unique rfl s1 (Or.inr h2) e hs' (Or.inl ⟨_, this⟩)
        exact absurd this (s2 _)
      · rw [ht]
        refine ⟨fun ⟨c', hc'⟩ => (by cases hc'), fun ⟨s1, s2⟩ => ?_⟩
        have := (g1 _).2 rfl
        obtain ⟨_, rfl, _, rfl, _⟩ := halts_unique rfl s1 (Or.inr h2) e hs' (Or.inl ⟨_, this⟩)
        exact absurd this (s2 _)
      · refine ⟨fun _ => ?_, fun _ => ⟨v, ht t⟩⟩
        rcases o with o | ⟨pre2, m2, post2, q2, sq2, e2, hs2, x, hx⟩
        · exact o
        · obtain ⟨_, rfl, _, rfl, _⟩ := halts_unique e hs' (Or.inr g2) e2 hs2 (Or.inl ⟨_, hx⟩)
          exact absurd hx (g1 _)

/-- Two machines that accept a document make the same of it exactly if they make the same of all that is read. -/
theorem same_result {E E' : Env} {ls : List Line} {t : Term} {c c' : Cal} (h : decodeStream E ⟨ls, t⟩ = .ok c) (h' : decodeStream E' ⟨ls, t⟩ = .ok c') :
    c = c' ↔ ∀ y ∈ lookedAt ls, SameRead E E' y := by
  cases ls with
  | nil =>
    unfold decodeStream at h
    cases h
  | cons b ls =>
    have hb := decodeStream_opening h
    rw [decodeStream_open hb] at h h'
    obtain ⟨x, hx, h⟩ := Res.bind_eq_ok.1 h
    obtain ⟨x', hx', h'⟩ := Res.bind_eq_ok.1 h'
    cases h
    cases h'
    have := ((cal_twins E E').run (cal_steps E) (cal_steps E') (fun t x y => by rw [calRun_nil]; split <;> exact nofun) t ls _ _ _
      ⟨[], counts_start tabCalendar, counts_start tabCalendar, rfl⟩ x x' hx hx').2
    rw [this]
    exact ⟨fun h => h.2, fun h => ⟨rfl, h⟩⟩

theorem reads_of_accepted {E : Env} {ls : List Line} {t : Term} {c : Cal} (h : decodeStream E ⟨ls, t⟩ = .ok c) : ∀ y ∈ lookedAt ls, LineDecodes E y :=
  (accepted_too (E' := E) h).1 ⟨c, h⟩

/-- The same calendar on both machines, exactly. -/
theorem same_exactly {E E' : Env} {ls : List Line} {t : Term} {c : Cal} (h : decodeStream E ⟨ls, t⟩ = .ok c) :
    decodeStream E' ⟨ls, t⟩ = .ok c ↔ ∀ y ∈ lookedAt ls, SameRead E E' y := by
  constructor
  · exact fun h' => (same_result h h').1 rfl
  · intro hs
    have : ∀ y ∈ lookedAt ls, LineDecodes E' y := by
      intro y hy
      obtain ⟨v, hv⟩ := reads_of_accepted h y hy
      exact ⟨v, (hs y hy).trans hv⟩
    obtain ⟨c', hc'⟩ := (accepted_too h).2 this
    rw [hc', (same_result h hc').2 hs]

end Ics
