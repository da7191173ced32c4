import Verif.Machine
import Verif.Spec.Fault
/-!
# Lemmas: the line at fault
-/

namespace Ics

open Spec

variable {κ σ τ α : Type}

/-! ## What is in a section so far -/

/-- The section has as many properties and subsections as there were lines and blocks. -/
structure Counts (T : Tab κ) (own : List Item) (s : Sect σ) : Prop where
  lenF : s.fields.length = T.fields.length
  lenS : s.subs.length = T.subs.length
  fields : ∀ (i : Nat) (f : SField), T.fields[i]? = some f → (s.fields.getD i []).length = (linesNamed own f.key).length
  subs : ∀ (i : Nat) (x : Str × κ), T.subs[i]? = some x → (s.subs.getD i []).length = (blocksNamed own x.1).length

theorem counts_start (T : Tab κ) : Counts T [] (T.start σ) := by
  have h := start_sound (σ := σ) T
  refine ⟨h.lenF, h.lenS, fun i f _ => ?_, fun i x _ => ?_⟩
  · rw [(start_fields T i).1]; rfl
  · rw [(start_fields T i).2]; rfl

theorem linesNamed_append (a b : List Item) (n : Str) : linesNamed (a ++ b) n = linesNamed a n ++ linesNamed b n := List.filterMap_append

theorem blocksNamed_append (a b : List Item) (n : Str) : blocksNamed (a ++ b) n = blocksNamed a n ++ blocksNamed b n := List.filterMap_append

theorem linesNamed_one (l : Line) (n : Str) : linesNamed [.line l] n = if upper l.name = n then [l] else [] := by
  have := linesNamed_line l [] n
  rw [this]
  simp [linesNamed]

theorem blocksNamed_one (m : Str) (k : List Line) (n : Str) : blocksNamed [.block m k] n = if m = n then [k] else [] := by
  have := blocksNamed_block m k [] n
  rw [this]
  simp [blocksNamed]

theorem Counts.prop {E : Env} {T : Tab κ} (hw : T.Wf) {own : List Item} {s s' : Sect σ} (h : Counts T own s) {i : Nat} {f : SField} {l : Line} (hf : T.fields[i]? = some f)
    (hn : f.key = upper l.name) (ha : s.addProp E i f l = .ok s') : Counts T (own ++ [.line l]) s' := by
  unfold Sect.addProp at ha
  split at ha
  · cases ha
  · obtain ⟨v, _, ha⟩ := Res.bind_eq_ok.1 ha
    cases ha
    have hi : i < s.fields.length := by rw [h.lenF]; exact (List.getElem?_eq_some_iff.1 hf).1
    refine ⟨by simpa using h.lenF, h.lenS, fun j g hg => ?_, fun j x hx => ?_⟩
    · dsimp only
      rw [getD_modify _ _ _ _ hi, linesNamed_append, linesNamed_one, List.length_append, List.length_append, h.fields j g hg]
      by_cases hij : i = j
      · subst hij
        rw [hf] at hg
        cases hg
        rw [if_pos rfl, if_pos hn.symm]
        rfl
      · rw [if_neg hij, if_neg (fun e => hij (hw.key_inj hf hg (hn.trans e)))]
        rfl
    · rw [blocksNamed_append, h.subs j x hx]
      simp [blocksNamed]

theorem Counts.other {T : Tab κ} {own : List Item} {s : Sect σ} (h : Counts T own s) {l : Line} (hn : upper l.name ∉ T.fields.map (·.key)) :
    Counts T (own ++ [.line l]) s := by
  refine ⟨h.lenF, h.lenS, fun j g hg => ?_, fun j x hx => ?_⟩
  · rw [linesNamed_append, linesNamed_one, if_neg (fun e => hn (List.mem_map.2 ⟨g, List.mem_of_getElem? hg, e.symm⟩)), h.fields j g hg]
    simp
  · rw [blocksNamed_append, h.subs j x hx]
    simp [blocksNamed]

theorem Counts.sub {T : Tab κ} (hw : T.Wf) {own : List Item} {s : Sect σ} (h : Counts T own s) {i : Nat} {n : Str} {k : κ} (hf : T.subs[i]? = some (n, k)) (v : σ) :
    Counts T (own ++ [.block n []]) (s.addSub i v) := by
  have hi : i < s.subs.length := by rw [h.lenS]; exact (List.getElem?_eq_some_iff.1 hf).1
  refine ⟨h.lenF, by simpa [Sect.addSub] using h.lenS, fun j g hg => ?_, fun j x hx => ?_⟩
  · rw [linesNamed_append]
    have := h.fields j g hg
    simpa [linesNamed, Sect.addSub] using this
  · unfold Sect.addSub
    dsimp only
    rw [getD_modify _ _ _ _ hi, blocksNamed_append, blocksNamed_one, List.length_append, List.length_append, h.subs j x hx]
    by_cases hij : i = j
    · subst hij
      rw [hf] at hx
      cases hx
      rw [if_pos rfl, if_pos rfl]
      rfl
    · rw [if_neg hij, if_neg (fun e => hij (hw.sub_inj hf hx e))]
      rfl

theorem Counts.unk {T : Tab κ} {own : List Item} {s : Sect σ} (h : Counts T own s) {n : Str} (hn : n ∉ T.subs.map (·.1)) : Counts T (own ++ [.block n []]) s := by
  refine ⟨h.lenF, h.lenS, fun j g hg => ?_, fun j x hx => ?_⟩
  · rw [linesNamed_append]
    have := h.fields j g hg
    simpa [linesNamed] using this
  · rw [blocksNamed_append, blocksNamed_one, if_neg (fun e => hn (List.mem_map.2 ⟨x, List.mem_of_getElem? hx, e.symm⟩)), h.subs j x hx]
    simp

theorem Counts.hasLine {T : Tab κ} {own : List Item} {s : Sect σ} (h : Counts T own s) {i : Nat} {f : SField} (hf : T.fields[i]? = some f) :
    HasLine own f.key ↔ s.fields.getD i [] ≠ [] := by
  unfold HasLine
  rw [← List.length_pos_iff, ← List.length_pos_iff, h.fields i f hf]

/-! ## The end of a section -/

/-- The frame of a table. -/
structure FrameOf (F : Frame) (T : Tab κ) : Prop where
  wf : T.Wf
  fields : F.fields = T.fields
  rules : F.rules = T.rules
  parts : F.parts.map (·.1) = T.subs.map (·.1)
  isSection : F.IsSection
  ruleNames : ∀ r ∈ T.rules, ∀ n ∈ r.names, n ∈ T.fields.map (·.key)

theorem Counts.present {T : Tab κ} {own : List Item} {s : Sect σ} (h : Counts T own s) {n : Str} (hn : n ∈ T.fields.map (·.key)) :
    hasField T s n = true ↔ HasLine own n := by
  unfold Ics.hasField
  cases hi : fieldIdx n T.fields with
  | none => exact absurd hn (fieldIdx_none.1 hi)
  | some i =>
    obtain ⟨f, hf, hk⟩ := fieldIdx_some hi
    subst hk
    simp only [bne_iff_ne]
    exact (h.hasLine hf).symm

theorem Counts.ruleMet {F : Frame} {T : Tab κ} (hF : FrameOf F T) {own : List Item} {s : Sect σ} (h : Counts T own s) {r : Rule} (hr : r ∈ T.rules) :
    Rule.met T s r = true ↔ RuleMet F own r := by
  have hn := hF.ruleNames r hr
  cases r with
  | notBoth a b =>
    have ha := h.present (hn a (by simp [Rule.names]))
    have hb := h.present (hn b (by simp [Rule.names]))
    simp only [Rule.met, RuleMet, ← ha, ← hb]
    cases hasField T s a <;> cases hasField T s b <;> simp
  | needs a b =>
    have ha := h.present (hn a (by simp [Rule.names]))
    have hb := h.present (hn b (by simp [Rule.names]))
    simp only [Rule.met, RuleMet, ← ha, ← hb]
    cases hasField T s a <;> cases hasField T s b <;> simp
  | onlyOne a b =>
    have ha := h.present (hn a (by simp [Rule.names]))
    have hb := h.present (hn b (by simp [Rule.names]))
    simp only [Rule.met, RuleMet, ← ha, ← hb]
    cases hasField T s a <;> cases hasField T s b <;> simp
  | anySub =>
    simp only [Rule.met, RuleMet, List.any_eq_true, Bool.not_eq_true', List.isEmpty_eq_false_iff]
    have key : ∀ (i : Nat) (x : Str × κ), T.subs[i]? = some x → (s.subs.getD i [] ≠ [] ↔ blocksNamed own x.1 ≠ []) := by
      intro i x hx
      rw [← List.length_pos_iff, ← List.length_pos_iff, h.subs i x hx]
    have e : (∃ x ∈ F.parts, blocksNamed own x.1 ≠ []) ↔ ∃ n ∈ T.subs.map (·.1), blocksNamed own n ≠ [] := by
      rw [← hF.parts]
      simp
    rw [e]
    constructor
    · rintro ⟨ys, hy, hne⟩
      obtain ⟨i, hi⟩ := List.getElem?_of_mem hy
      have hlt : i < T.subs.length := by rw [← h.lenS]; exact (List.getElem?_eq_some_iff.1 hi).1
      have hx : T.subs[i]? = some T.subs[i] := List.getElem?_eq_getElem hlt
      refine ⟨T.subs[i].1, List.mem_map.2 ⟨_, List.getElem_mem hlt, rfl⟩, (key i _ hx).1 ?_⟩
      rw [List.getD_eq_getElem?_getD, hi]
      exact hne
    · rintro ⟨n, hn, hne⟩
      obtain ⟨x, hx, rfl⟩ := List.mem_map.1 hn
      obtain ⟨i, hi⟩ := List.getElem?_of_mem hx
      have hlt : i < s.subs.length := by rw [h.lenS]; exact (List.getElem?_eq_some_iff.1 hi).1
      refine ⟨s.subs[i], List.getElem_mem hlt, ?_⟩
      have := (key i x hi).2 hne
      rw [List.getD_eq_getElem?_getD, List.getElem?_eq_getElem hlt] at this
      exact this

/-- The checks at the end of a section. -/
theorem Counts.finish {F : Frame} {T : Tab κ} (hF : FrameOf F T) {own : List Item} {s : Sect σ} (h : Counts T own s) :
    (T.finish s = .ok () ∧ (∀ f ∈ F.fields, f.mult = .req → HasLine own f.key) ∧ ∀ r ∈ F.rules, RuleMet F own r) ∨
    (T.finish s = .err .missingRequired ∧ ∃ f ∈ F.fields, f.mult = .req ∧ ¬ HasLine own f.key) ∨
    (T.finish s = .err .requirementNotMet ∧ (∀ f ∈ F.fields, f.mult = .req → HasLine own f.key) ∧ ∃ r ∈ F.rules, ¬ RuleMet F own r) := by
  rw [hF.fields, hF.rules]
  have hreq : reqMet T.fields s.fields = true ↔ ∀ f ∈ T.fields, f.mult = .req → HasLine own f.key := by
    rw [reqMet_iff _ _ h.lenF.symm]
    constructor
    · intro hh f hf hm
      obtain ⟨i, hi⟩ := List.getElem?_of_mem hf
      exact (h.hasLine hi).2 (hh i f hi hm)
    · intro hh i f hi hm
      exact (h.hasLine hi).1 (hh f (List.mem_of_getElem? hi) hm)
  unfold Tab.finish
  by_cases h1 : reqMet T.fields s.fields = true
  · rw [h1]
    simp only [Res.guard_true, Res.ok_bind]
    by_cases h2 : T.rules.all (Rule.met T s) = true
    · rw [h2]
      exact Or.inl ⟨rfl, hreq.1 h1, fun r hr => (h.ruleMet hF hr).1 (List.all_eq_true.1 h2 r hr)⟩
    · refine Or.inr (Or.inr ⟨?_, hreq.1 h1, ?_⟩)
      · rw [Bool.not_eq_true] at h2
        rw [h2]
        rfl
      · rw [List.all_eq_true] at h2
        simp only [Classical.not_forall] at h2
        obtain ⟨r, hr, h2⟩ := h2
        exact ⟨r, hr, fun e => h2 ((h.ruleMet hF hr).2 e)⟩
  · refine Or.inr (Or.inl ⟨?_, ?_⟩)
    · rw [Bool.not_eq_true] at h1
      rw [h1]
      rfl
    · rw [hreq] at h1
      simp only [Classical.not_forall] at h1
      obtain ⟨f, hf, hm, h1⟩ := h1
      exact ⟨f, hf, hm, h1⟩

/-! ## One line -/

/-- The outcome of a line is what the relation says. -/
def Judged (F : Level → Line → Option Err → Prop) (p : Level) (l : Line) : Res α → Prop
  | .ok _ => ∀ x, ¬ F p l x
  | .err e => ∀ x, F p l x ↔ x = some e
  | .panic => ∀ x, F p l x ↔ x = none

/-- The steps of a decoder, for a relation between its states and the open blocks; the outermost block is called `n`. -/
structure Tracks (F : Level → Line → Option Err → Prop) (sstep : τ → Line → Res (τ ⊕ σ)) (n : Str) (M : τ → List Level → Prop) : Prop where
  step : ∀ {x : τ} {seg : List Level} (l : Line), M x seg → ∃ p st0, seg = p :: st0 ∧ Judged F p l (sstep x l) ∧
    (∀ y, sstep x l = .ok (.inl y) → ∃ seg', M y seg' ∧ ∀ st, advance p (st0 ++ st) l = seg' ++ st) ∧
    (∀ v, sstep x l = .ok (.inr v) → ∀ st, advance p (st0 ++ st) l = close st n)

theorem Judged.map {F : Level → Line → Option Err → Prop} {p : Level} {l : Line} {β : Type} {r : Res α} {f : α → Res β} (h : Judged F p l r) (hf : ∀ a, r = .ok a → ∃ b, f a = .ok b) :
    Judged F p l (r >>= f) := by
  cases r with
  | ok a =>
    obtain ⟨b, hb⟩ := hf a rfl
    rw [Res.ok_bind, hb]
    exact h
  | err e => exact h
  | panic => exact h

theorem Judged.congr {F G : Level → Line → Option Err → Prop} {p : Level} {l : Line} {r : Res α} (h : Judged F p l r) (hf : ∀ x, G p l x ↔ F p l x) : Judged G p l r := by
  cases r with
  | ok a => exact fun x hx => h x ((hf x).1 hx)
  | err e => exact fun x => (hf x).trans (h x)
  | panic => exact fun x => (hf x).trans (h x)

/-- A line in an unknown component. -/
theorem sectFault_unknown {E : Env} {n : Str} {own : List Item} {l : Line} {x : Option Err} :
    SectFault E ⟨.unknown, n, own⟩ l x ↔ Ends l ∧ upper l.value ≠ n ∧ x = some .invalidEnd := by
  constructor
  · intro h
    cases h with
    | again hf => cases hf
    | value hf => cases hf
    | crash hf => cases hf
    | wrongEnd hs => exact absurd hs id
    | wrongEndUnknown _ he hv => exact ⟨he, hv, rfl⟩
    | missing _ _ hf => cases hf
    | rule _ _ _ hf => cases hf
  · rintro ⟨he, hv, rfl⟩
    exact .wrongEndUnknown rfl he hv

/-- A line that begins a block is not at fault. -/
theorem sectFault_begin {E : Env} {F : Frame} {T : Tab κ} (hF : FrameOf F T) {n : Str} {own : List Item} {l : Line} (hb : Begins l) {x : Option Err} :
    ¬ SectFault E ⟨F, n, own⟩ l x := by
  have hnf : ∀ {f : SField}, f ∈ F.fields → f.key = upper l.name → False := by
    intro f hf hk
    rw [hF.fields] at hf
    exact (hF.wf.field f hf).notCtl.1 (hk.trans hb)
  have hne : ¬ Ends l := fun he => absurd (hb.symm.trans he) (by decide)
  intro h
  cases h with
  | again hf hk => exact hnf hf hk
  | value hf hk => exact hnf hf hk
  | crash hf hk => exact hnf hf hk
  | wrongEnd _ he => exact hne he
  | wrongEndUnknown _ he => exact hne he
  | missing he => exact hne he
  | rule he => exact hne he

theorem sectFault_other {E : Env} {F : Frame} {T : Tab κ} (hF : FrameOf F T) {n : Str} {own : List Item} {l : Line} (hne : ¬ Ends l) (hn : upper l.name ∉ T.fields.map (·.key))
    {x : Option Err} : ¬ SectFault E ⟨F, n, own⟩ l x := by
  have hnf : ∀ {f : SField}, f ∈ F.fields → f.key = upper l.name → False := by
    intro f hf hk
    rw [hF.fields] at hf
    exact hn (List.mem_map.2 ⟨f, hf, hk⟩)
  intro h
  cases h with
  | again hf hk => exact hnf hf hk
  | value hf hk => exact hnf hf hk
  | crash hf hk => exact hnf hf hk
  | wrongEnd _ he => exact hne he
  | wrongEndUnknown _ he => exact hne he
  | missing he => exact hne he
  | rule he => exact hne he

/-- A property. -/
theorem judged_prop {E : Env} {F : Frame} {T : Tab κ} (hF : FrameOf F T) {own : List Item} {s : Sect σ} (h : Counts T own s) {n : Str} {l : Line} {i : Nat} {f : SField}
    (hf : T.fields[i]? = some f) (hk : f.key = upper l.name) (he : ¬ Ends l) : Judged (SectFault E) ⟨F, n, own⟩ l (s.addProp E i f l) := by
  have hmem : f ∈ F.fields := by rw [hF.fields]; exact List.mem_of_getElem? hf
  have huniq : ∀ {g : SField}, g ∈ F.fields → g.key = upper l.name → g = f := by
    intro g hg hgk
    rw [hF.fields] at hg
    obtain ⟨j, hj⟩ := List.getElem?_of_mem hg
    have := hF.wf.key_inj hf hj (hk.trans hgk.symm)
    subst this
    rw [hf] at hj
    cases hj
    rfl
  have hl := h.hasLine hf
  unfold Sect.addProp
  by_cases hm : f.mult ≠ .many ∧ s.fields.getD i [] ≠ []
  · rw [if_pos hm]
    intro x
    constructor
    · intro hx
      cases hx with
      | again => rfl
      | value hg hgk hor =>
        obtain rfl := huniq hg hgk
        exact absurd (hl.2 hm.2) (hor.resolve_left hm.1)
      | crash hg hgk hor =>
        obtain rfl := huniq hg hgk
        exact absurd (hl.2 hm.2) (hor.resolve_left hm.1)
      | wrongEnd _ h => exact absurd h he
      | wrongEndUnknown _ h => exact absurd h he
      | missing h => exact absurd h he
      | rule h => exact absurd h he
    · rintro rfl
      exact .again hmem hk hm.1 (hl.2 hm.2)
  · rw [if_neg hm]
    have hor : f.mult = .many ∨ ¬ HasLine own f.key := by
      by_cases h1 : f.mult = .many
      · exact Or.inl h1
      · exact Or.inr (fun h2 => hm ⟨h1, hl.1 h2⟩)
    have hany : ∀ {x : Option Err}, SectFault E ⟨F, n, own⟩ l x → (∃ e, x = some e ∧ f.spec.decode E l.params l.value = .err e) ∨
        (x = none ∧ f.spec.decode E l.params l.value = .panic) := by
      intro x hx
      cases hx with
      | again hg hgk h1 h2 =>
        obtain rfl := huniq hg hgk
        exact absurd ⟨h1, hl.1 h2⟩ hm
      | value hg hgk _ hd =>
        obtain rfl := huniq hg hgk
        exact Or.inl ⟨_, rfl, hd⟩
      | crash hg hgk _ hd =>
        obtain rfl := huniq hg hgk
        exact Or.inr ⟨rfl, hd⟩
      | wrongEnd _ h => exact absurd h he
      | wrongEndUnknown _ h => exact absurd h he
      | missing h => exact absurd h he
      | rule h => exact absurd h he
    cases hd : f.spec.decode E l.params l.value with
    | ok v =>
      intro x hx
      rcases hany hx with ⟨e, _, h⟩ | ⟨_, h⟩ <;> rw [hd] at h <;> cases h
    | err e =>
      intro x
      constructor
      · intro hx
        rcases hany hx with ⟨e, rfl, h⟩ | ⟨_, h⟩ <;> rw [hd] at h <;> cases h
        rfl
      · rintro rfl
        exact .value hmem hk hor hd
    | panic =>
      intro x
      constructor
      · intro hx
        rcases hany hx with ⟨e, _, h⟩ | ⟨rfl, h⟩
        · rw [hd] at h; cases h
        · rfl
      · rintro rfl
        exact .crash hmem hk hor hd

/-- The line with END. -/
theorem judged_end {E : Env} {F : Frame} {T : Tab κ} (hF : FrameOf F T) {own : List Item} {s : Sect σ} (h : Counts T own s) {l : Line} (he : Ends l) :
    Judged (SectFault E) ⟨F, T.name, own⟩ l (if l.value = T.name then T.finish s >>= fun _ => .ok s else .err .invalidEnd) := by
  have hnf : ∀ {f : SField}, f ∈ F.fields → f.key = upper l.name → False := by
    intro f hf hk
    rw [hF.fields] at hf
    exact (hF.wf.field f hf).notCtl.2.1 (hk.trans he)
  have hun : F ≠ .unknown := by
    rintro rfl
    exact absurd hF.isSection id
  by_cases hv : l.value = T.name
  · rw [if_pos hv]
    have hany : ∀ {x : Option Err}, SectFault E ⟨F, T.name, own⟩ l x → (x = some .missingRequired ∧ ∃ f ∈ F.fields, f.mult = .req ∧ ¬ HasLine own f.key) ∨
        (x = some .requirementNotMet ∧ (∀ f ∈ F.fields, f.mult = .req → HasLine own f.key) ∧ ∃ r ∈ F.rules, ¬ RuleMet F own r) := by
      intro x hx
      cases hx with
      | again hf hk => exact (hnf hf hk).elim
      | value hf hk => exact (hnf hf hk).elim
      | crash hf hk => exact (hnf hf hk).elim
      | wrongEnd _ _ h => exact absurd hv h
      | wrongEndUnknown h => exact absurd h hun
      | missing _ _ hf hm hl => exact Or.inl ⟨rfl, _, hf, hm, hl⟩
      | rule _ _ hr hm hl => exact Or.inr ⟨rfl, hr, _, hm, hl⟩
    rcases h.finish hF with ⟨hfin, h1, h2⟩ | ⟨hfin, f, hf, hm, hl⟩ | ⟨hfin, h1, r, hr, hl⟩ <;> rw [hfin]
    · intro x hx
      rcases hany hx with ⟨_, f, hf, hm, hl⟩ | ⟨_, _, r, hr, hl⟩
      · exact hl (h1 f hf hm)
      · exact hl (h2 r hr)
    · intro x
      constructor
      · intro hx
        rcases hany hx with ⟨rfl, _⟩ | ⟨_, h1, _⟩
        · rfl
        · exact absurd (h1 f hf hm) hl
      · rintro rfl
        exact .missing he hv hf hm hl
    · intro x
      constructor
      · intro hx
        rcases hany hx with ⟨_, f, hf, hm, hl⟩ | ⟨rfl, _⟩
        · exact absurd (h1 f hf hm) hl
        · rfl
      · rintro rfl
        exact .rule he hv h1 hr hl
  · rw [if_neg hv]
    intro x
    constructor
    · intro hx
      cases hx with
      | again hf hk => exact (hnf hf hk).elim
      | value hf hk => exact (hnf hf hk).elim
      | crash hf hk => exact (hnf hf hk).elim
      | wrongEnd => rfl
      | wrongEndUnknown h => exact absurd h hun
      | missing _ h => exact absurd h hv
      | rule _ h => exact absurd h hv
    · rintro rfl
      exact .wrongEnd hF.isSection he hv

/-! ## Sections -/

/-- The blocks that are open in a section with this state. -/
def SegOf (F : Frame) (T : Tab κ) (M : Str → τ → List Level → Prop) (c : SCfg σ τ) (seg : List Level) : Prop :=
  ∃ own, Counts T own c.s ∧ match c.inner with
    | .own => seg = [⟨F, T.name, own⟩]
    | .skip n ns => ∃ us : List Level, us.map (·.name) = n :: ns ∧ (∀ u ∈ us, u.frame = .unknown) ∧ (n :: ns).getLast? ∉ (T.subs.map (·.1)).map some ∧
        seg = us ++ [⟨F, T.name, own⟩]
    | .sub i x => ∃ n k s0, T.subs[i]? = some (n, k) ∧ M n x s0 ∧ seg = s0 ++ [⟨F, T.name, own⟩]

theorem advance_section {p : Level} (h : p.frame ≠ .alarm) (st : List Level) (l : Line) : advance p st l =
    if Begins l then ⟨p.frame.enter (upper l.value), p.frame.ending l.value, []⟩ :: p :: st
    else if Ends l then close st p.name
    else p.add l :: st := by
  obtain ⟨f, n, own⟩ := p
  cases f with
  | alarm => exact absurd rfl h
  | cal => rfl
  | comp T => rfl
  | leaf T => rfl
  | unknown => rfl

theorem FrameOf.ne_alarm {F : Frame} {T : Tab κ} (h : FrameOf F T) : F ≠ .alarm := by
  rintro rfl
  exact absurd h.isSection id

theorem FrameOf.ending {F : Frame} {T : Tab κ} (h : FrameOf F T) (v : Str) : F.ending v = upper v := by
  cases F with
  | unknown => exact absurd h.isSection id
  | alarm => exact absurd h.isSection id
  | cal => rfl
  | comp T => rfl
  | leaf T => rfl

theorem Frame.enter_unknown {F : Frame} {n : Str} (h : n ∉ F.parts.map (·.1)) : F.enter n = .unknown := by
  unfold Frame.enter
  have : F.parts.find? (fun x => x.1 = n) = none := by
    rw [List.find?_eq_none]
    intro x hx
    simp only [decide_eq_true_eq]
    rintro rfl
    exact h (List.mem_map.2 ⟨x, hx, rfl⟩)
  rw [this]

theorem section_sim {E : Env} {G : Level → Line → Option Err → Prop} (hG : ∀ p l x, p.frame ≠ .alarm → (G p l x ↔ SectFault E p l x)) {F : Frame} {T : Tab κ} (hF : FrameOf F T)
    {init : κ → τ} {sstep : τ → Line → Res (τ ⊕ σ)} {M : Str → τ → List Level → Prop} (hinit : ∀ n k, (n, k) ∈ T.subs → M n (init k) [⟨F.enter n, n, []⟩])
    (hsim : ∀ n, n ∈ T.subs.map (·.1) → Tracks G sstep n (M n)) : Tracks G (SCfg.step E T init sstep) T.name (SegOf F T M) := by
  refine ⟨?_⟩
  rintro ⟨s, inner⟩ seg l ⟨own, hc, hm⟩
  have hGs : ∀ {β : Type} {r : Res β}, Judged (SectFault E) ⟨F, T.name, own⟩ l r → Judged G ⟨F, T.name, own⟩ l r :=
    fun h => h.congr fun x => hG _ _ _ hF.ne_alarm
  have hadv := fun st => advance_section (p := ⟨F, T.name, own⟩) hF.ne_alarm st l
  cases inner with
  | own =>
    dsimp only at hm hc
    subst hm
    refine ⟨_, [], rfl, ?_⟩
    simp only [SCfg.step, List.nil_append]
    by_cases hb : Begins l
    · have hnof : ∀ x, ¬ G ⟨F, T.name, own⟩ l x := fun x hx => sectFault_begin hF hb ((hG _ _ _ hF.ne_alarm).1 hx)
      rcases Tab.kindOf_begin (T := T) hb with ⟨i, k, hk, hi⟩ | ⟨hk, hn⟩ <;> rw [hk] <;> dsimp only
      · refine ⟨hnof, ?_, fun v hv => by cases hv⟩
        intro y hy
        cases hy
        refine ⟨[⟨F.enter (upper l.value), upper l.value, []⟩] ++ [⟨F, T.name, own⟩], ⟨own, hc, _, _, _, hi, hinit _ _ (List.mem_of_getElem? hi), rfl⟩, fun st => ?_⟩
        rw [hadv, if_pos hb, hF.ending]
        rfl
      · refine ⟨hnof, ?_, fun v hv => by cases hv⟩
        intro y hy
        cases hy
        refine ⟨[⟨.unknown, upper l.value, []⟩] ++ [⟨F, T.name, own⟩], ⟨own, hc, _, rfl, by simp, by simpa using hn, rfl⟩, fun st => ?_⟩
        rw [hadv, if_pos hb, hF.ending]
        dsimp only
        rw [Frame.enter_unknown (by rw [hF.parts]; exact hn)]
        rfl
    · by_cases he : Ends l
      · rw [Tab.kindOf_end hF.wf he]
        dsimp only
        have hj := hGs (judged_end (E := E) hF hc he)
        refine ⟨?_, ?_, ?_⟩
        · by_cases hv : l.value = T.name
          · rw [if_pos hv] at hj ⊢
            cases hfin : T.finish s with
            | ok u => rw [hfin] at hj; exact hj
            | err e => rw [hfin] at hj; exact hj
            | panic => rw [hfin] at hj; exact hj
          · rw [if_neg hv] at hj ⊢
            exact hj
        · intro y hy
          exfalso
          split at hy
          · obtain ⟨_, _, h2⟩ := Res.bind_eq_ok.1 hy
            cases h2
          · cases hy
        · intro v hv st
          rw [hadv, if_neg hb, if_pos he]
      · rcases Tab.kindOf_line (T := T) hb he with ⟨i, f, hk, hf, hfk⟩ | ⟨hk, hn⟩ <;> rw [hk] <;> dsimp only
        · refine ⟨(hGs (judged_prop hF hc hf hfk he)).map fun a _ => ⟨_, rfl⟩, ?_, ?_⟩
          · intro y hy
            obtain ⟨s', h1, h2⟩ := Res.bind_eq_ok.1 hy
            cases h2
            refine ⟨_, ⟨_, hc.prop hF.wf hf hfk h1, rfl⟩, fun st => ?_⟩
            rw [hadv, if_neg hb, if_neg he]
            rfl
          · intro v hv
            obtain ⟨s', _, h2⟩ := Res.bind_eq_ok.1 hv
            cases h2
        · refine ⟨fun x hx => sectFault_other hF he hn ((hG _ _ _ hF.ne_alarm).1 hx), ?_, fun v hv => by cases hv⟩
          intro y hy
          cases hy
          refine ⟨_, ⟨_, hc.other hn, rfl⟩, fun st => ?_⟩
          rw [hadv, if_neg hb, if_neg he]
          rfl
  | skip n ns =>
    obtain ⟨us, hus, hunk, hlast, rfl⟩ := hm
    cases us with
    | nil => cases hus
    | cons u us =>
      obtain ⟨uf, un, uo⟩ := u
      have huf : uf = .unknown := hunk _ (List.mem_cons_self ..)
      subst huf
      simp only [List.map_cons, List.cons.injEq] at hus
      obtain ⟨rfl, rfl⟩ := hus
      refine ⟨_, us ++ [⟨F, T.name, own⟩], rfl, ?_⟩
      have hadv := fun st => advance_section (p := ⟨.unknown, un, uo⟩) (by simp) st l
      have hj : ∀ x, G ⟨.unknown, un, uo⟩ l x ↔ Ends l ∧ upper l.value ≠ un ∧ x = some .invalidEnd := fun x => (hG _ _ _ (by simp)).trans sectFault_unknown
      simp only [SCfg.step]
      have hunk' : ∀ u ∈ us, u.frame = .unknown := fun u hu => hunk u (List.mem_cons_of_mem _ hu)
      by_cases hb : Begins l
      · rw [if_pos (show upper l.name = kBEGIN from hb)]
        refine ⟨fun x hx => absurd ((show upper l.name = c!"BEGIN" from hb).symm.trans ((hj x).1 hx).1) (by decide), ?_, fun v hv => by cases hv⟩
        intro y hy
        cases hy
        refine ⟨(⟨.unknown, l.value, []⟩ :: ⟨.unknown, un, uo⟩ :: us) ++ [⟨F, T.name, own⟩], ⟨own, hc, _, by simp, ?_, ?_, rfl⟩, fun st => ?_⟩
        · intro u hu
          rcases List.mem_cons.1 hu with rfl | hu
          · rfl
          · exact hunk u hu
        · rw [List.getLast?_cons_cons]
          exact hlast
        · rw [hadv, if_pos hb]
          simp only [List.cons_append, List.append_assoc]
          rw [Frame.enter_unknown (by simp [Frame.parts])]
          rfl
      · rw [if_neg (show ¬ upper l.name = kBEGIN from hb)]
        by_cases he : Ends l
        · rw [if_pos (show upper l.name = kEND from he)]
          by_cases hv : upper l.value = un
          · rw [if_pos hv]
            refine ⟨fun x hx => ((hj x).1 hx).2.1 hv, ?_, fun v hv => by cases hv⟩
            intro y hy
            cases hy
            cases us with
            | nil =>
              refine ⟨_, ⟨_, hc.unk (n := un) (by simpa using hlast), rfl⟩, fun st => ?_⟩
              rw [hadv, if_neg hb, if_pos he]
              rfl
            | cons w ws =>
              refine ⟨({ w with own := w.own ++ [.block un []] } :: ws) ++ [⟨F, T.name, own⟩], ⟨own, hc, _, rfl, ?_, ?_, rfl⟩, fun st => ?_⟩
              · intro u hu
                rcases List.mem_cons.1 hu with rfl | hu
                · exact hunk' w (List.mem_cons_self ..)
                · exact hunk' u (List.mem_cons_of_mem _ hu)
              · simp only [List.map_cons] at hlast
                rw [List.getLast?_cons_cons] at hlast
                exact hlast
              · rw [hadv, if_neg hb, if_pos he]
                rfl
          · rw [if_neg hv]
            refine ⟨fun x => ⟨fun hx => ((hj x).1 hx).2.2, fun hx => (hj x).2 ⟨he, hv, hx⟩⟩, fun y hy => by (cases hy), fun v hv => by (cases hv)⟩
        · rw [if_neg (show ¬ upper l.name = kEND from he)]
          refine ⟨fun x hx => he ((hj x).1 hx).1, ?_, fun v hv => by cases hv⟩
          intro y hy
          cases hy
          refine ⟨(Level.add ⟨.unknown, un, uo⟩ l :: us) ++ [⟨F, T.name, own⟩], ⟨own, hc, _, rfl, ?_, hlast, rfl⟩, fun st => ?_⟩
          · intro u hu
            rcases List.mem_cons.1 hu with rfl | hu
            · rfl
            · exact hunk' u hu
          · rw [hadv, if_neg hb, if_neg he]
            simp
  | sub i x =>
    obtain ⟨n, k, s0, hi, hM, rfl⟩ := hm
    obtain ⟨p, st0, rfl, hj, h1, h2⟩ := (hsim n (List.mem_map.2 ⟨_, List.mem_of_getElem? hi, rfl⟩)).step l hM
    refine ⟨p, st0 ++ [⟨F, T.name, own⟩], rfl, ?_⟩
    simp only [SCfg.step]
    refine ⟨hj.map ?_, ?_, ?_⟩
    · intro a _
      cases a with
      | inl y => exact ⟨_, rfl⟩
      | inr v => exact ⟨_, rfl⟩
    · intro y hy
      obtain ⟨a, ha, hy⟩ := Res.bind_eq_ok.1 hy
      cases a with
      | inl z =>
        cases hy
        obtain ⟨seg', hM', hadv'⟩ := h1 z ha
        refine ⟨seg' ++ [⟨F, T.name, own⟩], ⟨own, hc, n, k, seg', hi, hM', rfl⟩, fun st => ?_⟩
        have := hadv' (⟨F, T.name, own⟩ :: st)
        simpa using this
      | inr v =>
        cases hy
        refine ⟨_, ⟨_, hc.sub hF.wf hi v, rfl⟩, fun st => ?_⟩
        have := h2 v ha (⟨F, T.name, own⟩ :: st)
        simpa [close] using this
    · intro v hv
      obtain ⟨a, ha, hv⟩ := Res.bind_eq_ok.1 hv
      cases a <;> cases hv

/-! ## Many lines -/

variable {F : Level → Line → Option Err → Prop}

theorem sails_ne {st st' : List Level} {ls : List Line} (h : Sails F st ls st') : st ≠ [] ∧ st' ≠ [] := by
  induction h with
  | nil h => exact ⟨h, h⟩
  | cons _ _ ih => exact ⟨by simp, ih.2⟩

theorem sails_append {st st' : List Level} {a b : List Line} : Sails F st (a ++ b) st' ↔ ∃ m, Sails F st a m ∧ Sails F m b st' := by
  induction a generalizing st with
  | nil =>
    constructor
    · intro h
      exact ⟨st, .nil (sails_ne h).1, h⟩
    · rintro ⟨m, h1, h2⟩
      cases h1
      exact h2
  | cons l a ih =>
    constructor
    · intro h
      cases h with
      | cons hf h =>
        obtain ⟨m, h1, h2⟩ := ih.1 h
        exact ⟨m, .cons hf h1, h2⟩
    · rintro ⟨m, h1, h2⟩
      cases h1 with
      | cons hf h => exact .cons hf (ih.2 ⟨m, h, h2⟩)

theorem sails_unique {st a b : List Level} {ls : List Line} (h : Sails F st ls a) (h' : Sails F st ls b) : a = b := by
  induction h with
  | nil _ => cases h'; rfl
  | cons _ _ ih =>
    cases h' with
    | cons _ h' => exact ih h'

theorem sails_nil {st st' : List Level} (h : Sails F st [] st') : st = st' ∧ st ≠ [] := by
  cases h with
  | nil h => exact ⟨rfl, h⟩

/-- One line behind others. -/
theorem sails_snoc {st st' : List Level} {ls : List Line} {l : Line} : Sails F st (ls ++ [l]) st' ↔
    ∃ p q, Sails F st ls (p :: q) ∧ (∀ x, ¬ F p l x) ∧ advance p q l = st' ∧ st' ≠ [] := by
  rw [sails_append]
  constructor
  · rintro ⟨m, h1, h2⟩
    cases h2 with
    | cons hf h =>
      obtain ⟨rfl, hn⟩ := sails_nil h
      exact ⟨_, _, h1, hf, rfl, hn⟩
  · rintro ⟨p, q, h1, hf, rfl, hn⟩
    exact ⟨_, h1, .cons hf (.nil hn)⟩

/-- The line where reading ends: either it is at fault, or it ends the outermost block. -/
def Halts (F : Level → Line → Option Err → Prop) (p : Level) (st : List Level) (l : Line) : Prop := (∃ x, F p l x) ∨ advance p st l = []

theorem sails_not_halts {st st' : List Level} {ls pre post : List Line} {m : Line} {q : Level} {sq : List Level} (h : Sails F st ls st') (e : ls = pre ++ m :: post)
    (h1 : Sails F st pre (q :: sq)) : ¬ Halts F q sq m := by
  subst e
  obtain ⟨k, ha, hb⟩ := sails_append.1 h
  obtain rfl := sails_unique h1 ha
  cases hb with
  | cons hf hb =>
    rintro (⟨x, hx⟩ | hx)
    · exact hf x hx
    · exact (sails_ne hb).1 hx

/-- Reading ends at one line only. -/
theorem halts_unique {st : List Level} {ls pre post pre' post' : List Line} {m m' : Line} {q q' : Level} {sq sq' : List Level} (e : ls = pre ++ m :: post)
    (h : Sails F st pre (q :: sq)) (hh : Halts F q sq m) (e' : ls = pre' ++ m' :: post') (h' : Sails F st pre' (q' :: sq')) (hh' : Halts F q' sq' m') :
    pre = pre' ∧ m = m' ∧ post = post' ∧ q = q' ∧ sq = sq' := by
  have hlen : pre.length = pre'.length := by
    rcases Nat.lt_trichotomy pre.length pre'.length with hl | hl | hl
    · exfalso
      have hp : ∃ x, pre' = pre ++ m :: x := by
        have h1 : pre ++ m :: post = pre' ++ m' :: post' := e ▸ e'
        rcases List.append_eq_append_iff.1 h1 with ⟨a, rfl, ha⟩ | ⟨a, rfl, _⟩
        · cases a with
          | nil => simp at hl
          | cons b a => simp only [List.cons_append, List.cons.injEq] at ha; exact ⟨a, by rw [← ha.1]⟩
        · simp at hl; omega
      obtain ⟨x, hx⟩ := hp
      exact sails_not_halts h' hx h hh
    · exact hl
    · exfalso
      have hp : ∃ x, pre = pre' ++ m' :: x := by
        have h1 : pre' ++ m' :: post' = pre ++ m :: post := e' ▸ e
        rcases List.append_eq_append_iff.1 h1 with ⟨a, rfl, ha⟩ | ⟨a, rfl, _⟩
        · cases a with
          | nil => simp at hl
          | cons b a => simp only [List.cons_append, List.cons.injEq] at ha; exact ⟨a, by rw [← ha.1]⟩
        · simp at hl; omega
      obtain ⟨x, hx⟩ := hp
      exact sails_not_halts h hx h' hh'
  obtain ⟨rfl, h2⟩ := List.append_inj (e.symm.trans e') hlen
  simp only [List.cons.injEq] at h2
  obtain ⟨rfl, rfl⟩ := h2
  have := sails_unique h h'
  simp only [List.cons.injEq] at this
  exact ⟨rfl, rfl, rfl, this.1, this.2⟩

/-- Reading lines: all of them are read, or one of them is at fault, or one of them ends the section. -/
theorem Tracks.run {srun : Term → τ → List Line → Res (σ × List Line)} {sstep : τ → Line → Res (τ ⊕ σ)} {n : Str} {M : τ → List Level → Prop} (hst : Steps srun sstep)
    (hs : Tracks F sstep n M) : ∀ (ls : List Line) (x : τ) (seg : List Level), M x seg →
    (∃ y seg', Sails F seg ls seg' ∧ M y seg' ∧ ∀ t, srun t x ls = srun t y []) ∨
    (∃ pre m post q sq, ls = pre ++ m :: post ∧ Sails F seg pre (q :: sq) ∧
      ((∃ e, (∀ z, F q m z ↔ z = some e) ∧ ∀ t, srun t x ls = .err e) ∨ ((∀ z, F q m z ↔ z = none) ∧ ∀ t, srun t x ls = .panic) ∨
        (∃ v, (∀ z, ¬ F q m z) ∧ advance q sq m = [] ∧ ∀ t, srun t x ls = .ok (v, post)))) := by
  intro ls
  induction ls with
  | nil =>
    intro x seg hM
    refine Or.inl ⟨x, seg, .nil ?_, hM, fun t => rfl⟩
    obtain ⟨p, st0, rfl, _⟩ := hs.step ⟨[], [], []⟩ hM
    simp
  | cons l r ih =>
    intro x seg hM
    obtain ⟨p, st0, rfl, hj, h1, h2⟩ := hs.step l hM
    have hr := fun t => hst t x l r
    cases hx : sstep x l with
    | ok a =>
      rw [hx] at hj hr
      cases a with
      | inl y =>
        obtain ⟨seg', hM', hadv⟩ := h1 y hx
        have hadv : advance p st0 l = seg' := by simpa using hadv []
        rcases ih y seg' hM' with ⟨z, sg, hz, hMz, hrz⟩ | ⟨pre, m, post, q, sq, rfl, hsl, hor⟩
        · exact Or.inl ⟨z, sg, .cons hj (hadv ▸ hz), hMz, fun t => (hr t).trans (hrz t)⟩
        · refine Or.inr ⟨l :: pre, m, post, q, sq, rfl, .cons hj (hadv ▸ hsl), ?_⟩
          rcases hor with ⟨e, he, ht⟩ | ⟨he, ht⟩ | ⟨v, he, ha, ht⟩
          · exact Or.inl ⟨e, he, fun t => (hr t).trans (ht t)⟩
          · exact Or.inr (Or.inl ⟨he, fun t => (hr t).trans (ht t)⟩)
          · exact Or.inr (Or.inr ⟨v, he, ha, fun t => (hr t).trans (ht t)⟩)
      | inr v =>
        have hadv : advance p st0 l = [] := by simpa [close] using h2 v hx []
        exact Or.inr ⟨[], l, r, p, st0, rfl, .nil (by simp), Or.inr (Or.inr ⟨v, hj, hadv, hr⟩)⟩
    | err e =>
      rw [hx] at hj hr
      exact Or.inr ⟨[], l, r, p, st0, rfl, .nil (by simp), Or.inl ⟨e, hj, hr⟩⟩
    | panic =>
      rw [hx] at hj hr
      exact Or.inr ⟨[], l, r, p, st0, rfl, .nil (by simp), Or.inr (Or.inl ⟨hj, hr⟩)⟩

/-! ## Rules of time zones and the inside of alarms -/

def noMatch (_ : Str) (x : Empty) (_ : List Level) : Prop := nomatch x

theorem leaf_frame {T : Tab Empty} (hw : T.Wf) (hs : T.subs = []) (hr : ∀ r ∈ T.rules, ∀ n ∈ r.names, n ∈ T.fields.map (·.key)) : FrameOf (.leaf T) T :=
  ⟨hw, rfl, rfl, by rw [hs]; rfl, trivial, hr⟩

theorem leaf_sim {E : Env} {G : Level → Line → Option Err → Prop} (hG : ∀ p l x, p.frame ≠ .alarm → (G p l x ↔ SectFault E p l x)) {T : Tab Empty} (hF : FrameOf (.leaf T) T) :
    Tracks G (leafStep E T) T.name (SegOf (.leaf T) T noMatch) :=
  section_sim hG hF (fun _ k => nomatch k) (fun _ _ => ⟨fun {x} => nomatch x⟩)

theorem leaf_start (T : Tab Empty) : SegOf (.leaf T) T noMatch (⟨T.start Empty, .own⟩ : LCfg) [⟨.leaf T, T.name, []⟩] := ⟨[], counts_start T, rfl⟩

theorem alarm_frame (a : AKind) : FrameOf (.leaf a.tab) a.tab := leaf_frame (aTab_wf a) (aTab_name a).2 (by cases a <;> decide)

/-- Decoding the lines of an alarm. -/
theorem alarm_decode (E : Env) (a : AKind) (ls : List Line) :
    (a.tab.decode E noSub (.error .unexpectedEOF) ls = .err .unexpectedEOF ∧ ∃ st, Sails (SectFault E) (alarmStart a) ls st) ∨
    (∃ pre m post q sq, ls = pre ++ m :: post ∧ Sails (SectFault E) (alarmStart a) pre (q :: sq) ∧
      ((∃ e, (∀ z, SectFault E q m z ↔ z = some e) ∧ a.tab.decode E noSub (.error .unexpectedEOF) ls = .err e) ∨
        ((∀ z, SectFault E q m z ↔ z = none) ∧ a.tab.decode E noSub (.error .unexpectedEOF) ls = .panic) ∨
        (∃ v, (∀ z, ¬ SectFault E q m z) ∧ advance q sq m = [] ∧ a.tab.decode E noSub (.error .unexpectedEOF) ls = .ok v))) := by
  have h0 : alarmStart a = [⟨.leaf a.tab, a.tab.name, []⟩] := by rw [(aTab_name a).1]; rfl
  have hd : ∀ t, a.tab.decode E noSub t ls = leafRun E a.tab t ⟨a.tab.start Empty, .own⟩ ls := fun t => rfl
  rw [h0]
  rcases (leaf_sim (G := SectFault E) (fun _ _ _ _ => Iff.rfl) (alarm_frame a)).run (leaf_steps E a.tab) ls _ _ (leaf_start a.tab) with
    ⟨y, seg, hs, _, ht⟩ | ⟨pre, m, post, q, sq, he, hs, hor⟩
  · refine Or.inl ⟨?_, seg, hs⟩
    rw [hd, ht, leafRun_nil]
    rfl
  · refine Or.inr ⟨pre, m, post, q, sq, he, hs, ?_⟩
    rcases hor with ⟨e, h1, ht⟩ | ⟨h1, ht⟩ | ⟨v, h1, h2, ht⟩
    · exact Or.inl ⟨e, h1, (hd _).trans (ht _)⟩
    · exact Or.inr (Or.inl ⟨h1, (hd _).trans (ht _)⟩)
    · exact Or.inr (Or.inr ⟨_, h1, h2, (hd _).trans (ht _)⟩)

/-! ## Alarms -/

theorem fault_section {E : Env} (p : Level) (l : Line) (x : Option Err) (h : p.frame ≠ .alarm) : Fault E p l x ↔ SectFault E p l x := by
  constructor
  · intro hf
    cases hf with
    | sect _ h => exact h
    | block h' => exact absurd h' h
    | twoActions h' => exact absurd h' h
    | noAction h' => exact absurd h' h
    | alarm h' => exact absurd h' h
    | unclosed h' => exact absurd h' h
  · exact .sect h

/-- The kind of alarm that is known so far. -/
def KindOf (a : Option AKind) (own : List Item) : Prop := ∀ b, Acts own b ↔ a = some b

/-- The blocks that are open in a subsection. -/
def SubOf (n : Str) (x : SubCfg) (seg : List Level) : Prop :=
  match x with
  | .leaf T c => FrameOf (.leaf T) T ∧ T.name = n ∧ SegOf (.leaf T) T noMatch c seg
  | .alarm a k => ∃ own, seg = [⟨.alarm, n, own⟩] ∧ ownLines own = k ∧ KindOf a own

theorem acts_add {own : List Item} {l : Line} {b : AKind} : Acts (own ++ [.line l]) b ↔ Acts own b ∨ (l.name = c!"ACTION" ∧ l.value = b.action) := by
  unfold Acts
  constructor
  · rintro ⟨m, hm, h1, h2⟩
    rcases List.mem_append.1 hm with hm | hm
    · exact Or.inl ⟨m, hm, h1, h2⟩
    · simp only [List.mem_singleton, Item.line.injEq] at hm
      subst hm
      exact Or.inr ⟨h1, h2⟩
  · rintro (⟨m, hm, h1, h2⟩ | ⟨h1, h2⟩)
    · exact ⟨m, List.mem_append.2 (Or.inl hm), h1, h2⟩
    · exact ⟨l, by simp, h1, h2⟩

theorem ownLines_add {own : List Item} {l : Line} : ownLines (own ++ [.line l]) = ownLines own ++ [l] := by
  unfold ownLines
  rw [List.filterMap_append]
  rfl

theorem advance_alarm (n : Str) (own : List Item) (st : List Level) (l : Line) :
    advance ⟨.alarm, n, own⟩ st l = if l.name = c!"END" then close st n else ⟨.alarm, n, own ++ [.line l]⟩ :: st := rfl

/-- A line of an alarm that is neither BEGIN, END nor ACTION. -/
theorem fault_alarm_plain {E : Env} {n : Str} {own : List Item} {l : Line} {x : Option Err} (hb : l.name ≠ c!"BEGIN") (he : l.name ≠ c!"END") (ha : l.name = c!"ACTION" → ∀ b, ¬ Acts own b) :
    ¬ Fault E ⟨.alarm, n, own⟩ l x := by
  intro h
  cases h with
  | sect h => exact h rfl
  | block _ h => exact hb h
  | twoActions _ h1 h2 => exact ha h1 _ h2
  | noAction _ h => exact he h
  | alarm _ h => exact he h
  | unclosed _ h => exact he h

/-- The end of an alarm. -/
theorem judged_alarmEnd {E : Env} {n : Str} {own : List Item} {a : Option AKind} (hk : KindOf a own) {l : Line} (he : l.name = c!"END") :
    Judged (Fault E) ⟨.alarm, n, own⟩ l (alarmEnd E a (ownLines own ++ [l])) := by
  have hb : l.name ≠ c!"BEGIN" := by rw [he]; decide
  have hc : l.name ≠ c!"ACTION" := by rw [he]; decide
  cases a with
  | none =>
    have hno : ∀ b, ¬ Acts own b := fun b hb => by have := (hk b).1 hb; cases this
    intro x
    constructor
    · intro h
      cases h with
      | sect h => exact absurd rfl h
      | block _ h => exact absurd h hb
      | twoActions _ h => exact absurd h hc
      | noAction => rfl
      | alarm _ _ h => exact absurd h (hno _)
      | unclosed _ _ h => exact absurd h (hno _)
    · rintro rfl
      exact .noAction rfl he hno
  | some a =>
    have hact := (hk a).2 rfl
    have huniq : ∀ {b}, Acts own b → b = a := fun hb => by have := (hk _).1 hb; cases this; rfl
    have hany : ∀ {x : Option Err}, Fault E ⟨.alarm, n, own⟩ l x →
        (∃ pre m post q st, ownLines own ++ [l] = pre ++ m :: post ∧ Sails (SectFault E) (alarmStart a) pre (q :: st) ∧ SectFault E q m x) ∨
        (x = some .unexpectedEOF ∧ ∃ st, Sails (SectFault E) (alarmStart a) (ownLines own ++ [l]) st) := by
      intro x h
      cases h with
      | sect h => exact absurd rfl h
      | block _ h => exact absurd h hb
      | twoActions _ h => exact absurd h hc
      | noAction _ _ h => exact absurd hact (h _)
      | alarm _ _ h1 h2 h3 h4 =>
        obtain rfl := huniq h1
        exact Or.inl ⟨_, _, _, _, _, h2, h3, h4⟩
      | unclosed _ _ h1 h2 =>
        obtain rfl := huniq h1
        exact Or.inr ⟨rfl, _, h2⟩
    unfold alarmEnd
    dsimp only
    rcases alarm_decode E a (ownLines own ++ [l]) with ⟨hd, st, hs⟩ | ⟨pre, m, post, q, sq, heq, hs, hor⟩
    · rw [hd]
      intro x
      constructor
      · intro h
        rcases hany h with ⟨pre, m, post, q, st', h1, h2, h3⟩ | ⟨rfl, _⟩
        · exact absurd (Or.inl ⟨_, h3⟩) (sails_not_halts hs h1 h2)
        · rfl
      · rintro rfl
        exact .unclosed rfl he hact hs
    · have hone : ∀ {x : Option Err}, Halts (SectFault E) q sq m → Fault E ⟨.alarm, n, own⟩ l x → SectFault E q m x := by
        intro x hh h
        rcases hany h with ⟨pre', m', post', q', st', h1, h2, h3⟩ | ⟨_, st, h⟩
        · obtain ⟨_, rfl, _, rfl, _⟩ := halts_unique heq hs hh h1 h2 (Or.inl ⟨_, h3⟩)
          exact h3
        · exact absurd hh (sails_not_halts h heq hs)
      rcases hor with ⟨e, h1, hd⟩ | ⟨h1, hd⟩ | ⟨v, h1, h2, hd⟩ <;> rw [hd]
      · intro x
        have hh : Halts (SectFault E) q sq m := Or.inl ⟨_, (h1 _).2 rfl⟩
        exact ⟨fun h => (h1 x).1 (hone hh h), fun h => .alarm rfl he hact heq hs ((h1 x).2 h)⟩
      · intro x
        have hh : Halts (SectFault E) q sq m := Or.inl ⟨_, (h1 _).2 rfl⟩
        exact ⟨fun h => (h1 x).1 (hone hh h), fun h => .alarm rfl he hact heq hs ((h1 x).2 h)⟩
      · exact fun x hx => h1 x (hone (Or.inr h2) hx)

theorem sub_sim (E : Env) (n : Str) : Tracks (Fault E) (subStep E) n (SubOf n) := by
  refine ⟨?_⟩
  intro x seg l hM
  cases x with
  | leaf T c =>
    obtain ⟨hF, rfl, hM⟩ := hM
    obtain ⟨p, st0, rfl, hj, h1, h2⟩ := (leaf_sim (G := Fault E) fault_section hF).step l hM
    refine ⟨p, st0, rfl, hj.map ?_, ?_, ?_⟩
    · intro a _
      cases a with
      | inl y => exact ⟨_, rfl⟩
      | inr v => exact ⟨_, rfl⟩
    · intro y hy
      obtain ⟨a, ha, hy⟩ := Res.bind_eq_ok.1 hy
      cases a with
      | inl z =>
        cases hy
        obtain ⟨seg', hM', hadv'⟩ := h1 z ha
        exact ⟨seg', ⟨hF, rfl, hM'⟩, hadv'⟩
      | inr v => cases hy
    · intro v hv
      obtain ⟨a, ha, hv⟩ := Res.bind_eq_ok.1 hv
      cases a with
      | inl z => cases hv
      | inr w => exact h2 w ha
  | alarm a k =>
    obtain ⟨own, rfl, rfl, hk⟩ := hM
    refine ⟨_, [], rfl, ?_⟩
    simp only [subStep, List.nil_append, advance_alarm]
    by_cases hb : l.name = c!"BEGIN"
    · rw [if_pos (show l.name = kBEGIN from hb)]
      refine ⟨?_, fun y hy => by (cases hy), fun v hv => by cases hv⟩
      intro x
      constructor
      · intro h
        cases h with
        | sect h => exact absurd rfl h
        | block => rfl
        | twoActions => rfl
        | noAction _ h => exact absurd (hb.symm.trans h) (by decide)
        | alarm _ h => exact absurd (hb.symm.trans h) (by decide)
        | unclosed _ h => exact absurd (hb.symm.trans h) (by decide)
      · rintro rfl
        exact .block rfl hb
    rw [if_neg (show ¬ l.name = kBEGIN from hb)]
    by_cases ha : l.name = c!"ACTION"
    · have he : ¬ l.name = c!"END" := by rw [ha]; decide
      rw [if_pos (show l.name = kACTION from ha)]
      cases a with
      | some a =>
        rw [if_pos (show (some a).isSome = true from rfl)]
        refine ⟨?_, fun y hy => by (cases hy), fun v hv => by cases hv⟩
        intro x
        constructor
        · intro h
          cases h with
          | sect h => exact absurd rfl h
          | block => rfl
          | twoActions => rfl
          | noAction _ h => exact absurd h he
          | alarm _ h => exact absurd h he
          | unclosed _ h => exact absurd h he
        · rintro rfl
          exact .twoActions rfl ha ((hk a).2 rfl)
      | none =>
        rw [if_neg (by simp)]
        have hno : ∀ b, ¬ Acts own b := fun b hb => by have := (hk b).1 hb; cases this
        refine ⟨fun x => fault_alarm_plain hb he (fun _ => hno), ?_, fun v hv => by cases hv⟩
        intro y hy
        cases hy
        refine ⟨_, ⟨own ++ [.line l], rfl, ownLines_add, ?_⟩, fun st => ?_⟩
        · intro b
          rw [acts_add, ofAction_some]
          exact ⟨fun h => (h.resolve_left (hno b)).2, fun h => Or.inr ⟨ha, h⟩⟩
        · rw [if_neg he]
          rfl
    rw [if_neg (show ¬ l.name = kACTION from ha)]
    by_cases he : l.name = c!"END"
    · rw [if_pos (show l.name = kEND from he)]
      refine ⟨(judged_alarmEnd hk he).map fun a _ => ⟨_, rfl⟩, ?_, ?_⟩
      · intro y hy
        obtain ⟨_, _, hy⟩ := Res.bind_eq_ok.1 hy
        cases hy
      · intro v _ st
        rw [if_pos he]
    · rw [if_neg (show ¬ l.name = kEND from he)]
      refine ⟨fun x => fault_alarm_plain hb he (fun h => absurd h ha), ?_, fun v hv => by cases hv⟩
      intro y hy
      cases hy
      refine ⟨_, ⟨own ++ [.line l], rfl, ownLines_add, ?_⟩, fun st => ?_⟩
      · intro b
        rw [acts_add]
        exact ⟨fun h => (hk b).1 (h.resolve_right fun h => ha h.1), fun h => Or.inl ((hk b).2 h)⟩
      · rw [if_neg he]
        rfl

/-! ## Components and the calendar -/

theorem Frame.enter_known {F : Frame} {n : Str} {k : Frame} (hn : (F.parts.map (·.1)).Nodup) (h : (n, k) ∈ F.parts) : F.enter n = k := by
  unfold Frame.enter
  generalize F.parts = xs at hn h
  induction xs with
  | nil => cases h
  | cons x xs ih =>
    obtain ⟨m, j⟩ := x
    simp only [List.map_cons, List.nodup_cons] at hn
    by_cases hm : m = n
    · subst hm
      simp only [List.find?_cons, decide_true]
      rcases List.mem_cons.1 h with h | h
      · cases h; rfl
      · exact absurd (List.mem_map.2 ⟨_, h, rfl⟩) hn.1
    · rw [List.find?_cons, decide_eq_false (by exact hm)]
      rcases List.mem_cons.1 h with h | h
      · cases h; exact absurd rfl hm
      · exact ih hn.2 h

/-- The names in the rules of a table are among its properties. -/
def RulesOk (T : Tab κ) : Prop := ∀ r ∈ T.rules, ∀ n ∈ r.names, n ∈ T.fields.map (·.key)

theorem compTab_rules : ∀ x ∈ tabCalendar.subs, RulesOk x.2 ∧ ∀ y ∈ x.2.subs, ∀ T, y.2 = .leaf T → RulesOk T := by
  intro x hx
  simp only [tabCalendar, List.mem_cons, List.not_mem_nil, or_false] at hx
  rcases hx with rfl | rfl | rfl | rfl | rfl <;> refine ⟨by unfold RulesOk; decide, ?_⟩ <;> intro y hy
  all_goals
    simp only [tabEvent, tabTodo, tabJournal, tabFreeBusy, tabTimezone, List.mem_cons, List.not_mem_nil, or_false] at hy
  · subst hy; intro T h; cases h
  · subst hy; intro T h; cases h
  · rcases hy with rfl | rfl <;> intro T h <;> cases h <;> unfold RulesOk <;> decide

theorem comp_frame {x : Str × Tab SubKind} (hx : x ∈ tabCalendar.subs) : FrameOf (.comp x.2) x.2 :=
  ⟨(compTab_good x hx).1, rfl, rfl, by simp [Frame.parts], trivial, (compTab_rules x hx).1⟩

theorem cal_frame : FrameOf .cal tabCalendar :=
  ⟨calTab_wf, rfl, rfl, by simp [Frame.parts], trivial, by decide⟩

/-- The blocks that are open in a component. -/
def CompOf (n : Str) (x : CompCfg) (seg : List Level) : Prop := (n, x.T) ∈ tabCalendar.subs ∧ SegOf (.comp x.T) x.T SubOf x.c seg

theorem comp_sim (E : Env) (n : Str) : Tracks (Fault E) (compStep E) n (CompOf n) := by
  refine ⟨?_⟩
  rintro ⟨T, c⟩ seg l ⟨hT, hM⟩
  have hF := comp_frame hT
  obtain ⟨_, hn, hg⟩ := compTab_good _ hT
  dsimp only at hn hT hM hF hg
  have hsim : Tracks (Fault E) (SCfg.step E T subInit (subStep E)) T.name (SegOf (.comp T) T SubOf) := by
    refine section_sim fault_section hF ?_ fun n _ => sub_sim E n
    intro m k hk
    have hgk := hg _ hk
    have hnd : ((Frame.comp T).parts.map (·.1)).Nodup := by
      rw [hF.parts]
      exact hF.wf.subs
    cases k with
    | leaf T' =>
      obtain ⟨g1, g2, g3⟩ := hgk
      rw [Frame.enter_known (k := .leaf T') hnd (List.mem_map.2 ⟨_, hk, rfl⟩)]
      dsimp only at g2
      subst g2
      exact ⟨leaf_frame g1 g3 ((compTab_rules _ hT).2 _ hk T' rfl), rfl, leaf_start T'⟩
    | alarm =>
      rw [Frame.enter_known (k := .alarm) hnd (List.mem_map.2 ⟨_, hk, rfl⟩)]
      refine ⟨[], rfl, rfl, fun b => ⟨?_, fun h => by cases h⟩⟩
      rintro ⟨l, hl, _⟩
      cases hl
  obtain ⟨p, st0, rfl, hj, h1, h2⟩ := hsim.step l hM
  refine ⟨p, st0, rfl, hj.map ?_, ?_, ?_⟩
  · intro a _
    cases a with
    | inl y => exact ⟨_, rfl⟩
    | inr v => exact ⟨_, rfl⟩
  · intro y hy
    obtain ⟨a, ha, hy⟩ := Res.bind_eq_ok.1 hy
    cases a with
    | inl z =>
      cases hy
      obtain ⟨seg', hM', hadv'⟩ := h1 z ha
      exact ⟨seg', ⟨hT, hM'⟩, hadv'⟩
    | inr v => cases hy
  · intro v hv
    obtain ⟨a, ha, hv⟩ := Res.bind_eq_ok.1 hv
    cases a with
    | inl z => cases hv
    | inr w => rw [← hn]; exact h2 w ha

/-- The blocks that are open in the calendar. -/
def CalOf : CalCfg → List Level → Prop := SegOf .cal tabCalendar CompOf

theorem cal_sim (E : Env) : Tracks (Fault E) (calStep E) tabCalendar.name CalOf := by
  refine section_sim fault_section cal_frame ?_ fun n _ => comp_sim E n
  intro n T hT
  have hent : Frame.cal.enter n = .comp T := by
    refine Frame.enter_known ?_ (List.mem_map.2 ⟨_, hT, rfl⟩)
    rw [cal_frame.parts]
    exact calTab_wf.subs
  rw [hent]
  obtain ⟨_, hn, _⟩ := compTab_good _ hT
  refine ⟨hT, [], counts_start T, ?_⟩
  dsimp only at hn
  simp only [compInit]
  rw [hn]

theorem cal_start : CalOf calInit calStart := ⟨[], counts_start tabCalendar, rfl⟩

/-- In the middle of an alarm. -/
theorem calOf_inAlarm {c : CalCfg} {p : Level} {st : List Level} (h : CalOf c (p :: st)) : c.inAlarm = true ↔ p.frame = .alarm := by
  obtain ⟨s, inner⟩ := c
  obtain ⟨own, _, hm⟩ := h
  cases inner with
  | own =>
    simp only [List.cons.injEq] at hm
    obtain ⟨rfl, rfl⟩ := hm
    simp [CalCfg.inAlarm]
  | skip n ns =>
    obtain ⟨us, hus, hunk, _, he⟩ := hm
    cases us with
    | nil => cases hus
    | cons u us =>
      simp only [List.cons_append, List.cons.injEq] at he
      obtain ⟨rfl, rfl⟩ := he
      rw [hunk p (List.mem_cons_self ..)]
      simp [CalCfg.inAlarm]
  | sub i x =>
    obtain ⟨T, s2, inner2⟩ := x
    obtain ⟨n, k, s0, _, ⟨_, own2, _, hm2⟩, he⟩ := hm
    cases inner2 with
    | own =>
      simp only at hm2
      subst hm2
      simp only [List.cons_append, List.cons.injEq] at he
      obtain ⟨rfl, rfl⟩ := he
      simp [CalCfg.inAlarm]
    | skip n ns =>
      obtain ⟨us, hus, hunk, _, rfl⟩ := hm2
      cases us with
      | nil => cases hus
      | cons u us =>
        simp only [List.cons_append, List.cons.injEq] at he
        obtain ⟨rfl, rfl⟩ := he
        rw [hunk p (List.mem_cons_self ..)]
        simp [CalCfg.inAlarm]
    | sub j y =>
      obtain ⟨n2, k2, s1, _, hM, rfl⟩ := hm2
      cases y with
      | leaf T' c' =>
        have : ∃ q r, s1 = q :: r ∧ q.frame ≠ .alarm := by
          obtain ⟨hF, _, own3, _, hm3⟩ := hM
          obtain ⟨s3, inner3⟩ := c'
          cases inner3 with
          | own => simp only at hm3; exact ⟨_, _, hm3, by simp⟩
          | skip n ns =>
            obtain ⟨us, hus, hunk, _, rfl⟩ := hm3
            cases us with
            | nil => cases hus
            | cons u us => exact ⟨u, _, rfl, by rw [hunk u (List.mem_cons_self ..)]; simp⟩
          | sub i x => exact nomatch x
        obtain ⟨q, r, rfl, hq⟩ := this
        simp only [List.cons_append, List.cons.injEq] at he
        obtain ⟨rfl, rfl⟩ := he
        simp [CalCfg.inAlarm, hq]
      | alarm a k =>
        obtain ⟨own3, rfl, _⟩ := hM
        simp only [List.cons_append, List.cons.injEq] at he
        obtain ⟨rfl, rfl⟩ := he
        simp [CalCfg.inAlarm]

/-! ## Documents -/

/-- What becomes of a document that begins with the right line: all lines are read, or one is at fault, or one ends the calendar. -/
theorem decodeStream_cases (E : Env) (b : Line) (hb : Opening b) (ls : List Line) :
    (∃ p st, Midway E (b :: ls) (p :: st) ∧ ∀ t, (p.frame = .alarm ∧ t = .done → decodeStream E ⟨b :: ls, t⟩ = .panic) ∧
      (¬ (p.frame = .alarm ∧ t = .done) → decodeStream E ⟨b :: ls, t⟩ = .err t.err)) ∨
    (∃ pre m post q sq, ls = pre ++ m :: post ∧ Midway E (b :: pre) (q :: sq) ∧
      ((∃ e, (∀ z, Fault E q m z ↔ z = some e) ∧ ∀ t, decodeStream E ⟨b :: ls, t⟩ = .err e) ∨
        ((∀ z, Fault E q m z ↔ z = none) ∧ ∀ t, decodeStream E ⟨b :: ls, t⟩ = .panic) ∨
        (∃ v, (∀ z, ¬ Fault E q m z) ∧ advance q sq m = [] ∧ ∀ t, decodeStream E ⟨b :: ls, t⟩ = .ok v))) := by
  have hd : ∀ t, decodeStream E ⟨b :: ls, t⟩ = calRun E t calInit ls >>= fun x => .ok x.1 := by
    intro t
    unfold decodeStream
    simp only
    rw [if_pos (show upper b.name = kBEGIN ∧ upper b.value = tabCalendar.name from hb)]
    have h : tabCalendar.decode E (compDecode E t) t ls = calRun E t calInit ls := rfl
    rw [h]
    cases calRun E t calInit ls <;> rfl
  rcases (cal_sim E).run (cal_steps E) ls _ _ cal_start with ⟨y, seg, hs, hM, ht⟩ | ⟨pre, m, post, q, sq, he, hs, hor⟩
  · cases seg with
    | nil => exact absurd rfl (sails_ne hs).2
    | cons p st =>
      refine Or.inl ⟨p, st, ⟨b, ls, rfl, hb, hs⟩, fun t => ?_⟩
      rw [hd, ht, calRun_nil]
      constructor
      · intro ha
        rw [if_pos ⟨(calOf_inAlarm hM).2 ha.1, ha.2⟩]
        rfl
      · intro ha
        rw [if_neg (fun h => ha ⟨(calOf_inAlarm hM).1 h.1, h.2⟩)]
        rfl
  · refine Or.inr ⟨pre, m, post, q, sq, he, ⟨b, pre, rfl, hb, hs⟩, ?_⟩
    rcases hor with ⟨e, h1, ht⟩ | ⟨h1, ht⟩ | ⟨v, h1, h2, ht⟩
    · exact Or.inl ⟨e, h1, fun t => by rw [hd, ht]; rfl⟩
    · exact Or.inr (Or.inl ⟨h1, fun t => by rw [hd, ht]; rfl⟩)
    · exact Or.inr (Or.inr ⟨v, h1, h2, fun t => by rw [hd, ht]; rfl⟩)

end Ics
