import Verif.ComposeExactLemmas
import Verif.EditLemmas
/-!
# Lemmas: edits that make no difference, at any place of any document
-/

namespace Ics

open Spec

variable {κ σ τ : Type}

/-- The rest of a block that is being read. -/
def AlikeAt (E : Env) (t : Term) (p : Level) (a b : List Line) : Prop :=
  match p.frame with
  | .cal => ∀ s, Sect.run E tabCalendar (compDecode E t) t s a = Sect.run E tabCalendar (compDecode E t) t s b
  | .comp T => ∀ s, Sect.run E T (subDecode E t) t s a = Sect.run E T (subDecode E t) t s b
  | .leaf T => ∀ s : Leaf, Sect.run E T noSub t s a = Sect.run E T noSub t s b
  | .alarm => ∀ k, KindOf k p.own → subRun E t (.alarm k (ownLines p.own)) a = subRun E t (.alarm k (ownLines p.own)) b
  | .unknown => skip t p.name a = skip t p.name b

theorem segOf_alike {E : Env} {t : Term} {F : Frame} {T : Tab κ} {M : Str → τ → List Level → Prop} {sub : Term → κ → List Line → Res (σ × List Line)}
    {srun : Term → τ → List Line → Res (σ × List Line)} {c : SCfg σ τ} {p : Level} {s0 : List Level} (hM : SegOf F T M c (p :: s0)) {a b : List Line}
    (hown : p.frame = F → ∀ s, Sect.run E T (sub t) t s a = Sect.run E T (sub t) t s b) (hskip : p.frame = .unknown → skip t p.name a = skip t p.name b)
    (hne : ∀ n x s, M n x s → s ≠ []) (hsub : ∀ n x s0, M n x (p :: s0) → srun t x a = srun t x b) :
    SCfg.run E T sub srun t c a = SCfg.run E T sub srun t c b := by
  obtain ⟨s, inner⟩ := c
  obtain ⟨own, hc, hm⟩ := hM
  cases inner with
  | own =>
    simp only [List.cons.injEq] at hm
    simp only [SCfg.run]
    rw [hown (by rw [hm.1]) s]
  | skip n ns =>
    obtain ⟨us, hus, hunk, _, he⟩ := hm
    cases us with
    | nil => cases hus
    | cons u us =>
      simp only [List.cons_append, List.cons.injEq] at he
      obtain ⟨rfl, _⟩ := he
      simp only [List.map_cons, List.cons.injEq] at hus
      simp only [SCfg.run, skips]
      rw [← hus.1, hskip (hunk _ (List.mem_cons_self ..))]
  | sub i x =>
    obtain ⟨n, k, s1, hi, hM, he⟩ := hm
    cases s1 with
    | nil => exact absurd rfl (hne _ _ _ hM)
    | cons q s1 =>
      simp only [List.cons_append, List.cons.injEq] at he
      obtain ⟨rfl, _⟩ := he
      simp only [SCfg.run]
      rw [hsub _ _ _ hM]

theorem subOf_alike {E : Env} {t : Term} {n : Str} {x : SubCfg} {p : Level} {s0 : List Level} (hM : SubOf n x (p :: s0)) {a b : List Line} (h : AlikeAt E t p a b) :
    subRun E t x a = subRun E t x b := by
  unfold AlikeAt at h
  cases x with
  | leaf T c =>
    obtain ⟨_, _, hM⟩ := hM
    simp only [subRun]
    have : leafRun E T t c a = leafRun E T t c b := by
      refine segOf_alike hM ?_ ?_ (fun _ x => nomatch x) (fun _ x => nomatch x)
      · intro hf
        rw [hf] at h
        exact h
      · intro hf
        rw [hf] at h
        exact h
    rw [this]
  | alarm k ls =>
    obtain ⟨own, he, hk, hkind⟩ := hM
    simp only [List.cons.injEq] at he
    obtain ⟨rfl, _⟩ := he
    subst hk
    exact h k hkind

theorem compOf_alike {E : Env} {t : Term} {n : Str} {x : CompCfg} {p : Level} {s0 : List Level} (hM : CompOf n x (p :: s0)) {a b : List Line} (h : AlikeAt E t p a b) :
    compRun E t x a = compRun E t x b := by
  obtain ⟨_, hM⟩ := hM
  refine segOf_alike hM ?_ ?_ ?_ ?_
  · intro hf
    unfold AlikeAt at h
    rw [hf] at h
    exact h
  · intro hf
    unfold AlikeAt at h
    rw [hf] at h
    exact h
  · intro n x s hM he
    obtain ⟨p, st0, rfl, _⟩ := (sub_sim E n).step ⟨[], [], []⟩ hM
    cases he
  · exact fun n x s0 hM => subOf_alike hM h

/-- Lines that the innermost block reads alike make no difference to the document. -/
theorem midway_alike {E : Env} {t : Term} {pre : List Line} {p : Level} {st : List Level} (hp : Midway E pre (p :: st)) {a b : List Line} (h : AlikeAt E t p a b) :
    decodeStream E ⟨pre ++ a, t⟩ = decodeStream E ⟨pre ++ b, t⟩ := by
  obtain ⟨o, ls, rfl, ho, hs⟩ := hp
  obtain ⟨y, hM, hg⟩ := (cal_sim E).goes hs _ cal_start
  rw [List.cons_append, List.cons_append, decodeStream_calRun E t ho, decodeStream_calRun E t ho, hg.run (cal_steps E), hg.run (cal_steps E)]
  have : calRun E t y a = calRun E t y b := by
    refine segOf_alike hM ?_ ?_ ?_ ?_
    · intro hf
      unfold AlikeAt at h
      rw [hf] at h
      exact h
    · intro hf
      unfold AlikeAt at h
      rw [hf] at h
      exact h
    · intro n x s hM he
      obtain ⟨p, st0, rfl, _⟩ := (comp_sim E n).step ⟨[], [], []⟩ hM
      cases he
    · exact fun n x s0 hM => compOf_alike hM h
  rw [this]

/-! ## Edits -/

/-- A line that is not known. -/
theorem alike_unknown {E : Env} {t : Term} {p : Level} (hp : p.frame ≠ .alarm) {l : Line} (hb : ¬ Begins l) (he : ¬ Ends l) (hf : ∀ f ∈ p.frame.fields, f.key ≠ upper l.name)
    (r : List Line) : AlikeAt E t p (l :: r) r := by
  obtain ⟨F, n, own⟩ := p
  cases F with
  | cal => exact fun s => (Sect.run_cons (compDecode_suffix E t) s l r).trans (by rw [Tab.kindOf_other hb he hf])
  | comp T => exact fun s => (Sect.run_cons (subDecode_suffix E t) s l r).trans (by rw [Tab.kindOf_other hb he hf])
  | leaf T => exact fun s => (Sect.run_cons noSub_suffix s l r).trans (by rw [Tab.kindOf_other hb he hf])
  | alarm => exact absurd rfl hp
  | unknown => exact (skip_cons t n l r).trans (by rw [if_neg (show ¬ upper _ = kBEGIN from hb), if_neg (show ¬ upper _ = kEND from he)])

/-- A block that is not known. -/
theorem alike_block {E : Env} {t : Term} {p : Level} (hp : p.frame ≠ .alarm) {b : Line} (hb : Begins b) (hn : upper b.value ∉ p.frame.parts.map (·.1)) {k : List Line}
    (hk : Skipped (p.frame.ending b.value) k) (r : List Line) : AlikeAt E t p (b :: (k ++ r)) r := by
  obtain ⟨F, n, own⟩ := p
  have hskip : skip t (F.ending b.value) (k ++ r) = .ok r := skip_iff.2 ⟨k, rfl, hk⟩
  have hm : ∀ {κ : Type} (T : Tab κ) (g : Str × κ → Frame), upper b.value ∉ (T.subs.map fun x => (x.1, g x)).map (·.1) → upper b.value ∉ T.subs.map (·.1) := by
    intro κ T g h
    simpa using h
  cases F with
  | cal => exact fun s => (Sect.run_unk (compDecode_suffix E t) hb (hm _ _ hn) s (k ++ r)).trans (by rw [show upper b.value = Frame.cal.ending b.value from rfl, hskip]; rfl)
  | comp T => exact fun s => (Sect.run_unk (subDecode_suffix E t) hb (hm _ _ hn) s (k ++ r)).trans (by rw [show upper b.value = (Frame.comp T).ending b.value from rfl, hskip]; rfl)
  | leaf T => exact fun s => (Sect.run_unk noSub_suffix hb (noSub_names T _) s (k ++ r)).trans (by rw [show upper b.value = (Frame.leaf T).ending b.value from rfl, hskip]; rfl)
  | alarm => exact absurd rfl hp
  | unknown => exact (skip_cons t n b (k ++ r)).trans (by rw [if_pos (show upper _ = kBEGIN from hb), show b.value = Frame.unknown.ending b.value from rfl, hskip]; rfl)

/-- The case of BEGIN and of the name behind it. -/
theorem alike_begin {E : Env} {t : Term} {p : Level} (hp : p.frame ≠ .alarm) {b b' : Line} (hb : Begins b) (hb' : Begins b')
    (hv : p.frame.ending b'.value = p.frame.ending b.value) (r : List Line) : AlikeAt E t p (b' :: r) (b :: r) := by
  have hrun : ∀ {κ σ : Type} {T : Tab κ} {sub : κ → List Line → Res (σ × List Line)} (_ : Suffix sub) (s : Sect σ) (_ : upper b'.value = upper b.value),
      Sect.run E T sub t s (b' :: r) = Sect.run E T sub t s (b :: r) := by
    intro κ σ T sub hs s hv
    have hk : T.kindOf b' = T.kindOf b := by
      unfold Tab.kindOf
      rw [if_pos (show upper _ = kBEGIN from hb), if_pos (show upper _ = kBEGIN from hb'), hv]
    rw [Sect.run_cons hs, Sect.run_cons hs, hk, hv]
    rcases Tab.kindOf_begin (T := T) hb with ⟨i, k, h, _⟩ | ⟨h, _⟩ <;> rw [h]
  obtain ⟨F, n, own⟩ := p
  cases F with
  | cal => exact fun s => hrun (compDecode_suffix E t) s hv
  | comp T => exact fun s => hrun (subDecode_suffix E t) s hv
  | leaf T => exact fun s => hrun noSub_suffix s hv
  | alarm => exact absurd rfl hp
  | unknown =>
    show skip t n (b' :: r) = skip t n (b :: r)
    rw [skip_cons, skip_cons, if_pos (show upper _ = kBEGIN from hb), if_pos (show upper _ = kBEGIN from hb'), show b'.value = b.value from hv]

/-- The case of END; in unknown components, of the name behind it. -/
theorem alike_end {E : Env} {t : Term} {p : Level} (hp : p.frame ≠ .alarm) {e e' : Line} (he : Ends e) (he' : Ends e')
    (hv : e'.value = e.value ∨ p.frame = .unknown ∧ upper e'.value = upper e.value) (hw : p.frame.IsSection → ∀ f ∈ p.frame.fields, f.key ≠ c!"END") (r : List Line) :
    AlikeAt E t p (e' :: r) (e :: r) := by
  have hrun : ∀ {κ σ : Type} {T : Tab κ} {sub : κ → List Line → Res (σ × List Line)} (_ : Suffix sub) (s : Sect σ) (_ : e'.value = e.value) (_ : ∀ f ∈ T.fields, f.key ≠ c!"END"),
      Sect.run E T sub t s (e' :: r) = Sect.run E T sub t s (e :: r) := by
    intro κ σ T sub hs s hv hw
    have hk : ∀ {e : Line}, Ends e → T.kindOf e = .fin := by
      intro e he
      have hn : fieldIdx (upper e.name) T.fields = none := by
        cases hi : fieldIdx (upper e.name) T.fields with
        | none => rfl
        | some i =>
          obtain ⟨f, hf, hk⟩ := fieldIdx_some hi
          exact absurd (hk.trans he) (hw f (List.mem_of_getElem? hf))
      unfold Tab.kindOf
      rw [if_neg (show ¬ upper _ = kBEGIN from Ends.not_begin he), hn]
      dsimp only
      rw [if_pos (show upper _ = kEND from he)]
    rw [Sect.run_cons hs, Sect.run_cons hs, hk he, hk he']
    dsimp only
    rw [hv]
  obtain ⟨F, n, own⟩ := p
  cases F with
  | cal => exact fun s => hrun (compDecode_suffix E t) s (hv.resolve_right (by rintro ⟨h, _⟩; cases h)) (hw trivial)
  | comp T => exact fun s => hrun (subDecode_suffix E t) s (hv.resolve_right (by rintro ⟨h, _⟩; cases h)) (hw trivial)
  | leaf T => exact fun s => hrun noSub_suffix s (hv.resolve_right (by rintro ⟨h, _⟩; cases h)) (hw trivial)
  | alarm => exact absurd rfl hp
  | unknown =>
    show skip t n (e' :: r) = skip t n (e :: r)
    rw [skip_cons, skip_cons, if_neg (show ¬ upper _ = kBEGIN from Ends.not_begin he), if_neg (show ¬ upper _ = kBEGIN from Ends.not_begin he'), if_pos (show upper _ = kEND from he),
      if_pos (show upper _ = kEND from he')]
    rcases hv with hv | ⟨_, hv⟩ <;> rw [hv]

/-- A line that is not known, in an alarm. -/
theorem alike_alarm {E : Env} {t : Term} {p : Level} (hp : p.frame = .alarm) {l : Line} {r : List Line} (hk : ∀ l ∈ ownLines p.own, ¬ Begins l ∧ ¬ Ends l)
    (hc : upper l.name ∉ control) (hu : ∀ a : AKind, a.action ∈ actions (ownLines p.own ++ r.takeWhile fun l => l.name ≠ c!"END") → ∀ f ∈ a.tab.fields, f.key ≠ upper l.name) :
    AlikeAt E t p (l :: r) r := by
  obtain ⟨F, n, own⟩ := p
  dsimp only at hp
  subst hp
  intro k0 hkind
  dsimp only at hk hu hkind ⊢
  have hb : ¬ Begins l := fun h => hc (by rw [show upper l.name = _ from h]; decide)
  have he : ¬ Ends l := fun h => hc (by rw [show upper l.name = _ from h]; decide)
  have ha : upper l.name ≠ kACTION := fun h => hc (by rw [h]; decide)
  have hcol : alarmCollect t k0 (l :: r) = alarmCollect t k0 r >>= fun x => .ok (x.1, l :: x.2.1, x.2.2) := by
    rw [alarmCollect, if_neg (upper_name_ne (n := kBEGIN) (by decide) hb), if_neg (upper_name_ne (n := kACTION) (by decide) ha), if_neg (upper_name_ne (n := kEND) (by decide) he)]
    cases alarmCollect t k0 r <;> rfl
  simp only [subRun]
  rw [hcol]
  cases hr : alarmCollect t k0 r with
  | err => rfl
  | panic => rfl
  | ok x =>
    obtain ⟨a, pt, r'⟩ := x
    simp only [Res.ok_bind]
    cases a with
    | none => rfl
    | some a =>
      have hf : ∀ f ∈ a.tab.fields, f.key ≠ upper l.name := by
        refine hu a ?_
        unfold actions
        rw [List.filter_append, List.map_append]
        rcases alarmCollect_action hr with h | h
        · refine List.mem_append.2 (Or.inl ?_)
          obtain ⟨m, hm, h1, h2⟩ := (hkind a).2 h
          refine List.mem_map.2 ⟨m, List.mem_filter.2 ⟨?_, by rw [h1]; decide⟩, h2⟩
          exact List.mem_filterMap.2 ⟨_, hm, rfl⟩
        · exact List.mem_append.2 (Or.inr h)
      have hd : a.tab.decode E noSub (.error .unexpectedEOF) (ownLines own ++ l :: pt) = a.tab.decode E noSub (.error .unexpectedEOF) (ownLines own ++ pt) := by
        obtain ⟨g, hg⟩ := Sect.run_flat (E := E) (T := a.tab) (t := .error .unexpectedEOF) noSub_suffix hk
        rw [Tab.decode_run, Tab.decode_run, hg, hg]
        simp only [Sect.run_cons noSub_suffix, Tab.kindOf_other hb he hf]
      simp only [alarmEnd, hd]

/-! ## No property is called END -/

/-- No property of the block, or of a block in it, is called END. -/
def Spec.Frame.NoEnd (F : Frame) : Prop := (∀ f ∈ F.fields, f.key ≠ c!"END") ∧ ∀ x ∈ F.parts, (∀ f ∈ x.2.fields, f.key ≠ c!"END") ∧
  ∀ y ∈ x.2.parts, (∀ f ∈ y.2.fields, f.key ≠ c!"END") ∧ y.2.parts = []

theorem Spec.Frame.NoEnd.enter {F : Frame} (h : F.NoEnd) (n : Str) : (F.enter n).NoEnd := by
  unfold Frame.enter
  split
  · next x hx =>
    have hm := List.mem_of_find?_eq_some hx
    obtain ⟨h1, h2⟩ := h.2 _ hm
    refine ⟨h1, fun y hy => ⟨(h2 y hy).1, fun z hz => ?_⟩⟩
    rw [(h2 y hy).2] at hz
    cases hz
  · exact ⟨nofun, nofun⟩

theorem cal_noEnd : Frame.cal.NoEnd := by
  refine ⟨by decide +kernel, fun x hx => ?_⟩
  obtain ⟨y, hy, rfl⟩ := List.mem_map.1 hx
  refine ⟨?_, fun z hz => ?_⟩
  · have : ∀ y ∈ tabCalendar.subs, ∀ f ∈ y.2.fields, f.key ≠ c!"END" := by decide +kernel
    exact this y hy
  · obtain ⟨w, hw, rfl⟩ := List.mem_map.1 hz
    have : ∀ y ∈ tabCalendar.subs, ∀ w ∈ y.2.subs, (match w.2 with | .leaf T => T.fields | .alarm => []).all (fun f => f.key ≠ c!"END") := by decide +kernel
    have hw' := this y hy w hw
    obtain ⟨n, k⟩ := w
    cases k with
    | leaf T => exact ⟨by simpa [Frame.fields] using hw', rfl⟩
    | alarm => exact ⟨nofun, rfl⟩

theorem Spec.Sails.noEnd {G : Level → Line → Option Err → Prop} {st st' : List Level} {ls : List Line} (h : Sails G st ls st') :
    (∀ p ∈ st, p.frame.NoEnd) → ∀ p ∈ st', p.frame.NoEnd := by
  have hclose : ∀ (st : List Level) (n : Str), (∀ p ∈ st, p.frame.NoEnd) → ∀ p ∈ close st n, p.frame.NoEnd := by
    intro st n h
    cases st with
    | nil => exact h
    | cons q st =>
      intro p hp
      rcases List.mem_cons.1 hp with rfl | hp
      · exact h q (List.mem_cons_self ..)
      · exact h p (List.mem_cons_of_mem _ hp)
  induction h with
  | nil _ => exact id
  | @cons p st st' l ls _ _ ih =>
    intro h
    refine ih ?_
    have hp := h p (List.mem_cons_self ..)
    have hst : ∀ q ∈ st, q.frame.NoEnd := fun q hq => h q (List.mem_cons_of_mem _ hq)
    have hadd : ∀ q ∈ p.add l :: st, q.frame.NoEnd := by
      intro q hq
      rcases List.mem_cons.1 hq with rfl | hq
      · exact hp
      · exact hst q hq
    unfold advance
    split
    · split
      · exact hclose _ _ hst
      · exact hadd
    · split
      · intro q hq
        rcases List.mem_cons.1 hq with rfl | hq
        · exact hp.enter _
        · exact h q hq
      · split
        · exact hclose _ _ hst
        · exact hadd

theorem Spec.Midway.noEnd {E : Env} {pre : List Line} {p : Level} {st : List Level} (h : Midway E pre (p :: st)) : p.frame.NoEnd := by
  obtain ⟨_, _, _, _, hs⟩ := h
  refine hs.noEnd ?_ p (List.mem_cons_self ..)
  intro q hq
  rw [calStart, List.mem_singleton] at hq
  subst hq
  exact cal_noEnd

/-! ## Blocks that are not known are closed -/

/-- An unknown block that has ended. -/
theorem sails_skipped {E : Env} {st' : List Level} : ∀ (n : Nat) (ls : List Line) (u : Level) (st : List Level), ls.length ≤ n → u.frame = .unknown → Sails (Fault E) (u :: st) ls st' →
    st'.length ≤ st.length → ∃ k r, ls = k ++ r ∧ Skipped u.name k ∧ Sails (Fault E) (close st u.name) r st' := by
  intro n
  induction n with
  | zero =>
    intro ls u st hn hu hs hl
    rw [List.length_eq_zero_iff.1 (Nat.le_zero.1 hn)] at hs
    obtain ⟨rfl, _⟩ := sails_nil hs
    exact absurd hl (by simp)
  | succ n ih =>
    intro ls u st hn hu hs hl
    cases hs with
    | nil _ => exact absurd hl (by simp)
    | @cons _ _ _ l ls hf hs =>
      rw [List.length_cons] at hn
      unfold advance at hs
      rw [hu] at hs
      dsimp only at hs
      split at hs
      · next hb =>
        have he : Frame.unknown.enter (upper l.value) = .unknown := rfl
        obtain ⟨k1, r1, rfl, hk1, hs1⟩ := ih ls _ _ (by omega) he hs (by rw [List.length_cons]; omega)
        obtain ⟨k2, r2, rfl, hk2, hs2⟩ := ih r1 _ st (by rw [List.length_append] at hn; omega) (by exact hu) hs1 hl
        refine ⟨l :: k1 ++ k2, r2, by simp, .block hb hk1 hk2, hs2⟩
      · next hb =>
        split at hs
        · next he =>
          refine ⟨[l], ls, rfl, .fin he ?_, hs⟩
          apply Classical.byContradiction
          intro hv
          exact hf _ (.sect (by rw [hu]; simp) (.wrongEndUnknown hu he hv))
        · next he =>
          obtain ⟨k, r, rfl, hk, hs⟩ := ih ls _ st (by omega) (by exact hu) hs hl
          exact ⟨l :: k, r, rfl, .line hb he hk, hs⟩

theorem midway_skipped {E : Env} {t : Term} {pre r : List Line} {p : Level} {st : List Level} {b : Line} {c : Cal} (hi : Midway E pre (p :: st)) (hp : p.frame ≠ .alarm)
    (hb : Begins b) (hn : upper b.value ∉ p.frame.parts.map (·.1)) (hc : decodeStream E ⟨pre ++ b :: r, t⟩ = .ok c) :
    ∃ k r', r = k ++ r' ∧ Skipped (p.frame.ending b.value) k := by
  obtain ⟨pre', l', r'', he, p0, h0, hl', hf'⟩ := decodeStream_ok_iff.1 ⟨c, hc⟩
  dsimp only at he
  have henter : p.frame.enter (upper b.value) = .unknown := by
    unfold Frame.enter
    split
    · next x hx =>
      refine absurd (List.mem_map.2 ⟨x, List.mem_of_find?_eq_some hx, ?_⟩) hn
      simpa using List.find?_some hx
    · rfl
  have hadv : advance p st b = ⟨.unknown, p.frame.ending b.value, []⟩ :: p :: st := by
    unfold advance
    split
    · next h => exact absurd h hp
    · rw [if_pos hb, henter]
  have hp0 : p0.frame = .cal := by rw [chain_one (chain_reading h0)]
  have hh : Halts (Fault E) p0 [] l' := by
    refine Or.inr ?_
    rw [advance_section (by rw [hp0]; simp), if_neg (Ends.not_begin hl'), if_pos hl']
    rfl
  rcases List.append_eq_append_iff.1 he with ⟨a, rfl, hq⟩ | ⟨a, rfl, hq⟩
  · cases a with
    | nil =>
      simp only [List.nil_append, List.cons.injEq] at hq
      rw [hq.1] at hb
      exact absurd hb (Ends.not_begin hl')
    | cons m a =>
      simp only [List.cons_append, List.cons.injEq] at hq
      obtain ⟨rfl, rfl⟩ := hq
      obtain ⟨o, k0, rfl, ho, hs⟩ := hi
      obtain ⟨_, hs'⟩ := midway_opening.1 h0
      obtain ⟨m, hm, hs'⟩ := sails_append.1 hs'
      rw [← sails_unique hs hm] at hs'
      cases hs' with
      | cons _ hs' =>
        rw [hadv] at hs'
        obtain ⟨k, r, rfl, hk, _⟩ := sails_skipped _ a _ _ (Nat.le_refl _) rfl hs' (by simp)
        exact ⟨k, _, List.append_assoc .., hk⟩
  · cases a with
    | nil =>
      simp only [List.nil_append, List.cons.injEq] at hq
      rw [← hq.1] at hb
      exact absurd hb (Ends.not_begin hl')
    | cons m a =>
      simp only [List.cons_append, List.cons.injEq] at hq
      obtain ⟨rfl, _⟩ := hq
      exact absurd hh (midway_not_halts hi rfl h0)

end Ics
