import Verif.Spec.Edits
import Verif.StructureLemmas
/-!
# Lemmas: foreign lines, and the case of names
-/

namespace Ics

open Spec

variable {κ σ α β γ δ : Type}

/-- Both fail in the same way (if `w`, in any way), or both succeed with results in the relation. -/
inductive Res.Rel (w : Bool) (R : α → β → Prop) : Res α → Res β → Prop
  | ok {a : α} {b : β} : R a b → Res.Rel w R (.ok a) (.ok b)
  | err {e : Err} : Res.Rel w R (.err e) (.err e)
  | panic : Res.Rel w R .panic .panic
  | fail {x : Res α} {y : Res β} : w = true → (∀ a, x ≠ .ok a) → (∀ b, y ≠ .ok b) → Res.Rel w R x y

variable {w : Bool}

theorem Res.Rel.bind {R : α → β → Prop} {S : γ → δ → Prop} {x : Res α} {y : Res β} {f : α → Res γ} {g : β → Res δ} (h : Res.Rel w R x y)
    (hf : ∀ a b, x = .ok a → y = .ok b → R a b → Res.Rel w S (f a) (g b)) : Res.Rel w S (x >>= f) (y >>= g) := by
  cases h with
  | ok h => exact hf _ _ rfl rfl h
  | err => exact .err
  | panic => exact .panic
  | fail hw hx hy =>
    refine .fail hw (fun a h => ?_) fun b h => ?_
    · obtain ⟨c, h, _⟩ := Res.bind_eq_ok.1 h
      exact hx c h
    · obtain ⟨c, h, _⟩ := Res.bind_eq_ok.1 h
      exact hy c h

theorem Res.Rel.alike {x y : Res α} (h : Res.Rel w Eq x y) : ResAlike w x y := by
  cases h with
  | ok h => rw [h]; unfold ResAlike; split <;> simp
  | err => unfold ResAlike; split <;> simp
  | panic => unfold ResAlike; split <;> simp
  | fail hw hx hy =>
    unfold ResAlike
    rw [if_pos hw]
    exact fun a => ⟨fun h => absurd h (hx a), fun h => absurd h (hy a)⟩

theorem ResAlike.rel {x y : Res α} (h : ResAlike w x y) : Res.Rel w Eq x y := by
  unfold ResAlike at h
  split at h
  · next hw =>
    cases x with
    | ok a => rw [(h a).1 rfl]; exact .ok rfl
    | err e => exact .fail hw (fun _ => nofun) fun b hb => nomatch (h b).2 hb
    | panic => exact .fail hw (fun _ => nofun) fun b hb => nomatch (h b).2 hb
  · subst h
    cases x with
    | ok a => exact .ok rfl
    | err => exact .err
    | panic => exact .panic

/-- The same result, and variants of the lines left. -/
abbrev Same (w : Bool) (E : Env) : Res (α × List Line) → Res (α × List Line) → Prop := Res.Rel w fun x y => x.1 = y.1 ∧ Variant (SameRead w E) x.2 y.2

theorem Spec.Foreign.begin {l : Line} (h : Foreign l) : upper l.name ≠ kBEGIN := fun e => h.1 (by rw [e]; decide)
theorem Spec.Foreign.fin {l : Line} (h : Foreign l) : upper l.name ≠ kEND := fun e => h.1 (by rw [e]; decide)
theorem Spec.Foreign.action {l : Line} (h : Foreign l) : upper l.name ≠ kACTION := fun e => h.1 (by rw [e]; decide)

theorem Spec.Foreign.other {l : Line} (h : Foreign l) {T : Tab κ} (hT : ∀ f ∈ T.fields, f ∈ allFields) : T.kindOf l = .other := by
  rcases Tab.kindOf_line (T := T) h.begin h.fin with ⟨i, f, _, hf, hn⟩ | ⟨h', _⟩
  · exact absurd hn (h.2 f (hT f (List.mem_of_getElem? hf)))
  · exact h'

theorem PState.steps_recased (E : Env) (params : List PDef) (vals : List (Str × Kind)) : ∀ {ps qs : List (Str × List PVal)} (st : PState),
    Pairwise2 (fun p q => upper q.1 = upper p.1 ∧ q.2 = p.2) ps qs → PState.steps E params vals st qs = PState.steps E params vals st ps := by
  intro ps qs st h
  induction h generalizing st with
  | nil => rfl
  | @cons p q _ _ h _ ih =>
    unfold PState.steps
    have e : st.step E params vals q = st.step E params vals p := by
      unfold PState.step
      rw [h.1, h.2]
    rw [e]
    congr 1
    funext st
    exact ih st

theorem Spec.Recased.decode {l l' : Line} (h : Recased l l') (E : Env) (sp : PSpec) :
    sp.decode E l'.params l'.value = sp.decode E l.params l.value := by
  unfold PSpec.decode
  rw [h.value]
  split
  · rfl
  · rw [PState.steps_recased E _ _ _ h.params]

theorem Spec.Recased.same {l l' : Line} (h : Recased l l') (E : Env) : SameRead false E l l' :=
  ⟨h.name, fun hc => ⟨h.control hc, h.value⟩, fun f _ _ => (h.decode E f.spec).symm⟩

variable {E : Env} {w : Bool}

theorem Spec.SameRead.value {l l' : Line} (h : SameRead w E l l') (hc : upper l.name ∈ Spec.control) : l'.value = l.value := (h.control hc).2

theorem Spec.SameRead.kind {l l' : Line} (h : SameRead w E l l') (T : Tab κ) : T.kindOf l' = T.kindOf l := by
  unfold Tab.kindOf
  rw [h.name]
  split
  · next hb => rw [h.value (by rw [hb]; decide)]
  · rfl

theorem Spec.SameRead.addProp {l l' : Line} (h : SameRead w E l l') (s : Sect σ) (i : Nat) {f : SField} (hf : f ∈ allFields) (hk : f.key = upper l.name) :
    Res.Rel w Eq (s.addProp E i f l) (s.addProp E i f l') := by
  unfold Sect.addProp
  split
  · exact .err
  · refine Res.Rel.bind (ResAlike.rel (h.read f hf hk)) fun a b _ _ e => ?_
    rw [e]
    exact .ok rfl

theorem Spec.SameRead.exact {l l' : Line} (h : SameRead w E l l') {n : Str} (hn : n ∈ Spec.control) : l'.name = n ↔ l.name = n := by
  have hu : upper n = n := by
    simp only [Spec.control, List.mem_cons, List.not_mem_nil, or_false] at hn
    rcases hn with rfl | rfl | rfl <;> decide
  constructor
  · intro e
    have : upper l.name = n := by rw [← h.name, e, hu]
    rw [← (h.control (by rw [this]; exact hn)).1, e]
  · intro e
    rw [(h.control (by rw [e, hu]; exact hn)).1, e]

theorem skip_variant : ∀ (n : Nat) (t : Term) (name : Str) (a b : List Line), a.length + b.length ≤ n → Variant (SameRead w E) a b →
    Res.Rel w (Variant (SameRead w E)) (skip t name a) (skip t name b) := by
  intro n
  induction n with
  | zero =>
    intro t name a b hl h
    cases h with
    | nil => exact .err
    | foreign => simp at hl
    | line => simp at hl
  | succ n ih =>
    intro t name a b hl h
    cases h with
    | nil => exact .err
    | foreign hf h =>
      rw [skip_cons, if_neg hf.begin, if_neg hf.fin]
      exact ih _ _ _ _ (by simp at hl; omega) h
    | line hr h =>
      simp only [List.length_cons] at hl
      rw [skip_cons, skip_cons, hr.name]
      split
      · next hb =>
        rw [hr.value (by rw [hb]; decide)]
        refine Res.Rel.bind (ih _ _ _ _ (by omega) h) fun x y hx hy hv => ?_
        have := skip_length hx
        have := skip_length hy
        exact ih _ _ _ _ (by omega) hv
      · split
        · next hb =>
          rw [hr.value (by rw [hb]; decide)]
          split
          · exact .ok h
          · exact .err
        · exact ih _ _ _ _ (by omega) h

theorem Sect.run_variant {T : Tab κ} {sub : κ → List Line → Res (σ × List Line)} {t : Term} (hs : Suffix sub)
    (hT : ∀ f ∈ T.fields, f ∈ allFields) (hsub : ∀ x ∈ T.subs, ∀ a b, Variant (SameRead w E) a b → Same w E (sub x.2 a) (sub x.2 b)) :
    ∀ (n : Nat) (s : Sect σ) (a b : List Line), a.length + b.length ≤ n → Variant (SameRead w E) a b → Same w E (Sect.run E T sub t s a) (Sect.run E T sub t s b) := by
  intro n
  induction n with
  | zero =>
    intro s a b hl h
    cases h with
    | nil => exact .err
    | foreign => simp at hl
    | line => simp at hl
  | succ n ih =>
    intro s a b hl h
    cases h with
    | nil => exact .err
    | foreign hf h =>
      rw [Sect.run_cons hs (l := _) (r := _), hf.other hT]
      exact ih _ _ _ (by simp at hl; omega) h
    | @line l l' a b hr h =>
      simp only [List.length_cons] at hl
      rw [Sect.run_cons hs, Sect.run_cons hs, hr.kind]
      cases hk : T.kindOf l with
      | sub i k =>
        obtain ⟨x, hx, rfl⟩ : ∃ x ∈ T.subs, x.2 = k := by
          unfold Tab.kindOf at hk
          split at hk
          · split at hk
            · split at hk
              · next hg => cases hk; exact ⟨_, List.mem_of_getElem? hg, rfl⟩
              · cases hk
            · cases hk
          · split at hk
            · split at hk <;> cases hk
            · split at hk <;> cases hk
        refine Res.Rel.bind (hsub x hx _ _ h) fun y z hy hz hv => ?_
        rw [← hv.1]
        obtain ⟨p, hp⟩ := hs _ _ _ _ hy
        obtain ⟨q, hq⟩ := hs _ _ _ _ hz
        have := congrArg List.length hp
        have := congrArg List.length hq
        simp only [List.length_append] at *
        exact ih _ _ _ (by omega) hv.2
      | unk =>
        dsimp only
        rw [hr.value (by
          unfold Tab.kindOf at hk
          split at hk
          · next hb => rw [hb]; decide
          · split at hk
            · split at hk <;> cases hk
            · split at hk <;> cases hk)]
        refine Res.Rel.bind (skip_variant _ _ _ _ _ (Nat.le_refl _) h) fun y z hy hz hv => ?_
        have := skip_length hy
        have := skip_length hz
        exact ih _ _ _ (by omega) hv
      | prop i f =>
        dsimp only
        have hf := Tab.kindOf_prop hk
        refine Res.Rel.bind (hr.addProp s i (hT f (List.mem_of_getElem? hf.2.2.1)) hf.2.2.2) fun s s' _ _ e => ?_
        rw [← e]
        exact ih _ _ _ (by omega) h
      | fin =>
        dsimp only
        rw [hr.value (by rw [Tab.kindOf_fin hk]; decide)]
        split
        · exact .ok ⟨rfl, h⟩
        · exact .err
      | other => exact ih _ _ _ (by omega) h

theorem Tab.decode_variant {T : Tab κ} {sub : κ → List Line → Res (σ × List Line)} {t : Term} (hs : Suffix sub)
    (hT : ∀ f ∈ T.fields, f ∈ allFields) (hsub : ∀ x ∈ T.subs, ∀ a b, Variant (SameRead w E) a b → Same w E (sub x.2 a) (sub x.2 b)) {a b : List Line}
    (h : Variant (SameRead w E) a b) : Same w E (T.decode E sub t a) (T.decode E sub t b) := by
  rw [Tab.decode_run, Tab.decode_run]
  refine Res.Rel.bind (Sect.run_variant hs hT hsub _ _ _ _ (Nat.le_refl _) h) fun y z _ _ hv => ?_
  obtain ⟨y1, y2⟩ := y
  obtain ⟨z1, z2⟩ := z
  obtain ⟨rfl, hv⟩ := hv
  dsimp only
  cases T.finish y1 with
  | ok => exact .ok ⟨rfl, hv⟩
  | err e => exact .err
  | panic => exact .panic

theorem alarmCollect_variant {t : Term} {a b : List Line} (h : Variant (SameRead w E) a b) : ∀ (k : Option AKind),
    Res.Rel w (fun x y => x.1 = y.1 ∧ Variant (SameRead w E) x.2.1 y.2.1 ∧ Variant (SameRead w E) x.2.2 y.2.2) (alarmCollect t k a) (alarmCollect t k b) := by
  induction h with
  | nil => intro k; unfold alarmCollect; split <;> constructor
  | @foreign l a b hf _ ih =>
    intro k
    have e : ∀ n, upper n = n → upper l.name ≠ n → l.name ≠ n := fun n hn h e => h (by rw [e, hn])
    rw [show alarmCollect t k (l :: b) = (do let (a, pt, r) ← alarmCollect t k b; return (a, l :: pt, r)) by
      rw [alarmCollect, if_neg (e kBEGIN (by decide) hf.begin), if_neg (e kACTION (by decide) hf.action), if_neg (e kEND (by decide) hf.fin)]]
    have hi := ih k
    generalize alarmCollect t k a = x at hi ⊢
    generalize alarmCollect t k b = y at hi ⊢
    cases hi with
    | ok h => exact .ok ⟨h.1, .foreign hf h.2.1, h.2.2⟩
    | err => exact .err
    | panic => exact .panic
    | fail hw hx hy => exact .fail hw hx fun b h => by obtain ⟨c, h, _⟩ := Res.bind_eq_ok.1 h; exact hy c h
  | @line l l' a b hr hab ih =>
    intro k
    rw [alarmCollect, alarmCollect]
    simp only [hr.exact (n := kBEGIN) (by decide), hr.exact (n := kACTION) (by decide), hr.exact (n := kEND) (by decide)]
    have step : ∀ k, Res.Rel w (fun x y => x.1 = y.1 ∧ Variant (SameRead w E) x.2.1 y.2.1 ∧ Variant (SameRead w E) x.2.2 y.2.2)
        (do let (a, pt, r) ← alarmCollect t k a; return (a, l :: pt, r)) (do let (a, pt, r) ← alarmCollect t k b; return (a, l' :: pt, r)) := by
      intro k
      have hi := ih k
      generalize alarmCollect t k a = x at hi ⊢
      generalize alarmCollect t k b = y at hi ⊢
      cases hi with
      | ok h => exact .ok ⟨h.1, .line hr h.2.1, h.2.2⟩
      | err => exact .err
      | panic => exact .panic
      | fail hw hx hy =>
        exact .fail hw (fun b h => by obtain ⟨c, h, _⟩ := Res.bind_eq_ok.1 h; exact hx c h) fun b h => by obtain ⟨c, h, _⟩ := Res.bind_eq_ok.1 h; exact hy c h
    split
    · exact .err
    · split
      · next ha =>
        rw [hr.value (by rw [ha]; decide)]
        split
        · exact .err
        · exact step _
      · split
        · exact .ok ⟨rfl, .line hr .nil, hab⟩
        · exact step _

theorem mem_allFields_cal : ∀ f ∈ tabCalendar.fields, f ∈ allFields := fun _ hf => List.mem_append_left _ hf

theorem mem_allFields_comp {x : Str × Tab SubKind} (hx : x ∈ tabCalendar.subs) : ∀ f ∈ x.2.fields, f ∈ allFields := fun _ hf =>
  List.mem_append_right _ (List.mem_flatMap.2 ⟨x, hx, List.mem_append_left _ hf⟩)

theorem mem_allFields_leaf {x : Str × Tab SubKind} (hx : x ∈ tabCalendar.subs) {n : Str} {T : Tab Empty} (hy : (n, SubKind.leaf T) ∈ x.2.subs) :
    ∀ f ∈ T.fields, f ∈ allFields := fun _ hf =>
  List.mem_append_right _ (List.mem_flatMap.2 ⟨x, hx, List.mem_append_right _ (List.mem_flatMap.2 ⟨_, hy, hf⟩)⟩)

theorem mem_allFields_alarm {x : Str × Tab SubKind} (hx : x ∈ tabCalendar.subs) {n : Str} (hy : (n, SubKind.alarm) ∈ x.2.subs) (a : AKind) :
    ∀ f ∈ a.tab.fields, f ∈ allFields := fun _ hf =>
  List.mem_append_right _ (List.mem_flatMap.2 ⟨x, hx, List.mem_append_right _ (List.mem_flatMap.2 ⟨_, hy, List.mem_flatMap.2
    ⟨a, by cases a <;> decide, hf⟩⟩)⟩)

theorem subDecode_variant {t : Term} {x : Str × Tab SubKind} (hx : x ∈ tabCalendar.subs) :
    ∀ y ∈ x.2.subs, ∀ a b, Variant (SameRead w E) a b → Same w E (subDecode E t y.2 a) (subDecode E t y.2 b) := by
  intro ⟨n, y⟩ hy a b h
  cases y with
  | alarm =>
    simp only [subDecode, alarmDecode]
    refine Res.Rel.bind (alarmCollect_variant h _) fun y z _ _ hv => ?_
    obtain ⟨y1, y2, y3⟩ := y
    obtain ⟨z1, z2, z3⟩ := z
    obtain ⟨rfl, h1, h2⟩ := hv
    dsimp only at h1 h2 ⊢
    cases y1 with
    | none => exact .err
    | some k =>
      refine Res.Rel.bind (Tab.decode_variant noSub_suffix (mem_allFields_alarm hx hy k) (fun x => nomatch x.2) h1) fun y z _ _ hv => ?_
      obtain ⟨u1, u2⟩ := y
      obtain ⟨v1, v2⟩ := z
      obtain ⟨rfl, _⟩ := hv
      exact .ok ⟨rfl, h2⟩
  | leaf T =>
    simp only [subDecode]
    refine Res.Rel.bind (Tab.decode_variant noSub_suffix (mem_allFields_leaf hx hy) (fun x => nomatch x.2) h) fun y z _ _ hv => ?_
    obtain ⟨u1, u2⟩ := y
    obtain ⟨v1, v2⟩ := z
    obtain ⟨rfl, hv⟩ := hv
    exact .ok ⟨rfl, hv⟩

theorem compDecode_variant {t : Term} : ∀ x ∈ tabCalendar.subs, ∀ a b, Variant (SameRead w E) a b → Same w E (compDecode E t x.2 a) (compDecode E t x.2 b) :=
  fun _ hx _ _ h => Tab.decode_variant (subDecode_suffix E t) (mem_allFields_comp hx) (subDecode_variant hx) h

/-- Foreign lines behind the first line, and lines that are read alike, make no difference, whatever the result. -/
theorem decodeStream_variant {t : Term} {l l' : Line} {a b : List Line} (hr : SameRead w E l l') (h : Variant (SameRead w E) a b) :
    ResAlike w (decodeStream E ⟨l :: a, t⟩) (decodeStream E ⟨l' :: b, t⟩) := by
  unfold decodeStream
  dsimp only
  by_cases hb : upper l.name ≠ kBEGIN
  · rw [if_neg fun h => hb h.1, if_neg (by rw [hr.name]; exact fun h => hb h.1)]
    exact Res.Rel.alike .err
  have hb : upper l.name = kBEGIN := Decidable.not_not.1 hb
  rw [hr.name, hr.value (by rw [hb]; decide)]
  split
  · refine Res.Rel.alike (Res.Rel.bind (Tab.decode_variant (compDecode_suffix E t) mem_allFields_cal compDecode_variant h) fun y z _ _ hv => ?_)
    obtain ⟨u1, u2⟩ := y
    obtain ⟨v1, v2⟩ := z
    obtain ⟨rfl, _⟩ := hv
    exact .ok rfl
  · exact Res.Rel.alike .err

end Ics
