import Verif.InsideLemmas
/-!
# Lemmas: unknown lines and blocks inside a component, and the order of lines
-/

namespace Ics

open Spec

variable {κ σ α β : Type}

/-! ## Inside a component -/

theorem Spec.Inside.same {E : Env} {t : Term} {B : Body} {pre : List Line} (h : Inside B pre) {a b : List Line}
    (hab : ∀ s, B.run E t s a = B.run E t s b) : decodeStream E ⟨pre ++ a, t⟩ = decodeStream E ⟨pre ++ b, t⟩ := by
  rcases h.reaches E with ⟨res, _, h⟩ | ⟨s, h⟩
  · rw [h, h]
  · obtain ⟨K, _, h⟩ := h t
    rw [h, h, hab]

theorem Spec.Inside.flat {k pre : List Line} (h : Inside (.alarm k) pre) : ∀ l ∈ k, ¬ Begins l ∧ ¬ Ends l := by
  generalize hB : Body.alarm k = B at h
  induction h generalizing k with
  | cal => cases hB
  | comp => cases hB
  | leaf => cases hB
  | alarm => cases hB; simp
  | unknown => cases hB
  | line _ hb he ih =>
    cases hB
    intro l hl
    rcases List.mem_append.1 hl with hl | hl
    · exact ih rfl l hl
    · simp only [List.mem_singleton] at hl
      subst hl
      exact ⟨hb, he⟩
  | lines _ hn _ _ _ => exact absurd hB.symm (hn k)

theorem Tab.kindOf_other {T : Tab κ} {l : Line} (hb : ¬ Begins l) (he : ¬ Ends l) (hf : ∀ f ∈ T.fields, f.key ≠ upper l.name) : T.kindOf l = .other := by
  rcases Tab.kindOf_line (T := T) hb he with ⟨i, f, _, hi, hn⟩ | ⟨h', _⟩
  · exact absurd hn (hf f (List.mem_of_getElem? hi))
  · exact h'

theorem Sect.run_flat {E : Env} {T : Tab κ} {sub : κ → List Line → Res (σ × List Line)} {t : Term} (hs : Suffix sub) :
    ∀ {p : List Line}, (∀ l ∈ p, ¬ Begins l ∧ ¬ Ends l) →
    ∃ g : Sect σ → Res (Sect σ), ∀ s r, Sect.run E T sub t s (p ++ r) = g s >>= fun s => Sect.run E T sub t s r := by
  intro p
  induction p with
  | nil => exact fun _ => ⟨.ok, fun s r => rfl⟩
  | cons l q ih =>
    intro hp
    obtain ⟨g, hg⟩ := ih (fun x hx => hp x (by simp [hx]))
    obtain ⟨hb, he⟩ := hp l (by simp)
    rcases Tab.kindOf_line (T := T) hb he with ⟨i, f, hkd, _⟩ | ⟨hkd, _⟩
    · refine ⟨fun s => s.addProp E i f l >>= g, fun s r => ?_⟩
      rw [List.cons_append, Sect.run_cons hs, hkd]
      dsimp only
      rw [Res.bind_assoc']
      congr 1
      funext s
      exact hg s r
    · refine ⟨g, fun s r => ?_⟩
      rw [List.cons_append, Sect.run_cons hs, hkd]
      exact hg s r

/-- The alarm type that is found is on an ACTION line. -/
theorem alarmCollect_action {t : Term} : ∀ {ls : List Line} {x : Option AKind} {a : AKind} {pt r : List Line},
    alarmCollect t x ls = .ok (some a, pt, r) → x = some a ∨ a.action ∈ actions (ls.takeWhile fun l => l.name ≠ c!"END") := by
  intro ls
  induction ls with
  | nil => intro x a pt r h; unfold alarmCollect at h; split at h <;> cases h
  | cons l ls ih =>
    intro x a pt r h
    unfold alarmCollect at h
    split at h
    · cases h
    · split at h
      · next ha =>
        split at h
        · cases h
        · obtain ⟨⟨x1, p1, r1⟩, h1, h2⟩ := Res.bind_eq_ok.1 h
          cases h2
          right
          rw [List.takeWhile_cons_of_pos (by rw [ha]; decide), actions_cons, if_pos (by rw [ha]; decide)]
          rcases ih h1 with h | h
          · rw [ofAction_some.1 h]; exact List.mem_cons_self ..
          · exact List.mem_cons_of_mem _ h
      · split at h
        · cases h; left; rfl
        · next he =>
          obtain ⟨⟨x1, p1, r1⟩, h1, h2⟩ := Res.bind_eq_ok.1 h
          cases h2
          rcases ih h1 with h | h
          · exact Or.inl h
          · right
            rw [List.takeWhile_cons_of_pos (by simpa using (show ¬ l.name = c!"END" from he)), actions_cons]
            split
            · exact List.mem_cons_of_mem _ h
            · exact h

theorem takeWhile_append_pos {p : α → Bool} : ∀ {k r : List α}, (∀ x ∈ k, p x = true) → (k ++ r).takeWhile p = k ++ r.takeWhile p := by
  intro k
  induction k with
  | nil => intro r _; rfl
  | cons x k ih =>
    intro r h
    rw [List.cons_append, List.takeWhile_cons_of_pos (h x (by simp)), ih (fun y hy => h y (by simp [hy])), List.cons_append]

theorem alarmDecode_insert {E : Env} {t : Term} {k r : List Line} {l : Line} (hk : ∀ l ∈ k, ¬ Begins l ∧ ¬ Ends l) (hc : upper l.name ∉ control)
    (hu : ∀ a : AKind, a.action ∈ actions (k ++ r.takeWhile fun l => l.name ≠ c!"END") → ∀ f ∈ a.tab.fields, f.key ≠ upper l.name) :
    alarmDecode E t (k ++ l :: r) = alarmDecode E t (k ++ r) := by
  have hb : ¬ Begins l := fun h => hc (by rw [show upper l.name = _ from h]; decide)
  have he : ¬ Ends l := fun h => hc (by rw [show upper l.name = _ from h]; decide)
  have ha : upper l.name ≠ kACTION := fun h => hc (by rw [h]; decide)
  have hcol : ∀ a, alarmCollect t a (l :: r) = alarmCollect t a r >>= fun x => .ok (x.1, l :: x.2.1, x.2.2) := by
    intro a
    rw [alarmCollect, if_neg (upper_name_ne (n := kBEGIN) (by decide) hb), if_neg (upper_name_ne (n := kACTION) (by decide) ha), if_neg (upper_name_ne (n := kEND) (by decide) he)]
    cases alarmCollect t a r <;> rfl
  have hsome : ∀ x, alarmCollect t none (k ++ r) = .ok x → ∀ a, x.1 = some a → ∀ f ∈ a.tab.fields, f.key ≠ upper l.name := by
    intro ⟨x1, x2, x3⟩ hx a hxa
    dsimp only at hxa
    subst hxa
    rcases alarmCollect_action hx with h | h
    · cases h
    · rw [takeWhile_append_pos (fun x hx => decide_eq_true (upper_name_ne (n := c!"END") (by decide) (hk x hx).2))] at h
      exact hu a h
  unfold alarmDecode
  rcases alarmCollect_walk hk none with ⟨e, h⟩ | ⟨a', h⟩
  · rw [h, h]
  · rw [h] at hsome
    rw [h, h, hcol]
    cases hr : alarmCollect t a' r with
    | err => rfl
    | panic => rfl
    | ok x =>
      obtain ⟨a, pt, r'⟩ := x
      dsimp only [Res.ok_bind]
      cases a with
      | none => rfl
      | some a =>
        dsimp only
        have hf := hsome (some a, k ++ pt, r') (by rw [hr]; rfl) a rfl
        have hd : a.tab.decode E noSub (.error .unexpectedEOF) (k ++ l :: pt) = a.tab.decode E noSub (.error .unexpectedEOF) (k ++ pt) := by
          obtain ⟨g, hg⟩ := Sect.run_flat (E := E) (T := a.tab) (t := .error .unexpectedEOF) noSub_suffix hk
          rw [Tab.decode_run, Tab.decode_run, hg, hg]
          simp only [Sect.run_cons noSub_suffix, Tab.kindOf_other hb he hf]
        rw [hd]

/-- A line that is not known where it is makes no difference, whatever the result. -/
theorem Spec.Inside.insert {E : Env} {t : Term} {B : Body} {pre : List Line} (h : Inside B pre) {l : Line} {r : List Line} (hl : NotKnown l r B) :
    decodeStream E ⟨pre ++ l :: r, t⟩ = decodeStream E ⟨pre ++ r, t⟩ := by
  refine h.same fun s => ?_
  cases B with
  | cal => exact (Sect.run_cons (compDecode_suffix E t) s l r).trans (by rw [Tab.kindOf_other hl.1 hl.2.1 hl.2.2]; rfl)
  | comp T => exact (Sect.run_cons (subDecode_suffix E t) s l r).trans (by rw [Tab.kindOf_other hl.1 hl.2.1 hl.2.2]; rfl)
  | leaf T => exact (Sect.run_cons noSub_suffix s l r).trans (by rw [Tab.kindOf_other hl.1 hl.2.1 hl.2.2]; rfl)
  | alarm k => exact alarmDecode_insert h.flat hl.1 hl.2
  | unknown => exact (skip_cons t s l r).trans (by rw [if_neg (show ¬ upper _ = kBEGIN from hl.1), if_neg (show ¬ upper _ = kEND from hl.2)]; rfl)

/-- Nor does a block that is not known, outside of alarms. -/
theorem Spec.Inside.insert_block {E : Env} {t : Term} {B : Body} {pre : List Line} (h : Inside B pre) (hB : ∀ k, B ≠ .alarm k) {b e : Line}
    {k : List Line} (hb : Begins b) (he : Ends e) (hv : e.value = b.value) (hc : Closed k) (hl : Loud (b :: k ++ [e])) (hn : upper b.value ∉ B.parts)
    (r : List Line) : decodeStream E ⟨pre ++ (b :: k ++ e :: r), t⟩ = decodeStream E ⟨pre ++ r, t⟩ := by
  have hk : Loud k := (Loud.append (Loud.cons hl).2).1
  have hbv : b.value = upper b.value := Loud.begin hl hb
  have hskip : skip t (upper b.value) (k ++ e :: r) = .ok r := by
    rw [skip_closed hc hk, skip_cons, if_neg (show ¬ upper _ = kBEGIN from Ends.not_begin he), if_pos (show upper _ = kEND from he), hv, if_pos rfl]
  refine h.same fun s => ?_
  cases B with
  | cal => exact (Sect.run_unk (compDecode_suffix E t) hb hn s (k ++ e :: r)).trans (by rw [hskip]; rfl)
  | comp T => exact (Sect.run_unk (subDecode_suffix E t) hb hn s (k ++ e :: r)).trans (by rw [hskip]; rfl)
  | leaf T => exact (Sect.run_unk noSub_suffix hb (noSub_names T _) s (k ++ e :: r)).trans (by rw [hskip]; rfl)
  | alarm k => exact absurd rfl (hB k)
  | unknown => exact (skip_cons t s b (k ++ e :: r)).trans (by rw [if_pos (show upper _ = kBEGIN from hb), hbv, hskip]; rfl)

/-- The case of BEGIN, and of the name behind it, makes no difference in known components. -/
theorem Spec.Inside.begin_case {E : Env} {t : Term} {B : Body} {pre : List Line} (h : Inside B pre) (hB : (∀ k, B ≠ .alarm k) ∧ B ≠ .unknown)
    {b b' : Line} (hb : Begins b) (hb' : Begins b') (hv : upper b'.value = upper b.value) (r : List Line) :
    decodeStream E ⟨pre ++ b' :: r, t⟩ = decodeStream E ⟨pre ++ b :: r, t⟩ := by
  have hk : ∀ {κ : Type} (T : Tab κ), T.kindOf b' = T.kindOf b := by
    intro κ T
    unfold Tab.kindOf
    rw [if_pos (show upper _ = kBEGIN from hb), if_pos (show upper _ = kBEGIN from hb'), hv]
  have hrun : ∀ {κ σ : Type} {T : Tab κ} {sub : κ → List Line → Res (σ × List Line)} (_ : Suffix sub) (s : Sect σ),
      Sect.run E T sub t s (b' :: r) = Sect.run E T sub t s (b :: r) := by
    intro κ σ T sub hs s
    rw [Sect.run_cons hs, Sect.run_cons hs, hk, hv]
    rcases Tab.kindOf_begin (T := T) hb with ⟨i, k, h, _⟩ | ⟨h, _⟩ <;> rw [h]
  refine h.same fun s => ?_
  cases B with
  | cal => exact hrun (compDecode_suffix E t) s
  | comp T => exact hrun (subDecode_suffix E t) s
  | leaf T => exact hrun noSub_suffix s
  | alarm k => exact absurd rfl (hB.1 k)
  | unknown => exact absurd rfl hB.2

/-- The case of END makes no difference outside of alarms. -/
theorem Spec.Inside.end_case {E : Env} {t : Term} {B : Body} {pre : List Line} (h : Inside B pre) (hB : ∀ k, B ≠ .alarm k)
    {e e' : Line} (he : Ends e) (he' : Ends e') (hv : e'.value = e.value) (r : List Line) :
    decodeStream E ⟨pre ++ e' :: r, t⟩ = decodeStream E ⟨pre ++ e :: r, t⟩ := by
  have hrun : ∀ {κ σ : Type} {T : Tab κ} {sub : κ → List Line → Res (σ × List Line)} (_ : Suffix sub) (_ : T.Wf) (s : Sect σ),
      Sect.run E T sub t s (e' :: r) = Sect.run E T sub t s (e :: r) := by
    intro κ σ T sub hs hw s
    rw [Sect.run_cons hs, Sect.run_cons hs, Tab.kindOf_end hw he, Tab.kindOf_end hw he', hv]
  refine h.same fun s => ?_
  have hok := h.ok
  cases B with
  | cal => exact hrun (compDecode_suffix E t) calTab_wf s
  | comp T =>
    obtain ⟨n, hn⟩ := hok
    exact hrun (subDecode_suffix E t) (compTab_good _ hn).1 s
  | leaf T =>
    obtain ⟨x, hx, n, hn⟩ := hok
    obtain ⟨_, _, hg⟩ := compTab_good x hx
    exact hrun noSub_suffix (hg _ hn).1 s
  | alarm k => exact absurd rfl (hB k)
  | unknown =>
    show skip t s (e' :: r) = skip t s (e :: r)
    have h1 := skip_cons t s e' r
    have h2 := skip_cons t s e r
    rw [if_neg (show ¬ upper _ = kBEGIN from Ends.not_begin he'), if_pos (show upper _ = kEND from he')] at h1
    rw [if_neg (show ¬ upper _ = kBEGIN from Ends.not_begin he), if_pos (show upper _ = kEND from he)] at h2
    exact h1.trans (by rw [hv]; exact h2.symm)

/-! ## The order of lines -/

theorem modify_comm {f g : α → α} {i j : Nat} (h : i ≠ j) (l : List α) : (l.modify i f).modify j g = (l.modify j g).modify i f := by
  apply List.ext_getElem?
  intro n
  simp only [List.getElem?_modify]
  cases l[n]? with
  | none => rfl
  | some a =>
    by_cases h1 : i = n <;> by_cases h2 : j = n
    · exact absurd (h1.trans h2.symm) h
    all_goals simp [h1, h2]

theorem getD_modify_ne {f : List α → List α} {i j : Nat} (h : i ≠ j) (l : List (List α)) : (l.modify i f).getD j [] = l.getD j [] := by
  simp only [List.getD_eq_getElem?_getD, List.getElem?_modify]
  cases l[j]? with
  | none => rfl
  | some a => simp [h]

theorem addProp_comm {E : Env} {s s1 s2 : Sect σ} {i j : Nat} (hij : i ≠ j) {f g : SField} {l m : Line} (h1 : s.addProp E i f l = .ok s1)
    (h2 : s1.addProp E j g m = .ok s2) : ∃ s1', s.addProp E j g m = .ok s1' ∧ s1'.addProp E i f l = .ok s2 := by
  unfold Sect.addProp at h1 h2 ⊢
  split at h1
  · cases h1
  · next hm =>
    obtain ⟨v, hv, h1⟩ := Res.bind_eq_ok.1 h1
    cases h1
    dsimp only at h2
    rw [getD_modify_ne hij] at h2
    split at h2
    · cases h2
    · next hm2 =>
      obtain ⟨w, hw, h2⟩ := Res.bind_eq_ok.1 h2
      cases h2
      refine ⟨_, by rw [if_neg hm2, hw]; rfl, ?_⟩
      dsimp only
      rw [getD_modify_ne (Ne.symm hij), if_neg hm, hv]
      simp only [Res.ok_bind, Res.pure_eq]
      rw [modify_comm hij]

/-- Success, with the same result, on the lines in another order. -/
def Orderly (dec : List Line → Res (α × List Line)) : Prop := ∀ a b x r, Swapped a b → dec a = .ok (x, r) → ∃ r', dec b = .ok (x, r') ∧ Swapped r r'

theorem Spec.Swapped.length {a b : List Line} (h : Swapped a b) : a.length = b.length := by
  induction h with
  | nil => rfl
  | line _ ih => simp [ih]
  | swap _ _ _ _ _ _ ih => simp [ih]

theorem skip_orderly : ∀ (n : Nat) (t : Term) (name : Str) (a b r : List Line), a.length ≤ n → Swapped a b → skip t name a = .ok r →
    ∃ r', skip t name b = .ok r' ∧ Swapped r r' := by
  intro n
  induction n with
  | zero =>
    intro t name a b r hl h hs
    cases h with
    | nil => cases hs
    | line => simp at hl
    | swap => simp at hl
  | succ n ih =>
    intro t name a b r hl h hs
    cases h with
    | nil => cases hs
    | @line l a b h =>
      simp only [List.length_cons] at hl
      rw [skip_cons] at hs ⊢
      split at hs
      · next hb =>
        obtain ⟨r1, h1, h2⟩ := Res.bind_eq_ok.1 hs
        obtain ⟨r1', g1, w1⟩ := ih _ _ _ _ _ (by omega) h h1
        have := skip_length h1
        obtain ⟨r2', g2, w2⟩ := ih _ _ _ _ _ (by omega) w1 h2
        exact ⟨r2', by rw [if_pos hb, g1]; exact g2, w2⟩
      · next hb =>
        rw [if_neg hb]
        split at hs
        · next he =>
          rw [if_pos he]
          split at hs
          · next hv => cases hs; exact ⟨_, if_pos hv, h⟩
          · cases hs
        · next he =>
          rw [if_neg he]
          exact ih _ _ _ _ _ (by omega) h hs
    | @swap l m a b hb he hb' he' _ h =>
      simp only [List.length_cons] at hl
      rw [skip_cons, if_neg (show ¬ upper _ = kBEGIN from hb), if_neg (show ¬ upper _ = kEND from he), skip_cons,
        if_neg (show ¬ upper _ = kBEGIN from hb'), if_neg (show ¬ upper _ = kEND from he')] at hs
      rw [skip_cons, if_neg (show ¬ upper _ = kBEGIN from hb'), if_neg (show ¬ upper _ = kEND from he'), skip_cons,
        if_neg (show ¬ upper _ = kBEGIN from hb), if_neg (show ¬ upper _ = kEND from he)]
      exact ih _ _ _ _ _ (by omega) h hs

theorem Sect.run_orderly {E : Env} {T : Tab κ} {sub : κ → List Line → Res (σ × List Line)} {t : Term} (hs : Suffix sub)
    (ho : ∀ x ∈ T.subs, Orderly (sub x.2)) : ∀ (n : Nat) (s x : Sect σ) (a b r : List Line), a.length ≤ n → Swapped a b →
      Sect.run E T sub t s a = .ok (x, r) → ∃ r', Sect.run E T sub t s b = .ok (x, r') ∧ Swapped r r' := by
  intro n
  induction n with
  | zero =>
    intro s x a b r hl h hr
    cases h with
    | nil => cases hr
    | line => simp at hl
    | swap => simp at hl
  | succ n ih =>
    intro s x a b r hl h hr
    cases h with
    | nil => cases hr
    | @line l a b h =>
      simp only [List.length_cons] at hl
      rw [Sect.run_cons hs] at hr ⊢
      cases hk : T.kindOf l with
      | sub i k =>
        rw [hk] at hr
        obtain ⟨_, hm⟩ := Tab.kindOf_sub hk
        obtain ⟨⟨y, r1⟩, h1, h2⟩ := Res.bind_eq_ok.1 hr
        obtain ⟨r1', g1, w1⟩ := ho _ (List.mem_of_getElem? hm) _ _ _ _ h h1
        obtain ⟨p, hp⟩ := hs _ _ _ _ h1
        have := congrArg List.length hp
        simp only [List.length_append] at this
        obtain ⟨r2', g2, w2⟩ := ih _ _ _ _ _ (by omega) w1 h2
        exact ⟨r2', by dsimp only; rw [g1]; exact g2, w2⟩
      | unk =>
        rw [hk] at hr
        obtain ⟨r1, h1, h2⟩ := Res.bind_eq_ok.1 hr
        obtain ⟨r1', g1, w1⟩ := skip_orderly _ _ _ _ _ _ (Nat.le_refl _) h h1
        have := skip_length h1
        obtain ⟨r2', g2, w2⟩ := ih _ _ _ _ _ (by omega) w1 h2
        exact ⟨r2', by dsimp only; rw [g1]; exact g2, w2⟩
      | prop i f =>
        rw [hk] at hr
        obtain ⟨s1, h1, h2⟩ := Res.bind_eq_ok.1 hr
        obtain ⟨r2', g2, w2⟩ := ih _ _ _ _ _ (by omega) h h2
        exact ⟨r2', by dsimp only; rw [h1]; exact g2, w2⟩
      | fin =>
        rw [hk] at hr
        dsimp only at hr ⊢
        split at hr
        · next hv => cases hr; exact ⟨_, if_pos hv, h⟩
        · cases hr
      | other =>
        rw [hk] at hr
        exact ih _ _ _ _ _ (by omega) h hr
    | @swap l m a b hb he hb' he' hn h =>
      simp only [List.length_cons] at hl
      rw [Sect.run_cons hs] at hr ⊢
      rcases Tab.kindOf_line (T := T) hb he with ⟨i, f, hkl, hi, hfn⟩ | ⟨hkl, _⟩
      · rw [hkl] at hr
        obtain ⟨s1, h1, hr⟩ := Res.bind_eq_ok.1 hr
        rw [Sect.run_cons hs] at hr
        rcases Tab.kindOf_line (T := T) hb' he' with ⟨j, g, hkm, hj, hgn⟩ | ⟨hkm, _⟩
        · rw [hkm] at hr ⊢
          obtain ⟨s2, h2, hr⟩ := Res.bind_eq_ok.1 hr
          have hij : i ≠ j := by
            rintro rfl
            rw [hi] at hj
            cases hj
            exact hn (hfn.symm.trans hgn)
          obtain ⟨s1', g1, g2⟩ := addProp_comm hij h1 h2
          obtain ⟨r', w1, w2⟩ := ih _ _ _ _ _ (by omega) h hr
          refine ⟨r', ?_, w2⟩
          dsimp only
          rw [g1]
          simp only [Res.ok_bind]
          rw [Sect.run_cons hs, hkl]
          dsimp only
          rw [g2]
          exact w1
        · rw [hkm] at hr ⊢
          obtain ⟨r', w1, w2⟩ := ih _ _ _ _ _ (by omega) h hr
          refine ⟨r', ?_, w2⟩
          dsimp only
          rw [Sect.run_cons hs, hkl]
          dsimp only
          rw [h1]
          exact w1
      · rw [hkl] at hr
        dsimp only at hr
        rw [Sect.run_cons hs] at hr
        rcases Tab.kindOf_line (T := T) hb' he' with ⟨j, g, hkm, hj, hgn⟩ | ⟨hkm, _⟩
        · rw [hkm] at hr ⊢
          obtain ⟨s2, h2, hr⟩ := Res.bind_eq_ok.1 hr
          obtain ⟨r', w1, w2⟩ := ih _ _ _ _ _ (by omega) h hr
          refine ⟨r', ?_, w2⟩
          dsimp only
          rw [h2]
          simp only [Res.ok_bind]
          rw [Sect.run_cons hs, hkl]
          exact w1
        · rw [hkm] at hr ⊢
          obtain ⟨r', w1, w2⟩ := ih _ _ _ _ _ (by omega) h hr
          refine ⟨r', ?_, w2⟩
          dsimp only
          rw [Sect.run_cons hs, hkl]
          exact w1

theorem Tab.decode_orderly {E : Env} {T : Tab κ} {sub : κ → List Line → Res (σ × List Line)} {t : Term} (hs : Suffix sub)
    (ho : ∀ x ∈ T.subs, Orderly (sub x.2)) : Orderly (T.decode E sub t) := by
  intro a b x r h hr
  obtain ⟨h1, h2⟩ := Tab.decode_ok.1 hr
  obtain ⟨r', g1, w1⟩ := Sect.run_orderly hs ho _ _ _ _ _ _ (Nat.le_refl _) h h1
  exact ⟨r', Tab.decode_ok.2 ⟨g1, h2⟩, w1⟩

theorem alarmCollect_orderly {t : Term} {a b : List Line} (h : Swapped a b) : ∀ {k x : Option AKind} {pt r : List Line},
    alarmCollect t k a = .ok (x, pt, r) → ∃ pt' r', alarmCollect t k b = .ok (x, pt', r') ∧ Swapped pt pt' ∧ Swapped r r' := by
  induction h with
  | nil => intro k x pt r h; unfold alarmCollect at h; split at h <;> cases h
  | @line l a b hab ih =>
    intro k x pt r h
    rw [alarmCollect] at h ⊢
    have step : ∀ {k}, (do let (a, pt, r) ← alarmCollect t k a; return (a, l :: pt, r)) = Res.ok (x, pt, r) →
        ∃ pt' r', (do let (a, pt, r) ← alarmCollect t k b; return (a, l :: pt, r)) = Res.ok (x, pt', r') ∧ Swapped pt pt' ∧ Swapped r r' := by
      intro k h
      obtain ⟨⟨x1, p1, r1⟩, h1, h2⟩ := Res.bind_eq_ok.1 h
      cases h2
      obtain ⟨pt', r', g, w1, w2⟩ := ih h1
      exact ⟨l :: pt', r', by rw [g]; rfl, .line w1, w2⟩
    split at h
    · cases h
    · next hb =>
      rw [if_neg hb]
      split at h
      · next ha =>
        rw [if_pos ha]
        split at h
        · cases h
        · next hs => rw [if_neg hs]; exact step h
      · next ha =>
        rw [if_neg ha]
        split at h
        · next he => cases h; exact ⟨_, _, if_pos he, .line .nil, hab⟩
        · next he => rw [if_neg he]; exact step h
  | @swap l m a b hb he hb' he' hn hab ih =>
    intro k x pt r h
    have e1 : ∀ k r, alarmCollect t k (l :: r) = if l.name = kACTION then if k.isSome then .err .invalidStructure else
        (alarmCollect t (AKind.ofAction l.value) r >>= fun x => .ok (x.1, l :: x.2.1, x.2.2)) else
        (alarmCollect t k r >>= fun x => .ok (x.1, l :: x.2.1, x.2.2)) := by
      intro k r
      rw [alarmCollect, if_neg (upper_name_ne (n := kBEGIN) (by decide) hb), if_neg (upper_name_ne (n := kEND) (by decide) he)]
      rfl
    have e2 : ∀ k r, alarmCollect t k (m :: r) = if m.name = kACTION then if k.isSome then .err .invalidStructure else
        (alarmCollect t (AKind.ofAction m.value) r >>= fun x => .ok (x.1, m :: x.2.1, x.2.2)) else
        (alarmCollect t k r >>= fun x => .ok (x.1, m :: x.2.1, x.2.2)) := by
      intro k r
      rw [alarmCollect, if_neg (upper_name_ne (n := kBEGIN) (by decide) hb'), if_neg (upper_name_ne (n := kEND) (by decide) he')]
      rfl
    have fin : ∀ {k'}, (alarmCollect t k' a >>= fun x => .ok (x.1, l :: m :: x.2.1, x.2.2)) = Res.ok (x, pt, r) →
        ∃ pt' r', (alarmCollect t k' b >>= fun x => .ok (x.1, m :: l :: x.2.1, x.2.2)) = Res.ok (x, pt', r') ∧ Swapped pt pt' ∧ Swapped r r' := by
      intro k' h
      obtain ⟨⟨x1, p1, r1⟩, h1, h2⟩ := Res.bind_eq_ok.1 h
      cases h2
      obtain ⟨pt', r', g, w1, w2⟩ := ih h1
      exact ⟨m :: l :: pt', r', by rw [g]; rfl, .swap hb he hb' he' hn w1, w2⟩
    simp only [e1, e2] at h ⊢
    by_cases hl : l.name = kACTION
    · have hm : ¬ m.name = kACTION := fun hm => hn (by rw [hl, hm])
      simp only [if_pos hl, if_neg hm] at h ⊢
      split at h
      · cases h
      · next hs =>
        simp only [if_neg hs]
        rw [Res.bind_assoc'] at h ⊢
        exact fin h
    · simp only [if_neg hl] at h ⊢
      by_cases hm : m.name = kACTION
      · simp only [if_pos hm] at h ⊢
        by_cases hs : k.isSome = true
        · rw [if_pos hs] at h; cases h
        · simp only [if_neg hs] at h ⊢
          rw [Res.bind_assoc'] at h ⊢
          exact fin h
      · simp only [if_neg hm] at h ⊢
        rw [Res.bind_assoc'] at h ⊢
        exact fin h

theorem noSub_orderly {T : Tab Empty} : ∀ x ∈ T.subs, Orderly (noSub x.2) := fun x => nomatch x.2

theorem subDecode_orderly (E : Env) (t : Term) (k : SubKind) : Orderly (subDecode E t k) := by
  intro a b x r h hr
  cases k with
  | alarm =>
    simp only [subDecode, alarmDecode] at hr ⊢
    obtain ⟨⟨a, pt, r1⟩, h1, h2⟩ := Res.bind_eq_ok.1 hr
    obtain ⟨pt', r', g, w1, w2⟩ := alarmCollect_orderly h h1
    cases a with
    | none => cases h2
    | some k =>
      obtain ⟨⟨s, r2⟩, h3, h4⟩ := Res.bind_eq_ok.1 h2
      cases h4
      obtain ⟨r2', g2, _⟩ := Tab.decode_orderly noSub_suffix noSub_orderly _ _ _ _ w1 h3
      exact ⟨r', by rw [g]; simp only [Res.ok_bind, g2, Res.pure_eq], w2⟩
  | leaf T =>
    simp only [subDecode] at hr ⊢
    obtain ⟨⟨s, r1⟩, h1, h2⟩ := Res.bind_eq_ok.1 hr
    cases h2
    obtain ⟨r', g, w⟩ := Tab.decode_orderly noSub_suffix noSub_orderly _ _ _ _ h h1
    exact ⟨r', by rw [g]; rfl, w⟩

theorem compDecode_orderly (E : Env) (t : Term) (T : Tab SubKind) : Orderly (compDecode E t T) :=
  Tab.decode_orderly (subDecode_suffix E t) (fun x _ => subDecode_orderly E t x.2)

/-- The order of lines with different names makes no difference for success. -/
theorem decodeStream_orderly {E : Env} {t : Term} {a b : List Line} {c : Cal} (h : Swapped a b) (hc : decodeStream E ⟨a, t⟩ = .ok c) :
    decodeStream E ⟨b, t⟩ = .ok c := by
  cases h with
  | nil => exact hc
  | @line l a b h =>
    unfold decodeStream at hc ⊢
    dsimp only at hc ⊢
    split at hc
    · next hb =>
      obtain ⟨⟨c1, r⟩, h1, h2⟩ := Res.bind_eq_ok.1 hc
      cases h2
      obtain ⟨r', g, _⟩ := Tab.decode_orderly (compDecode_suffix E t) (fun x _ => compDecode_orderly E t x.2) _ _ _ _ h h1
      rw [if_pos hb, g]
      rfl
    · cases hc
  | swap hb =>
    unfold decodeStream at hc
    dsimp only at hc
    rw [if_neg (fun h => hb h.1)] at hc
    cases hc

end Ics
