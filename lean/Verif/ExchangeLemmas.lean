import Verif.Spec.Exchange
import Verif.VariantLemmas
/-!
# Lemmas: lines put in the place of others
-/

namespace Ics

open Spec

variable {κ σ α β γ δ : Type} {E E' : Env} {Q : PropVal → PropVal → Prop}

/-- If the first succeeds, so does the second, with a result in the relation. -/
def Res.Leads (R : α → β → Prop) (x : Res α) (y : Res β) : Prop := ∀ a, x = .ok a → ∃ b, y = .ok b ∧ R a b

theorem Res.Leads.ok {R : α → β → Prop} {a : α} {b : β} (h : R a b) : Res.Leads R (.ok a) (.ok b) := by
  intro _ e
  cases e
  exact ⟨_, rfl, h⟩

theorem Res.Leads.err {R : α → β → Prop} {e : Err} {y : Res β} : Res.Leads R (.err e) y := fun _ h => nomatch h

theorem Res.Leads.panic {R : α → β → Prop} {y : Res β} : Res.Leads R .panic y := fun _ h => nomatch h

theorem Res.Leads.bind {R : α → β → Prop} {S : γ → δ → Prop} {x : Res α} {y : Res β} {f : α → Res γ} {g : β → Res δ} (h : Res.Leads R x y)
    (hf : ∀ a b, x = .ok a → y = .ok b → R a b → Res.Leads S (f a) (g b)) : Res.Leads S (x >>= f) (y >>= g) := by
  intro c hc
  obtain ⟨a, ha, hc⟩ := Res.bind_eq_ok.1 hc
  obtain ⟨b, hb, hr⟩ := h a ha
  obtain ⟨d, hd, hs⟩ := hf a b ha hb hr c hc
  exact ⟨d, Res.bind_eq_ok.2 ⟨b, hb, hd⟩, hs⟩

theorem Spec.Stands.value {l l' : Line} (h : Stands E E' Q l l') (hc : upper l.name ∈ Spec.control) : l'.value = l.value := (h.control hc).2

theorem Spec.Stands.kind {l l' : Line} (h : Stands E E' Q l l') (T : Tab κ) : T.kindOf l' = T.kindOf l := by
  unfold Tab.kindOf
  rw [h.name]
  split
  · next hb => rw [h.value (by rw [hb]; decide)]
  · rfl

theorem Spec.Stands.exact {l l' : Line} (h : Stands E E' Q l l') {n : Str} (hn : n ∈ Spec.control) : l'.name = n ↔ l.name = n := by
  have hu : upper n = n := by
    simp only [Spec.control, List.mem_cons, List.not_mem_nil, or_false] at hn
    rcases hn with rfl | rfl | rfl <;> decide
  constructor
  · intro e
    have : upper l.name = n := by rw [← h.name, e, hu]
    rw [← (h.control (by rw [this]; exact hn)).1, e]
  · intro e
    rw [(h.control (by rw [e, hu]; exact hn)).1, e]

/-! ## Lists in relation -/

theorem Spec.Pairwise2.modify {R : α → β → Prop} {as : List α} {bs : List β} (h : Pairwise2 R as bs) {f : α → α} {g : β → β} (hf : ∀ a b, R a b → R (f a) (g b)) :
    ∀ i : Nat, Pairwise2 R (as.modify i f) (bs.modify i g) := by
  induction h with
  | nil => intro i; cases i <;> exact .nil
  | cons h hs ih =>
    intro i
    cases i with
    | zero => simp only [List.modify_zero_cons]; exact .cons (hf _ _ h) hs
    | succ i => simp only [List.modify_succ_cons]; exact .cons h (ih i)

theorem Spec.Pairwise2.snoc {R : α → β → Prop} {as : List α} {bs : List β} {a : α} {b : β} (h : Pairwise2 R as bs) (hr : R a b) : Pairwise2 R (as ++ [a]) (bs ++ [b]) := by
  induction h with
  | nil => exact .cons hr .nil
  | cons h _ ih => exact .cons h ih

theorem Spec.Pairwise2.empty_iff {R : α → β → Prop} {as : List α} {bs : List β} (h : Pairwise2 R as bs) : as = [] ↔ bs = [] := by
  cases h <;> simp

theorem Spec.Pairwise2.getD_nil {R : α → β → Prop} {as : List (List α)} {bs : List (List β)} (h : Pairwise2 (Pairwise2 R) as bs) :
    ∀ i : Nat, Pairwise2 R (as.getD i []) (bs.getD i []) := by
  induction h with
  | nil => intro i; exact .nil
  | cons h _ ih =>
    intro i
    cases i with
    | zero => exact h
    | succ i => exact ih i

theorem Spec.Pairwise2.diag {R : α → β → Prop} (f : γ → α) (g : γ → β) : ∀ (l : List γ), (∀ x, R (f x) (g x)) → Pairwise2 R (l.map f) (l.map g)
  | [], _ => .nil
  | x :: l, h => .cons (h x) (Spec.Pairwise2.diag f g l h)

/-! ## Sections -/

theorem Spec.SectRel.addProp {R : σ → σ → Prop} {s s' : Sect σ} (h : SectRel Q R s s') {l l' : Line} (hr : Stands E E' Q l l') (i : Nat) {f : SField}
    (hf : f ∈ allFields) (hk : f.key = upper l.name) : Res.Leads (SectRel Q R) (s.addProp E i f l) (s'.addProp E' i f l') := by
  unfold Sect.addProp
  have he := (Pairwise2.getD_nil h.1 i).empty_iff
  by_cases hc : f.mult ≠ .many ∧ s.fields.getD i [] ≠ []
  · rw [if_pos hc]
    exact .err
  · rw [if_neg hc, if_neg fun h => hc ⟨h.1, fun e => h.2 (he.1 e)⟩]
    refine Res.Leads.bind (R := Q) (fun p hp => hr.read f hf hk p hp) fun a b _ _ hq => ?_
    exact .ok ⟨Pairwise2.modify h.1 (fun _ _ hx => Pairwise2.snoc hx hq) i, h.2⟩

theorem Spec.SectRel.addSub {R : σ → σ → Prop} {s s' : Sect σ} (h : SectRel Q R s s') (i : Nat) {x y : σ} (hr : R x y) : SectRel Q R (s.addSub i x) (s'.addSub i y) :=
  ⟨h.1, Pairwise2.modify h.2 (fun _ _ hx => Pairwise2.snoc hx hr) i⟩

theorem Spec.SectRel.start {R : σ → σ → Prop} (T : Tab κ) : SectRel Q R (T.start σ) (T.start σ) :=
  ⟨Pairwise2.diag _ _ _ fun _ => .nil, Pairwise2.diag _ _ _ fun _ => .nil⟩

theorem reqMet_rel : ∀ (fs : List SField) {vs vs' : List (List PropVal)}, Pairwise2 (Pairwise2 Q) vs vs' → reqMet fs vs = reqMet fs vs' := by
  intro fs
  induction fs with
  | nil => intro vs vs' _; unfold reqMet; rfl
  | cons f fs ih =>
    intro vs vs' h
    cases h with
    | nil => rfl
    | @cons v v' vs vs' h hs =>
      have e : (v != []) = (v' != []) := by
        rw [Bool.eq_iff_iff]
        simp only [bne_iff_ne, ne_eq, h.empty_iff]
      simp only [reqMet, ih hs, e]

theorem Spec.SectRel.hasField {R : σ → σ → Prop} {s s' : Sect σ} (h : SectRel Q R s s') (T : Tab κ) (n : Str) : Ics.hasField T s n = Ics.hasField T s' n := by
  unfold Ics.hasField
  split
  · rw [Bool.eq_iff_iff]
    simp only [bne_iff_ne, ne_eq, (Pairwise2.getD_nil h.1 _).empty_iff]
  · rfl

theorem anySub_rel {R : α → β → Prop} {as : List (List α)} {bs : List (List β)} (h : Pairwise2 (Pairwise2 R) as bs) :
    as.any (fun x => !x.isEmpty) = bs.any (fun x => !x.isEmpty) := by
  induction h with
  | nil => rfl
  | @cons a b _ _ h _ ih =>
    have e : a.isEmpty = b.isEmpty := by
      rw [Bool.eq_iff_iff]
      simp only [List.isEmpty_iff, h.empty_iff]
    simp only [List.any_cons, ih, e]

theorem Spec.SectRel.finish {R : σ → σ → Prop} {s s' : Sect σ} (h : SectRel Q R s s') (T : Tab κ) : T.finish s = T.finish s' := by
  unfold Tab.finish
  rw [reqMet_rel T.fields h.1]
  have e : Rule.met T s = Rule.met T s' := by
    funext ρ
    cases ρ <;> simp only [Rule.met, h.hasField, anySub_rel h.2]
  rw [e]

/-! ## The decoders -/

/-- Results in the relation, and lines left that correspond. -/
abbrev Gets (E E' : Env) (Q : PropVal → PropVal → Prop) (R : σ → σ → Prop) : Res (σ × List Line) → Res (σ × List Line) → Prop :=
  Res.Leads fun x y => R x.1 y.1 ∧ Pairwise2 (Stands E E' Q) x.2 y.2

theorem skip_stands : ∀ (n : Nat) (t : Term) (name : Str) (a b : List Line), a.length ≤ n → Pairwise2 (Stands E E' Q) a b →
    Res.Leads (Pairwise2 (Stands E E' Q)) (skip t name a) (skip t name b) := by
  intro n
  induction n with
  | zero =>
    intro t name a b hl h
    cases h with
    | nil => exact .err
    | cons => simp at hl
  | succ n ih =>
    intro t name a b hl h
    cases h with
    | nil => exact .err
    | cons hr h =>
      simp only [List.length_cons] at hl
      rw [skip_cons, skip_cons, hr.name]
      split
      · next hb =>
        rw [hr.value (by rw [hb]; decide)]
        refine Res.Leads.bind (ih _ _ _ _ (by omega) h) fun x y hx hy hv => ?_
        have := skip_length hx
        exact ih _ _ _ _ (by omega) hv
      · split
        · next hb =>
          rw [hr.value (by rw [hb]; decide)]
          split
          · exact .ok h
          · exact .err
        · exact ih _ _ _ _ (by omega) h

theorem Sect.run_stands {T : Tab κ} {sub sub' : κ → List Line → Res (σ × List Line)} {R : σ → σ → Prop} {t : Term} (hs : Suffix sub) (hs' : Suffix sub')
    (hT : ∀ f ∈ T.fields, f ∈ allFields) (hsub : ∀ x ∈ T.subs, ∀ a b, Pairwise2 (Stands E E' Q) a b → Gets E E' Q R (sub x.2 a) (sub' x.2 b)) :
    ∀ (n : Nat) (s s' : Sect σ) (a b : List Line), a.length ≤ n → SectRel Q R s s' → Pairwise2 (Stands E E' Q) a b →
      Gets E E' Q (SectRel Q R) (Sect.run E T sub t s a) (Sect.run E' T sub' t s' b) := by
  intro n
  induction n with
  | zero =>
    intro s s' a b hl _ h
    cases h with
    | nil => exact .err
    | cons => simp at hl
  | succ n ih =>
    intro s s' a b hl hS h
    cases h with
    | nil => exact .err
    | @cons l l' a b hr h =>
      simp only [List.length_cons] at hl
      rw [Sect.run_cons hs, Sect.run_cons hs', hr.kind]
      cases hk : T.kindOf l with
      | sub i k =>
        obtain ⟨x, hx, rfl⟩ : ∃ x ∈ T.subs, x.2 = k := by
          unfold Tab.kindOf at hk
          split at hk
          · split at hk
            · split at hk
              · next hg => cases hk; exact ⟨_, List.mem_of_getElem? hg, rfl⟩
              · cases hk
            · cases hk
          · split at hk
            · split at hk <;> cases hk
            · split at hk <;> cases hk
        refine Res.Leads.bind (hsub x hx _ _ h) fun y z hy hz hv => ?_
        obtain ⟨p, hp⟩ := hs _ _ _ _ hy
        have := congrArg List.length hp
        simp only [List.length_append] at *
        exact ih _ _ _ _ (by omega) (hS.addSub i hv.1) hv.2
      | unk =>
        dsimp only
        rw [hr.value (by
          unfold Tab.kindOf at hk
          split at hk
          · next hb => rw [hb]; decide
          · split at hk
            · split at hk <;> cases hk
            · split at hk <;> cases hk)]
        refine Res.Leads.bind (skip_stands _ _ _ _ _ (Nat.le_refl _) h) fun y z hy hz hv => ?_
        have := skip_length hy
        exact ih _ _ _ _ (by omega) hS hv
      | prop i f =>
        dsimp only
        have hf := Tab.kindOf_prop hk
        refine Res.Leads.bind (hS.addProp hr i (hT f (List.mem_of_getElem? hf.2.2.1)) hf.2.2.2) fun s s' _ _ e => ?_
        exact ih _ _ _ _ (by omega) e h
      | fin =>
        dsimp only
        rw [hr.value (by rw [Tab.kindOf_fin hk]; decide)]
        split
        · exact .ok ⟨hS, h⟩
        · exact .err
      | other => exact ih _ _ _ _ (by omega) hS h

theorem Tab.decode_stands {T : Tab κ} {sub sub' : κ → List Line → Res (σ × List Line)} {R : σ → σ → Prop} {t : Term} (hs : Suffix sub) (hs' : Suffix sub')
    (hT : ∀ f ∈ T.fields, f ∈ allFields) (hsub : ∀ x ∈ T.subs, ∀ a b, Pairwise2 (Stands E E' Q) a b → Gets E E' Q R (sub x.2 a) (sub' x.2 b)) {a b : List Line}
    (h : Pairwise2 (Stands E E' Q) a b) : Gets E E' Q (SectRel Q R) (T.decode E sub t a) (T.decode E' sub' t b) := by
  rw [Tab.decode_run, Tab.decode_run]
  refine Res.Leads.bind (Sect.run_stands hs hs' hT hsub _ _ _ _ _ (Nat.le_refl _) (SectRel.start T) h) fun y z _ _ hv => ?_
  rw [hv.1.finish T]
  cases T.finish z.1 with
  | ok => exact .ok hv
  | err e => exact .err
  | panic => exact .panic

theorem alarmCollect_stands {t : Term} {a b : List Line} (h : Pairwise2 (Stands E E' Q) a b) : ∀ (k : Option AKind),
    Res.Leads (fun x y => x.1 = y.1 ∧ Pairwise2 (Stands E E' Q) x.2.1 y.2.1 ∧ Pairwise2 (Stands E E' Q) x.2.2 y.2.2) (alarmCollect t k a) (alarmCollect t k b) := by
  induction h with
  | nil =>
    intro k
    unfold alarmCollect
    split
    · exact .panic
    · exact .err
  | @cons l l' a b hr hab ih =>
    intro k
    rw [alarmCollect, alarmCollect]
    simp only [hr.exact (n := kBEGIN) (by decide), hr.exact (n := kACTION) (by decide), hr.exact (n := kEND) (by decide)]
    have step : ∀ k, Res.Leads (fun x y => x.1 = y.1 ∧ Pairwise2 (Stands E E' Q) x.2.1 y.2.1 ∧ Pairwise2 (Stands E E' Q) x.2.2 y.2.2)
        (do let (a, pt, r) ← alarmCollect t k a; return (a, l :: pt, r)) (do let (a, pt, r) ← alarmCollect t k b; return (a, l' :: pt, r)) := by
      intro k
      exact Res.Leads.bind (ih k) fun x y _ _ h => .ok ⟨h.1, .cons hr h.2.1, h.2.2⟩
    split
    · exact .err
    · split
      · next ha =>
        rw [hr.value (by rw [ha]; decide)]
        split
        · exact .err
        · exact step _
      · split
        · exact .ok ⟨rfl, .cons hr .nil, hab⟩
        · exact step _

theorem subDecode_stands {t : Term} {x : Str × Tab SubKind} (hx : x ∈ tabCalendar.subs) :
    ∀ y ∈ x.2.subs, ∀ a b, Pairwise2 (Stands E E' Q) a b → Gets E E' Q (SubRel Q) (subDecode E t y.2 a) (subDecode E' t y.2 b) := by
  intro ⟨n, y⟩ hy a b h
  cases y with
  | alarm =>
    simp only [subDecode, alarmDecode]
    refine Res.Leads.bind (alarmCollect_stands h _) fun y z _ _ hv => ?_
    obtain ⟨y1, y2, y3⟩ := y
    obtain ⟨z1, z2, z3⟩ := z
    obtain ⟨rfl, h1, h2⟩ := hv
    dsimp only at h1 h2 ⊢
    cases y1 with
    | none => exact .err
    | some k =>
      refine Res.Leads.bind (Tab.decode_stands (R := fun _ _ => True) noSub_suffix noSub_suffix (mem_allFields_alarm hx hy k) (fun x => nomatch x.2) h1)
        fun y z _ _ hv => ?_
      exact .ok ⟨⟨rfl, hv.1⟩, h2⟩
  | leaf T =>
    simp only [subDecode]
    refine Res.Leads.bind (Tab.decode_stands (R := fun _ _ => True) noSub_suffix noSub_suffix (mem_allFields_leaf hx hy) (fun x => nomatch x.2) h)
      fun y z _ _ hv => ?_
    exact .ok ⟨hv.1, hv.2⟩

theorem compDecode_stands {t : Term} : ∀ x ∈ tabCalendar.subs, ∀ a b, Pairwise2 (Stands E E' Q) a b →
    Gets E E' Q (CompRel Q) (compDecode E t x.2 a) (compDecode E' t x.2 b) :=
  fun _ hx _ _ h => Tab.decode_stands (subDecode_suffix E t) (subDecode_suffix E' t) (mem_allFields_comp hx) (subDecode_stands hx) h

theorem decodeStream_stands {t : Term} {a b : List Line} (h : Pairwise2 (Stands E E' Q) a b) :
    Res.Leads (CalRel Q) (decodeStream E ⟨a, t⟩) (decodeStream E' ⟨b, t⟩) := by
  cases h with
  | nil => exact .err
  | @cons l l' a b hr h =>
    unfold decodeStream
    dsimp only
    by_cases hb : upper l.name ≠ kBEGIN
    · rw [if_neg fun h => hb h.1]
      exact .err
    have hb : upper l.name = kBEGIN := Decidable.not_not.1 hb
    rw [hr.name, hr.value (by rw [hb]; decide)]
    split
    · refine Res.Leads.bind (Tab.decode_stands (compDecode_suffix E t) (compDecode_suffix E' t) mem_allFields_cal compDecode_stands h) fun y z _ _ hv => ?_
      exact .ok hv.1
    · exact .err

end Ics
