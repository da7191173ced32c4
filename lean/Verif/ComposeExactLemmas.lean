import Verif.ComposeLemmas
import Verif.Spec.ComposeExact
import Verif.ExactLemmas
import Verif.VerdictLemmas
import Verif.MessageLemmas
/-!
# Lemmas: components added to any document
-/

namespace Ics

open Spec

variable {κ σ τ : Type}

/-- The state after lines. -/
inductive Goes (sstep : τ → Line → Res (τ ⊕ σ)) : τ → List Line → τ → Prop
  | nil {x : τ} : Goes sstep x [] x
  | cons {x y z : τ} {l : Line} {r : List Line} : sstep x l = .ok (.inl y) → Goes sstep y r z → Goes sstep x (l :: r) z

theorem Goes.run {srun : Term → τ → List Line → Res (σ × List Line)} {sstep : τ → Line → Res (τ ⊕ σ)} (hst : Steps srun sstep) {x y : τ} {ls : List Line}
    (h : Goes sstep x ls y) (t : Term) (r : List Line) : srun t x (ls ++ r) = srun t y r := by
  induction h with
  | nil => rfl
  | cons h _ ih => rw [List.cons_append, hst, h]; exact ih

theorem Goes.inv {sstep : τ → Line → Res (τ ⊕ σ)} {I : τ → Prop} (hI : ∀ x l y, I x → sstep x l = .ok (.inl y) → I y) {x y : τ} {ls : List Line}
    (h : Goes sstep x ls y) (hx : I x) : I y := by
  induction h with
  | nil => exact hx
  | cons h _ ih => exact ih (hI _ _ _ hx h)

/-- A decoder that has read lines none of which is at fault is in a state with the blocks that are open. -/
theorem Tracks.goes {F : Level → Line → Option Err → Prop} {sstep : τ → Line → Res (τ ⊕ σ)} {n : Str} {M : τ → List Level → Prop} (hs : Tracks F sstep n M)
    {seg seg' : List Level} {ls : List Line} (h : Sails F seg ls seg') : ∀ x, M x seg → ∃ y, M y seg' ∧ Goes sstep x ls y := by
  induction h with
  | nil _ => exact fun x hx => ⟨x, hx, .nil⟩
  | cons hf hsl ih =>
    next p st st' l ls =>
    intro x hx
    obtain ⟨q, s0, he, hj, h1, h2⟩ := hs.step l hx
    simp only [List.cons.injEq] at he
    obtain ⟨rfl, rfl⟩ := he
    cases hr : sstep x l with
    | ok y =>
      cases y with
      | inl y =>
        obtain ⟨seg1, hM1, hadv⟩ := h1 y hr
        have hadv : advance p st l = seg1 := by simpa using hadv []
        obtain ⟨z, hz, hrun⟩ := ih y (hadv ▸ hM1)
        exact ⟨z, hz, .cons hr hrun⟩
      | inr v =>
        have hadv : advance p st l = [] := by simpa [close] using h2 v hr []
        exact absurd hadv (sails_ne hsl).1
    | err e =>
      rw [hr] at hj
      exact absurd ((hj (some e)).2 rfl) (hf _)
    | panic =>
      rw [hr] at hj
      exact absurd ((hj none).2 rfl) (hf _)

theorem Goes.sub {E : Env} {T : Tab κ} {init : κ → τ} {srun : Term → τ → List Line → Res (σ × List Line)} {sstep : τ → Line → Res (τ ⊕ σ)} (hst : Steps srun sstep)
    {s s2 : Sect σ} {i : Nat} : ∀ (ls : List Line) (x : τ), Goes (SCfg.step E T init sstep) ⟨s, .sub i x⟩ ls ⟨s2, .own⟩ →
      ∃ body v rest, ls = body ++ rest ∧ (∀ t r, srun t x (body ++ r) = .ok (v, r)) ∧ Goes (SCfg.step E T init sstep) ⟨s.addSub i v, .own⟩ rest ⟨s2, .own⟩ := by
  intro ls
  induction ls with
  | nil => intro x h; cases h
  | cons l r ih =>
    intro x h
    cases h with
    | @cons _ y _ _ _ h hg =>
      simp only [SCfg.step] at h
      obtain ⟨a, ha, h2⟩ := Res.bind_eq_ok.1 h
      cases a with
      | inl z =>
        cases h2
        obtain ⟨body, v, rest, rfl, h3, h4⟩ := ih z hg
        exact ⟨l :: body, v, rest, rfl, fun t r => by rw [List.cons_append, hst, ha]; exact h3 t r, h4⟩
      | inr v =>
        cases h2
        exact ⟨[l], v, r, rfl, fun t r => by rw [List.cons_append, hst, ha]; rfl, hg⟩

theorem Goes.skip {E : Env} {T : Tab κ} {init : κ → τ} {sstep : τ → Line → Res (τ ⊕ σ)} {s s2 : Sect σ} : ∀ (ls : List Line) (us : List Str),
    Goes (SCfg.step E T init sstep) ⟨s, .outer us⟩ ls ⟨s2, .own⟩ →
      ∃ body rest, ls = body ++ rest ∧ (∀ t r, skips t us (body ++ r) = .ok r) ∧ Goes (SCfg.step E T init sstep) ⟨s, .own⟩ rest ⟨s2, .own⟩ := by
  intro ls
  induction ls with
  | nil =>
    intro us h
    cases us with
    | nil => exact ⟨[], [], rfl, fun _ _ => rfl, h⟩
    | cons n ns => cases h
  | cons l r ih =>
    intro us h
    cases us with
    | nil => exact ⟨[], _, rfl, fun _ _ => rfl, h⟩
    | cons n ns =>
      cases h with
      | @cons _ y _ _ _ h hg =>
        simp only [SCfg.step, Inner.outer] at h
        split at h
        · next hb =>
          cases h
          obtain ⟨body, rest, rfl, h3, h4⟩ := ih (l.value :: n :: ns) hg
          refine ⟨l :: body, rest, rfl, fun t r => ?_, h4⟩
          have := h3 t r
          simp only [skips] at this ⊢
          rw [List.cons_append, skip_cons, if_pos hb]
          cases hx : Ics.skip t l.value (body ++ r) with
          | ok r' => rw [hx] at this; exact this
          | err e => rw [hx] at this; cases this
          | panic => rw [hx] at this; cases this
        · next hb =>
          split at h
          · next he =>
            split at h
            · next hv =>
              cases h
              obtain ⟨body, rest, rfl, h3, h4⟩ := ih ns hg
              refine ⟨l :: body, rest, rfl, fun t r => ?_, h4⟩
              simp only [skips]
              rw [List.cons_append, skip_cons, if_neg hb, if_pos he, if_pos hv]
              exact h3 t r
            · cases h
          · next he =>
            cases h
            obtain ⟨body, rest, rfl, h3, h4⟩ := ih (n :: ns) hg
            refine ⟨l :: body, rest, rfl, fun t r => ?_, h4⟩
            have := h3 t r
            simp only [skips] at this ⊢
            rw [List.cons_append, skip_cons, if_neg hb, if_neg he]
            exact this

/-- Lines between two places where only the section is open are whole parts of it. -/
theorem Goes.parts {E : Env} {T : Tab κ} (hw : T.Wf) {sub : Term → κ → List Line → Res (σ × List Line)} {R : κ → List Line → σ → Prop} {init : κ → τ}
    {srun : Term → τ → List Line → Res (σ × List Line)} {sstep : τ → Line → Res (τ ⊕ σ)} (hst : Steps srun sstep) (hi : ∀ t k ls, sub t k ls = srun t (init k) ls)
    (hsub : ∀ t, SubExact T (sub t) R) : ∀ (n : Nat) (ls : List Line) (s s2 : Sect σ), ls.length ≤ n → Sound T s → Goes (SCfg.step E T init sstep) ⟨s, .own⟩ ls ⟨s2, .own⟩ →
      ∃ is, Parts (T.subs.map (·.1)) ls is ∧ Grows E T R is s s2 := by
  intro n
  induction n with
  | zero =>
    intro ls s s2 hl hso h
    cases ls with
    | nil => cases h; exact ⟨[], .nil, (Grows.nil_iff hso).2 rfl⟩
    | cons => simp at hl
  | succ n ih =>
    intro ls s s2 hl hso h
    cases h with
    | nil => exact ⟨[], .nil, (Grows.nil_iff hso).2 rfl⟩
    | @cons _ y _ l r h hg =>
      simp only [List.length_cons] at hl
      simp only [SCfg.step] at h
      by_cases hb : Begins l
      · rcases Tab.kindOf_begin (T := T) hb with ⟨i, k, hk, hx⟩ | ⟨hk, hx⟩
        · rw [hk] at h
          cases h
          obtain ⟨body, v, rest, rfl, h3, h4⟩ := Goes.sub hst r _ hg
          obtain ⟨is, h5, h6⟩ := ih rest _ s2 (by simp at hl; omega) (addSub_sound hso i v) h4
          have hr : sub .done k (body ++ []) = .ok (v, []) := by rw [hi]; exact h3 .done []
          obtain ⟨k', hk', hr⟩ := (hsub .done _ (List.mem_of_getElem? hx) _ v []).1 hr
          simp only [List.append_nil] at hk'
          subst hk'
          exact ⟨_, .known hb (List.mem_map.2 ⟨_, List.mem_of_getElem? hx, rfl⟩) h5, (Grows.sub hw hso hx).2 ⟨v, hr, h6⟩⟩
        · rw [hk] at h
          cases h
          obtain ⟨body, rest, rfl, h3, h4⟩ := Goes.skip r [upper l.value] hg
          obtain ⟨is, h5, h6⟩ := ih rest _ s2 (by simp at hl; omega) hso h4
          have h3 := h3 .done []
          simp only [skips] at h3
          obtain ⟨r', h7, h8⟩ := Res.bind_eq_ok.1 h3
          cases h8
          obtain ⟨k', hk', hc⟩ := skip_iff.1 h7
          simp only [List.append_nil] at hk'
          subst hk'
          exact ⟨_, .unknown hb hx hc h5, (Grows.unk hx).2 h6⟩
      · by_cases he : Ends l
        · rw [Tab.kindOf_end hw he] at h
          dsimp only at h
          split at h
          · obtain ⟨_, _, h2⟩ := Res.bind_eq_ok.1 h
            cases h2
          · cases h
        · rcases Tab.kindOf_line (T := T) hb he with ⟨i, f, hk, hf, hn⟩ | ⟨hk, hn⟩
          · rw [hk] at h
            obtain ⟨s1, h1, h2⟩ := Res.bind_eq_ok.1 h
            cases h2
            obtain ⟨is, h5, h6⟩ := ih r s1 s2 (by omega) (addProp_sound hso hf h1) hg
            exact ⟨_, .line hb he h5, (Grows.prop hw hso hf hn).2 ⟨s1, h1, h6⟩⟩
          · rw [hk] at h
            cases h
            obtain ⟨is, h5, h6⟩ := ih r s s2 (by omega) hso hg
            exact ⟨_, .line hb he h5, (Grows.other hn).2 h6⟩

theorem Goes.append {sstep : τ → Line → Res (τ ⊕ σ)} {x y z : τ} {a b : List Line} (h : Goes sstep x a y) (h' : Goes sstep y b z) : Goes sstep x (a ++ b) z := by
  induction h with
  | nil => exact h'
  | cons h _ ih => exact .cons h (ih h')

/-- No line on the way is at fault. -/
theorem Goes.sails {F : Level → Line → Option Err → Prop} {sstep : τ → Line → Res (τ ⊕ σ)} {n : Str} {M : τ → List Level → Prop} (hs : Tracks F sstep n M)
    {x y : τ} {ls : List Line} (h : Goes sstep x ls y) : ∀ seg, M x seg → ∃ seg', M y seg' ∧ Sails F seg ls seg' := by
  induction h with
  | @nil x =>
    intro seg hM
    refine ⟨seg, hM, .nil ?_⟩
    obtain ⟨p, st0, rfl, _⟩ := hs.step ⟨[], [], []⟩ hM
    simp
  | @cons x y z l r h _ ih =>
    intro seg hM
    obtain ⟨p, st0, rfl, hj, h1, _⟩ := hs.step l hM
    obtain ⟨seg1, hM1, hadv⟩ := h1 _ h
    have hadv : advance p st0 l = seg1 := by simpa using hadv []
    obtain ⟨seg', hM', hsl⟩ := ih seg1 hM1
    rw [h] at hj
    exact ⟨seg', hM', .cons hj (hadv ▸ hsl)⟩

/-- A decoder that returns has read lines up to one that ends it. -/
theorem Goes.ends {srun : Term → τ → List Line → Res (σ × List Line)} {sstep : τ → Line → Res (τ ⊕ σ)} (hst : Steps srun sstep) {t : Term} (hn : ∀ x v, srun t x [] ≠ .ok v)
    {v : σ} {r : List Line} : ∀ (ls : List Line) (x : τ), srun t x ls = .ok (v, r) → ∃ a l y, ls = a ++ l :: r ∧ Goes sstep x a y ∧ sstep y l = .ok (.inr v) := by
  intro ls
  induction ls with
  | nil => intro x h; exact absurd h (hn x _)
  | cons l ls ih =>
    intro x h
    rw [hst] at h
    obtain ⟨a, ha, h2⟩ := Res.bind_eq_ok.1 h
    cases a with
    | inl y =>
      obtain ⟨a, m, z, rfl, h3, h4⟩ := ih y h2
      exact ⟨l :: a, m, z, rfl, .cons ha h3, h4⟩
    | inr w =>
      cases h2
      exact ⟨[], l, x, rfl, .nil, ha⟩

theorem Goes.inner {E : Env} {T : Tab κ} {init : κ → τ} {sstep : τ → Line → Res (τ ⊕ σ)} {x y : τ} {ls : List Line} (h : Goes sstep x ls y) (s : Sect σ) (i : Nat) :
    Goes (SCfg.step E T init sstep) ⟨s, .sub i x⟩ ls ⟨s, .sub i y⟩ := by
  induction h with
  | nil => exact .nil
  | cons h _ ih => exact .cons (by simp only [SCfg.step, h]; rfl) ih

theorem Goes.skipped {E : Env} {T : Tab κ} {init : κ → τ} {sstep : τ → Line → Res (τ ⊕ σ)} (s : Sect σ) {n : Str} {k : List Line} (h : Skipped n k) :
    ∀ ns, Goes (SCfg.step E T init sstep) ⟨s, .skip n ns⟩ k ⟨s, .outer ns⟩ := by
  induction h with
  | fin he hv =>
    intro ns
    refine .cons ?_ .nil
    simp only [SCfg.step]
    rw [if_neg (show ¬ upper _ = kBEGIN from Ends.not_begin he), if_pos (show upper _ = kEND from he), if_pos hv]
  | line hb he _ ih =>
    intro ns
    refine .cons ?_ (ih ns)
    simp only [SCfg.step]
    rw [if_neg (show ¬ upper _ = kBEGIN from hb), if_neg (show ¬ upper _ = kEND from he)]
  | @block n b k r hb _ _ ih1 ih2 =>
    intro ns
    refine Goes.cons (y := ⟨s, .skip b.value (n :: ns)⟩) ?_ ((ih1 (n :: ns)).append (ih2 ns))
    simp only [SCfg.step]
    rw [if_pos (show upper _ = kBEGIN from hb)]

/-- Whole parts lead from a place where only the section is open to another one. -/
theorem Goes.of_parts {E : Env} {T : Tab κ} (hw : T.Wf) {sub : Term → κ → List Line → Res (σ × List Line)} {R : κ → List Line → σ → Prop} {init : κ → τ}
    {srun : Term → τ → List Line → Res (σ × List Line)} {sstep : τ → Line → Res (τ ⊕ σ)} (hst : Steps srun sstep) (hi : ∀ t k ls, sub t k ls = srun t (init k) ls)
    (hsub : ∀ t, SubExact T (sub t) R) (hn : ∀ x v, srun .done x [] ≠ .ok v) {k : List Line} {is : List Item} (hp : Parts (T.subs.map (·.1)) k is) {s s' : Sect σ} (hso : Sound T s)
    (hg : Grows E T R is s s') : Goes (SCfg.step E T init sstep) ⟨s, .own⟩ k ⟨s', .own⟩ := by
  induction hp generalizing s with
  | nil => rw [(Grows.nil_iff hso).1 hg]; exact .nil
  | @line l r is hb hne _ ih =>
    rcases Tab.kindOf_line (T := T) hb hne with ⟨i, f, hk, hf, hfn⟩ | ⟨hk, hfn⟩
    · obtain ⟨s1, h1, h2⟩ := (Grows.prop hw hso hf hfn).1 hg
      exact .cons (y := ⟨s1, .own⟩) (by simp only [SCfg.step, hk, h1]; rfl) (ih (addProp_sound hso hf h1) h2)
    · exact .cons (y := ⟨s, .own⟩) (by simp only [SCfg.step, hk]) (ih hso ((Grows.other hfn).1 hg))
  | @known b body r0 is hb hm _ ih =>
    rcases Tab.kindOf_begin (T := T) hb with ⟨i, k, hk, hx⟩ | ⟨hk, hx⟩
    · obtain ⟨x, hR, hg2⟩ := (Grows.sub hw hso hx).1 hg
      have h1 := (hsub .done _ (List.mem_of_getElem? hx) body x []).2 ⟨body, by simp, hR⟩
      rw [hi] at h1
      obtain ⟨a, l, y, rfl, h2, h3⟩ := Goes.ends hst hn _ _ h1
      refine .cons (y := ⟨s, .sub i (init k)⟩) (by simp only [SCfg.step, hk]) ((Goes.append (h2.inner s i) ?_).append (ih (addSub_sound hso i x) hg2))
      exact .cons (by simp only [SCfg.step, h3]; rfl) .nil
    · exact absurd hm hx
  | @unknown b body r0 is hb hm hc _ ih =>
    rcases Tab.kindOf_begin (T := T) hb with ⟨i, k, hk, hx⟩ | ⟨hk, hx⟩
    · exact absurd (List.mem_map.2 ⟨_, List.mem_of_getElem? hx, rfl⟩) hm
    · exact .cons (y := ⟨s, .skip (upper b.value) []⟩) (by simp only [SCfg.step, hk]) ((Goes.skipped s hc []).append (ih hso ((Grows.unk hx).1 hg)))

/-- Whole parts of a section are read one after the other. -/
theorem Sect.run_parts {E : Env} {T : Tab κ} (hw : T.Wf) {sub : κ → List Line → Res (σ × List Line)} {R : κ → List Line → σ → Prop} {t : Term} (hs : Suffix sub)
    (hsub : SubExact T sub R) {k : List Line} {is : List Item} (hp : Parts (T.subs.map (·.1)) k is) {s s' : Sect σ} (hso : Sound T s) (hg : Grows E T R is s s')
    (r : List Line) : Sect.run E T sub t s (k ++ r) = Sect.run E T sub t s' r := by
  induction hp generalizing s with
  | nil => rw [(Grows.nil_iff hso).1 hg, List.nil_append]
  | line hb hne _ ih =>
    rw [List.cons_append, Sect.run_cons hs]
    rcases Tab.kindOf_line (T := T) hb hne with ⟨i, f, hk, hf, hn⟩ | ⟨hk, hn⟩
    · obtain ⟨s1, h1, h2⟩ := (Grows.prop hw hso hf hn).1 hg
      rw [hk]
      dsimp only
      rw [h1]
      exact ih (addProp_sound hso hf h1) h2
    · rw [hk]
      exact ih hso ((Grows.other hn).1 hg)
  | @known b body r0 is hb hm _ ih =>
    rw [show (b :: body ++ r0) ++ r = b :: (body ++ (r0 ++ r)) by simp, Sect.run_cons hs]
    rcases Tab.kindOf_begin (T := T) hb with ⟨i, k, hk, hi⟩ | ⟨hk, hi⟩
    · obtain ⟨x, hx, hg2⟩ := (Grows.sub hw hso hi).1 hg
      rw [hk]
      dsimp only
      rw [(hsub _ (List.mem_of_getElem? hi) _ x _).2 ⟨body, rfl, hx⟩]
      exact ih (addSub_sound hso i x) hg2
    · exact absurd hm hi
  | @unknown b body r0 is hb hm hc _ ih =>
    rw [show (b :: body ++ r0) ++ r = b :: (body ++ (r0 ++ r)) by simp, Sect.run_cons hs]
    rcases Tab.kindOf_begin (T := T) hb with ⟨i, k, hk, hi⟩ | ⟨hk, hi⟩
    · exact absurd (List.mem_map.2 ⟨_, List.mem_of_getElem? hi, rfl⟩) hm
    · rw [hk]
      dsimp only
      rw [skip_iff.2 ⟨body, rfl, hc⟩]
      exact ih hso ((Grows.unk hi).1 hg)

theorem SCfg.step_sound {E : Env} {T : Tab κ} {init : κ → τ} {sstep : τ → Line → Res (τ ⊕ σ)} {c c' : SCfg σ τ} {l : Line} (h : Sound T c.s)
    (hs : SCfg.step E T init sstep c l = .ok (.inl c')) : Sound T c'.s := by
  obtain ⟨s, inner⟩ := c
  cases inner with
  | own =>
    simp only [SCfg.step] at hs
    cases hk : T.kindOf l with
    | sub i k => rw [hk] at hs; cases hs; exact h
    | unk => rw [hk] at hs; cases hs; exact h
    | prop i f =>
      rw [hk] at hs
      obtain ⟨s', h1, h2⟩ := Res.bind_eq_ok.1 hs
      cases h2
      exact addProp_sound h (Tab.kindOf_prop hk).2.2.1 h1
    | fin =>
      rw [hk] at hs
      dsimp only at hs
      split at hs
      · obtain ⟨_, _, h2⟩ := Res.bind_eq_ok.1 hs
        cases h2
      · cases hs
    | other => rw [hk] at hs; cases hs; exact h
  | skip n ns =>
    simp only [SCfg.step] at hs
    split at hs
    · cases hs; exact h
    · split at hs
      · split at hs
        · cases hs; exact h
        · cases hs
      · cases hs; exact h
  | sub i x =>
    simp only [SCfg.step] at hs
    obtain ⟨a, _, h2⟩ := Res.bind_eq_ok.1 hs
    cases a with
    | inl y => cases h2; exact h
    | inr v => cases h2; exact addSub_sound h i v

/-! ## Subsections that are put in -/

/-- Subsections put in behind the first `pos i` ones. -/
def wedge (pos : Nat → Nat) (ds : List (List σ)) (i : Nat) (xs : List σ) : List σ := xs.take (pos i) ++ ds.getD i [] ++ xs.drop (pos i)

/-- A section with subsections put in. -/
def Sect.wedge (pos : Nat → Nat) (ds : List (List σ)) (s : Sect σ) : Sect σ := ⟨s.fields, s.subs.mapIdx (Ics.wedge pos ds)⟩

theorem wedge_append {pos : Nat → Nat} {ds : List (List σ)} {i : Nat} {xs ys : List σ} (h : pos i ≤ xs.length) :
    wedge pos ds i (xs ++ ys) = wedge pos ds i xs ++ ys := by
  unfold wedge
  rw [List.take_append_of_le_length h, List.drop_append_of_le_length h, List.append_assoc, List.append_assoc, List.append_assoc]

theorem Sect.wedge_addSub {pos : Nat → Nat} {ds : List (List σ)} {s : Sect σ} {i : Nat} {x : σ} (h : ∀ j, j < s.subs.length → pos j ≤ (s.subs.getD j []).length) :
    (s.wedge pos ds).addSub i x = (s.addSub i x).wedge pos ds := by
  unfold Sect.wedge Sect.addSub
  simp only [Sect.mk.injEq, true_and]
  apply List.ext_getElem?
  intro j
  rw [List.getElem?_modify, List.getElem?_mapIdx, List.getElem?_mapIdx, List.getElem?_modify]
  cases hj : s.subs[j]? with
  | none => rfl
  | some xs =>
    by_cases hij : i = j
    · subst hij
      simp only [if_true, Option.map_some, Option.map_eq_map, Option.some.injEq]
      have := h i (List.getElem?_eq_some_iff.1 hj).1
      rw [List.getD_eq_getElem?_getD, hj] at this
      exact (wedge_append this).symm
    · simp only [if_neg hij, Option.map_some, Option.map_eq_map]

theorem Sect.wedge_addProp {E : Env} {pos : Nat → Nat} {ds : List (List σ)} {s : Sect σ} {i : Nat} {f : SField} {l : Line} :
    (s.wedge pos ds).addProp E i f l = s.addProp E i f l >>= fun s' => .ok (s'.wedge pos ds) := by
  unfold Sect.addProp
  have : (s.wedge pos ds).fields = s.fields := rfl
  rw [this]
  split
  · rfl
  · cases f.spec.decode E l.params l.value <;> rfl

theorem addProp_subs {E : Env} {s s' : Sect σ} {i : Nat} {f : SField} {l : Line} (h : s.addProp E i f l = .ok s') : s'.subs = s.subs := by
  unfold Sect.addProp at h
  split at h
  · cases h
  · obtain ⟨v, _, h2⟩ := Res.bind_eq_ok.1 h
    cases h2
    rfl

theorem Sect.run_wedge {E : Env} {T : Tab κ} {sub : κ → List Line → Res (σ × List Line)} {t : Term} (hs : Suffix sub) (pos : Nat → Nat) (ds : List (List σ)) :
    ∀ (n : Nat) (ls : List Line) (s : Sect σ), ls.length ≤ n → (∀ j, j < s.subs.length → pos j ≤ (s.subs.getD j []).length) →
      Sect.run E T sub t (s.wedge pos ds) ls = Sect.run E T sub t s ls >>= fun x => .ok (x.1.wedge pos ds, x.2) := by
  intro n
  induction n with
  | zero =>
    intro ls s hl _
    cases ls with
    | nil => rfl
    | cons => simp at hl
  | succ n ih =>
    intro ls s hl hp
    cases ls with
    | nil => rfl
    | cons l ls =>
      simp only [List.length_cons] at hl
      rw [Sect.run_cons hs, Sect.run_cons hs]
      cases hk : T.kindOf l with
      | sub i k =>
        dsimp only
        cases hx : sub k ls with
        | ok x =>
          obtain ⟨p, hsuf⟩ := hs _ _ _ _ hx
          have hlen : x.2.length ≤ ls.length := by rw [hsuf]; simp
          show Sect.run E T sub t ((s.wedge pos ds).addSub i x.1) x.2 = (Sect.run E T sub t (s.addSub i x.1) x.2 >>= _)
          rw [Sect.wedge_addSub hp]
          refine ih _ _ (by omega) ?_
          intro j hj
          have hj' : j < s.subs.length := by simpa [Sect.addSub] using hj
          refine Nat.le_trans (hp j hj') ?_
          simp only [Sect.addSub, List.getD_eq_getElem?_getD, List.getElem?_modify]
          rw [List.getElem?_eq_getElem hj']
          simp only [Option.map_eq_map, Option.map_some, Option.getD_some]
          split
          · simp
          · exact Nat.le_refl _
        | err e => rfl
        | panic => rfl
      | unk =>
        dsimp only
        cases hx : skip t (upper l.value) ls with
        | ok r =>
          obtain ⟨k, rfl, _⟩ := skip_iff.1 hx
          exact ih r s (by simp at hl; omega) hp
        | err e => rfl
        | panic => rfl
      | prop i f =>
        dsimp only
        rw [Sect.wedge_addProp]
        cases hx : s.addProp E i f l with
        | ok s' =>
          exact ih ls s' (by omega) (by rw [addProp_subs hx]; exact hp)
        | err e => rfl
        | panic => rfl
      | fin =>
        dsimp only
        split <;> rfl
      | other =>
        exact ih ls s (by omega) hp

/-! ## The calendar -/

theorem headLines_lines : ∀ l ∈ headLines, LineOk l :=
  (tokenise_front (s := headLines.flatMap printLine) (pre := headLines) (r := []) (by decide +kernel)).1

theorem finish_wedge (pos : Nat → Nat) (ds : List (List Comp)) (c : Cal) : tabCalendar.finish (c.wedge pos ds) = tabCalendar.finish c := rfl

/-- Where only the calendar is open. -/
theorem calOf_one (E : Env) {c : CalCfg} {p : Level} (h : CalOf c [p]) : c.inner = .own ∧ Counts tabCalendar p.own c.s := by
  obtain ⟨c, inner⟩ := c
  obtain ⟨own, hc, hm⟩ := h
  cases inner with
  | own =>
    simp only [List.cons.injEq, and_true] at hm
    subst hm
    exact ⟨rfl, hc⟩
  | skip n ns =>
    obtain ⟨us, hus, _, _, he⟩ := hm
    have := congrArg List.length he
    cases us with
    | nil => cases hus
    | cons u us => simp at this
  | sub i x =>
    obtain ⟨n, k, s0, hi, hM, he⟩ := hm
    obtain ⟨q, st0, rfl, _⟩ := (comp_sim E n).step ⟨[], [], []⟩ hM
    have := congrArg List.length he
    simp at this

theorem calRun_own (E : Env) (t : Term) (c : Cal) (r : List Line) : calRun E t ⟨c, .own⟩ r =
    Sect.run E tabCalendar (compDecode E t) t c r >>= fun x => tabCalendar.finish x.1 >>= fun _ => .ok x := rfl

theorem decodeStream_calRun (E : Env) (t : Term) {b : Line} (hb : Opening b) (ls : List Line) : decodeStream E ⟨b :: ls, t⟩ = calRun E t calInit ls >>= fun x => .ok x.1 := by
  unfold decodeStream
  simp only
  rw [if_pos (show upper b.name = kBEGIN ∧ upper b.value = tabCalendar.name from hb)]
  have h : tabCalendar.decode E (compDecode E t) t ls = calRun E t calInit ls := rfl
  rw [h]
  cases calRun E t calInit ls <;> rfl

theorem calStep_sound {E : Env} (x : CalCfg) (l : Line) (y : CalCfg) (h : Sound tabCalendar x.s) (hs : calStep E x l = .ok (.inl y)) : Sound tabCalendar y.s :=
  SCfg.step_sound h hs

/-- The run of the calendar where only the calendar is open. -/
theorem midway_run {E : Env} {pre : List Line} {p : Level} (h : Midway E pre [p]) : ∃ c : Cal, Counts tabCalendar p.own c ∧ Sound tabCalendar c ∧ CalOf ⟨c, .own⟩ [p] ∧
    ∀ t r, decodeStream E ⟨pre ++ r, t⟩ = calRun E t ⟨c, .own⟩ r >>= fun x => .ok x.1 := by
  obtain ⟨b, a, rfl, hb, hs⟩ := h
  obtain ⟨⟨c, inner⟩, hM, hg⟩ := (cal_sim E).goes hs _ cal_start
  obtain ⟨hi, hc⟩ := calOf_one E hM
  dsimp only at hi
  subst hi
  refine ⟨c, hc, hg.inv (I := fun x => Sound tabCalendar x.s) calStep_sound (start_sound _), hM, fun t r => ?_⟩
  rw [List.cons_append, decodeStream_calRun E t hb, hg.run (cal_steps E)]

/-- Lines that add no property to a calendar are whole blocks, and unknown properties. -/
theorem midway_added {E : Env} {pre k : List Line} {p q : Level} (h : Midway E pre [p]) (h' : Midway E (pre ++ k) [q])
    (hl : ∀ f ∈ tabCalendar.fields, (linesNamed q.own f.key).length = (linesNamed p.own f.key).length) : ∃ ds, Added E k ds := by
  obtain ⟨c, hc, hso, hM, _⟩ := midway_run h
  have hs : Sails (Fault E) [p] k [q] := by
    obtain ⟨b, a, rfl, hb, hs⟩ := h
    obtain ⟨b', a', he, hb', hs'⟩ := h'
    rw [List.cons_append, List.cons.injEq] at he
    obtain ⟨rfl, rfl⟩ := he
    obtain ⟨m, h1, h2⟩ := sails_append.1 hs'
    obtain rfl := sails_unique hs h1
    exact h2
  obtain ⟨⟨c2, inner⟩, hM2, hg⟩ := (cal_sim E).goes hs _ hM
  obtain ⟨hi, hc2⟩ := calOf_one E hM2
  dsimp only at hi
  subst hi
  obtain ⟨is, h1, h2⟩ := Goes.parts calTab_wf (comp_steps E) (compInit_run E) (fun t => compDecode_grammar) _ _ _ _ (Nat.le_refl _) hso hg
  refine ⟨(List.range tabCalendar.subs.length).map fun i => (c2.subs.getD i []).drop (c.subs.getD i []).length, is, h1, ?_, by simp, ?_⟩
  · intro f hf
    obtain ⟨i, hi⟩ := List.getElem?_of_mem hf
    obtain ⟨vs, e, h3, _⟩ := h2.fields i f hi
    have e := congrArg List.length e
    rw [List.length_append, hc.fields i f hi, hc2.fields i f hi, hl f hf] at e
    have := Pairwise2.length h3
    exact List.eq_nil_of_length_eq_zero (by omega)
  · intro i x hx
    obtain ⟨vs, e, h3⟩ := h2.subs i x hx
    have hi : i < tabCalendar.subs.length := (List.getElem?_eq_some_iff.1 hx).1
    rw [List.getD_eq_getElem?_getD, List.getElem?_map, List.getElem?_range hi]
    simp only [Option.map_some, Option.getD_some]
    rw [e, List.drop_left]
    exact h3

theorem addComponents_wedge {c : Cal} {fs : List (List PropVal)} {ds : List (List Comp)} {pos : Str → Nat} (h : c.subs.length = tabCalendar.subs.length) :
    addComponents c ⟨fs, ds⟩ pos = c.wedge (fun i => pos (tabCalendar.subs.getD i ([], tabEvent)).1) ds := by
  unfold addComponents Sect.wedge
  simp only [Sect.mk.injEq, true_and]
  apply List.ext_getElem?
  intro j
  rw [List.getElem?_map, List.getElem?_mapIdx]
  by_cases hj : j < tabCalendar.subs.length
  · rw [List.getElem?_range hj, List.getElem?_eq_getElem (h ▸ hj)]
    simp only [Option.map_some, Option.some.injEq, wedge]
    rw [List.getD_eq_getElem?_getD (l := c.subs), List.getElem?_eq_getElem (h ▸ hj)]
    rfl
  · rw [List.getElem?_eq_none (by simp; omega), List.getElem?_eq_none (by rw [h]; omega)]
    rfl

theorem counts_subs {own : List Item} {c : Cal} (hc : Counts tabCalendar own c) (j : Nat) (hj : j < c.subs.length) :
    (blocksNamed own (tabCalendar.subs.getD j ([], tabEvent)).1).length = (c.subs.getD j []).length := by
  have hj' : j < tabCalendar.subs.length := by rw [← hc.lenS]; exact hj
  have hx : tabCalendar.subs[j]? = some (tabCalendar.subs.getD j ([], tabEvent)) := by rw [List.getD_eq_getElem?_getD, List.getElem?_eq_getElem hj']; rfl
  exact (hc.subs j _ hx).symm

theorem added_grows {E : Env} {own : List Item} {c : Cal} {k : List Line} {ds : List (List Comp)} (hc : Counts tabCalendar own c) (hso : Sound tabCalendar c) (hk : Added E k ds) :
    ∃ is, Parts (tabCalendar.subs.map (·.1)) k is ∧
      Grows E tabCalendar (ExactComp E) is c (c.wedge (fun i => (blocksNamed own (tabCalendar.subs.getD i ([], tabEvent)).1).length) ds) := by
  obtain ⟨is, h1, h2, h3, h4⟩ := hk
  refine ⟨is, h1, rfl, by simp [Sect.wedge], ?_, ?_⟩
  · intro i f hf
    have := h2 f (List.mem_of_getElem? hf)
    refine ⟨[], by simp [Sect.wedge], by rw [this]; exact .nil, ?_⟩
    intro hm
    rw [this]
    exact hso.mult i f hf hm
  · intro i x hx
    refine ⟨ds.getD i [], ?_, h4 i x hx⟩
    have hi : i < c.subs.length := by rw [hc.lenS]; exact (List.getElem?_eq_some_iff.1 hx).1
    have he : (c.subs.getD i []) = c.subs[i] := by rw [List.getD_eq_getElem?_getD, List.getElem?_eq_getElem hi]; rfl
    simp only [Sect.wedge]
    rw [List.getD_eq_getElem?_getD, List.getElem?_mapIdx, List.getElem?_eq_getElem hi]
    simp only [Option.map_some, Option.getD_some, wedge]
    rw [counts_subs hc i hi, he, List.take_length, List.drop_length, List.append_nil]

/-- Behind such lines only the calendar is open again. -/
theorem added_midway {E : Env} {pre k : List Line} {p : Level} {ds : List (List Comp)} (h : Midway E pre [p]) (hk : Added E k ds) :
    ∃ q, Midway E (pre ++ k) [q] ∧ ∀ f ∈ tabCalendar.fields, (linesNamed q.own f.key).length = (linesNamed p.own f.key).length := by
  obtain ⟨c, hc, hso, hM, _⟩ := midway_run h
  obtain ⟨is, h1, hg⟩ := added_grows hc hso hk
  have hgo := Goes.of_parts calTab_wf (comp_steps E) (compInit_run E) (fun t => compDecode_grammar) (compRun_nil .done) h1 hso hg
  obtain ⟨seg, ⟨own, hc2, rfl⟩, hsl⟩ := hgo.sails (cal_sim E) _ hM
  refine ⟨⟨.cal, tabCalendar.name, own⟩, ?_, ?_⟩
  · obtain ⟨b, a, rfl, hb, hs⟩ := h
    exact ⟨b, a ++ k, rfl, hb, sails_append.2 ⟨_, hs, hsl⟩⟩
  · intro f hf
    obtain ⟨i, hi⟩ := List.getElem?_of_mem hf
    have e1 := hc.fields i f hi
    have e2 := hc2.fields i f hi
    rw [← e1, ← e2]
    rfl

/-- Blocks added where only the calendar is open: the same result, with their components. -/
theorem added_run {E : Env} {pre k : List Line} {p : Level} {ds : List (List Comp)} (h : Midway E pre [p]) (hk : Added E k ds) (fs : List (List PropVal)) (t : Term) (r : List Line) :
    decodeStream E ⟨pre ++ (k ++ r), t⟩ = decodeStream E ⟨pre ++ r, t⟩ >>= fun c => .ok (addComponents c ⟨fs, ds⟩ fun n => (blocksNamed p.own n).length) := by
  obtain ⟨c, hc, hso, _, hrun⟩ := midway_run h
  obtain ⟨is, h1, hg⟩ := added_grows hc hso hk
  have hps : ∀ j, j < c.subs.length → (blocksNamed p.own (tabCalendar.subs.getD j ([], tabEvent)).1).length = (c.subs.getD j []).length := counts_subs hc
  let ps : Nat → Nat := fun i => (blocksNamed p.own (tabCalendar.subs.getD i ([], tabEvent)).1).length
  rw [hrun, hrun, calRun_own, calRun_own, Sect.run_parts calTab_wf (compDecode_suffix E t) compDecode_grammar h1 hso hg,
    Sect.run_wedge (compDecode_suffix E t) ps ds _ _ _ (Nat.le_refl _) (fun j hj => Nat.le_of_eq (hps j hj))]
  cases hx : Sect.run E tabCalendar (compDecode E t) t c r with
  | ok x =>
    obtain ⟨_, _, _, _, _, _, _, hg⟩ := (Sect.run_grammar calTab_wf (compDecode_suffix E t) compDecode_grammar hso).1 hx
    have hlen := hg.lenS.trans hc.lenS
    simp only [Res.ok_bind, finish_wedge]
    cases tabCalendar.finish x.1 with
    | ok u => simp only [Res.ok_bind]; rw [addComponents_wedge hlen]
    | err e => rfl
    | panic => rfl
  | err e => rfl
  | panic => rfl

/-- The calendar with nothing but what every calendar needs. -/
theorem headLines_reads (E : Env) : ∃ c : Cal, decodeDoc E (calText headLines) = .ok c ∧ c.subs = List.replicate tabCalendar.subs.length [] := by
  obtain ⟨vs, h1, h2⟩ := headFields E
  refine ⟨⟨vs, List.replicate tabCalendar.subs.length []⟩, ?_, rfl⟩
  rw [calText_reads headLines_items (by decide) headLines_lines]
  refine ⟨_, headLines_items, h1, by simp, ?_, ?_, rules_nil _⟩
  · intro i f hf
    have := h2 [] (fun _ h => nomatch h) i f hf
    rwa [List.append_nil] at this
  · intro i x hx
    have : (List.replicate tabCalendar.subs.length ([] : List Comp)).getD i [] = [] := by
      rw [List.getD_eq_getElem?_getD, List.getElem?_replicate]
      split <;> rfl
    rw [this]
    exact .nil

theorem headLines_midway (E : Env) : ∃ p, Midway E (⟨c!"BEGIN", [], c!"VCALENDAR"⟩ :: headLines) [p] := by
  obtain ⟨c, hc, _⟩ := headLines_reads E
  rw [calText_stream headLines_lines] at hc
  obtain ⟨pre, l, r, he, p, hp, hl, _⟩ := decodeStream_ok_iff.1 ⟨c, hc⟩
  refine ⟨p, ?_⟩
  have hh : (⟨c!"BEGIN", [], c!"VCALENDAR"⟩ :: headLines ++ [⟨c!"END", [], c!"VCALENDAR"⟩] : List Line) = [⟨c!"BEGIN", [], c!"VCALENDAR"⟩, ⟨c!"VERSION", [], c!"2.0"⟩,
    ⟨c!"PRODID", [], c!"-"⟩, ⟨c!"END", [], c!"VCALENDAR"⟩] := rfl
  simp only at he
  rw [hh] at he
  have hno : ∀ n, n < 3 → ∀ x, ([⟨c!"BEGIN", [], c!"VCALENDAR"⟩, ⟨c!"VERSION", [], c!"2.0"⟩, ⟨c!"PRODID", [], c!"-"⟩, ⟨c!"END", [], c!"VCALENDAR"⟩] : List Line)[n]? = some x → ¬ Ends x := by
    intro n hn x hx
    match n, hn with
    | 0, _ => cases hx; decide
    | 1, _ => cases hx; decide
    | 2, _ => cases hx; decide
  have hlen : pre.length = 3 := by
    have h1 : ¬ pre.length < 3 := fun h => hno _ h l (by rw [he]; simp) hl
    have h2 := congrArg List.length he
    simp at h2
    omega
  match pre, hlen with
  | [a, b, c], _ =>
    simp only [List.cons_append, List.nil_append, List.cons.injEq] at he
    obtain ⟨rfl, rfl, rfl, _⟩ := he
    exact hp

theorem addComponents_congr {c d d' : Cal} {pos : Str → Nat} (h : ∀ i, d.subs.getD i [] = d'.subs.getD i []) : addComponents c d pos = addComponents c d' pos := by
  unfold addComponents
  simp only [h]

/-- The calendar with nothing but the components. -/
theorem added_alone {E : Env} {k : List Line} {ds : List (List Comp)} (hk : Added E k ds) (ho : ∀ l ∈ k, LineOk l) :
    ∃ fs, decodeDoc E (calText (headLines ++ k)) = .ok ⟨fs, ds⟩ := by
  obtain ⟨c, hc, hs⟩ := headLines_reads E
  obtain ⟨p, hp⟩ := headLines_midway E
  refine ⟨c.fields, ?_⟩
  rw [calText_stream headLines_lines] at hc
  rw [calText_stream (by
    intro l h
    rcases List.mem_append.1 h with h | h
    · exact headLines_lines l h
    · exact ho l h)]
  rw [show (⟨c!"BEGIN", [], c!"VCALENDAR"⟩ :: (headLines ++ k) ++ [⟨c!"END", [], c!"VCALENDAR"⟩] : List Line) =
    (⟨c!"BEGIN", [], c!"VCALENDAR"⟩ :: headLines) ++ (k ++ [⟨c!"END", [], c!"VCALENDAR"⟩]) by simp, added_run hp hk [], hc]
  obtain ⟨_, _, _, h3, _⟩ := hk
  show Res.ok _ = Res.ok _
  congr 1
  unfold addComponents
  rw [hs]
  simp only [Sect.mk.injEq, true_and]
  apply List.ext_getElem?
  intro j
  rw [List.getElem?_map]
  by_cases hj : j < tabCalendar.subs.length
  · rw [List.getElem?_range hj, List.getElem?_eq_getElem (h3 ▸ hj)]
    have : (List.replicate tabCalendar.subs.length ([] : List Comp)).getD j [] = [] := by
      rw [List.getD_eq_getElem?_getD, List.getElem?_replicate]
      split <;> rfl
    simp only [Option.map_some, Option.some.injEq]
    rw [this, List.take_nil, List.drop_nil, List.nil_append, List.append_nil, List.getD_eq_getElem?_getD, List.getElem?_eq_getElem (h3 ▸ hj)]
    rfl
  · rw [List.getElem?_eq_none (by simp; omega), List.getElem?_eq_none (by rw [h3]; omega)]
    rfl

end Ics
