import Verif.StructureLemmas
import Verif.Spec.Exact
/-!
# Lemmas: exactly the documents that Decode accepts
-/

namespace Ics

open Spec

variable {κ σ : Type}

theorem skip_iff {t : Term} {name : Str} {ls r : List Line} : skip t name ls = .ok r ↔ ∃ k, ls = k ++ r ∧ Skipped name k := by
  constructor
  · have : ∀ (n : Nat) (name : Str) (ls r : List Line), ls.length ≤ n → skip t name ls = .ok r → ∃ k, ls = k ++ r ∧ Skipped name k := by
      intro n
      induction n with
      | zero =>
        intro name ls r hl h
        cases ls with
        | nil => cases h
        | cons => simp at hl
      | succ n ih =>
        intro name ls r hl h
        cases ls with
        | nil => cases h
        | cons l ls =>
          simp only [List.length_cons] at hl
          rw [skip_cons] at h
          split at h
          · next hb =>
            obtain ⟨r1, h1, h2⟩ := Res.bind_eq_ok.1 h
            have hlen := skip_length h1
            obtain ⟨k1, rfl, g1⟩ := ih _ _ _ (by omega) h1
            obtain ⟨k2, rfl, g2⟩ := ih _ _ _ (by omega) h2
            exact ⟨l :: k1 ++ k2, by simp, .block hb g1 g2⟩
          · next hb =>
            split at h
            · next he =>
              split at h
              · next hv =>
                cases h
                exact ⟨[l], rfl, .fin he hv⟩
              · cases h
            · next he =>
              obtain ⟨k1, rfl, g1⟩ := ih _ _ _ (by omega) h
              exact ⟨l :: k1, rfl, .line hb he g1⟩
    exact this _ _ _ _ (Nat.le_refl _)
  · rintro ⟨k, rfl, h⟩
    induction h generalizing r with
    | fin he hv => rw [List.singleton_append, skip_cons, if_neg (show ¬ upper _ = kBEGIN from Ends.not_begin he), if_pos (show upper _ = kEND from he), if_pos hv]
    | line hb he _ ih =>
      rw [List.cons_append, skip_cons, if_neg (show ¬ upper _ = kBEGIN from hb), if_neg (show ¬ upper _ = kEND from he)]
      exact ih
    | @block n b k0 r0 hb _ _ ih1 ih2 =>
      rw [show b :: k0 ++ r0 ++ r = b :: (k0 ++ (r0 ++ r)) by simp, skip_cons, if_pos (show upper _ = kBEGIN from hb), ih1]
      exact ih2

/-- The decoder reads lines exactly as `R` says. -/
def SubExact (T : Tab κ) (sub : κ → List Line → Res (σ × List Line)) (R : κ → List Line → σ → Prop) : Prop :=
  ∀ x ∈ T.subs, ∀ ls y r, sub x.2 ls = .ok (y, r) ↔ ∃ k, ls = k ++ r ∧ R x.2 k y

theorem Sect.run_grammar {E : Env} {T : Tab κ} (hw : T.Wf) {sub : κ → List Line → Res (σ × List Line)} {R : κ → List Line → σ → Prop} {t : Term} (hs : Suffix sub)
    (hsub : SubExact T sub R) {ls : List Line} {s s' : Sect σ} {r : List Line} (hso : Sound T s) : Sect.run E T sub t s ls = .ok (s', r) ↔
      ∃ k e is, ls = k ++ e :: r ∧ Ends e ∧ e.value = T.name ∧ Parts (T.subs.map (·.1)) k is ∧ Grows E T R is s s' := by
  constructor
  · have : ∀ (n : Nat) (ls : List Line) (s s' : Sect σ) (r : List Line), ls.length ≤ n → Sound T s → Sect.run E T sub t s ls = .ok (s', r) →
        ∃ k e is, ls = k ++ e :: r ∧ Ends e ∧ e.value = T.name ∧ Parts (T.subs.map (·.1)) k is ∧ Grows E T R is s s' := by
      intro n
      induction n with
      | zero =>
        intro ls s s' r hl _ h
        cases ls with
        | nil => cases h
        | cons => simp at hl
      | succ n ih =>
        intro ls s s' r hl hso h
        cases ls with
        | nil => cases h
        | cons l ls =>
          simp only [List.length_cons] at hl
          rw [Sect.run_cons hs] at h
          by_cases hb : Begins l
          · rcases Tab.kindOf_begin (T := T) hb with ⟨i, k, hk, hi⟩ | ⟨hk, hi⟩
            · rw [hk] at h
              obtain ⟨⟨y, r1⟩, h1, h2⟩ := Res.bind_eq_ok.1 h
              obtain ⟨body, rfl, hr⟩ := (hsub _ (List.mem_of_getElem? hi) ls y r1).1 h1
              obtain ⟨k2, e2, is, rfl, he2, hv2, hi2, hg2⟩ := ih r1 _ s' r (by simp at hl; omega) (addSub_sound hso i y) h2
              refine ⟨l :: body ++ k2, e2, _, by simp, he2, hv2, .known hb ?_ hi2, (Grows.sub hw hso hi).2 ⟨y, hr, hg2⟩⟩
              exact List.mem_map.2 ⟨_, List.mem_of_getElem? hi, rfl⟩
            · rw [hk] at h
              obtain ⟨r1, h1, h2⟩ := Res.bind_eq_ok.1 h
              obtain ⟨body, rfl, hc⟩ := skip_iff.1 h1
              obtain ⟨k2, e2, is, rfl, he2, hv2, hi2, hg2⟩ := ih r1 _ s' r (by simp at hl; omega) hso h2
              exact ⟨l :: body ++ k2, e2, _, by simp, he2, hv2, .unknown hb hi hc hi2, (Grows.unk hi).2 hg2⟩
          · by_cases he : Ends l
            · rw [Tab.kindOf_end hw he] at h
              dsimp only at h
              split at h
              · next hv =>
                cases h
                exact ⟨[], l, [], rfl, he, hv, .nil, (Grows.nil_iff hso).2 rfl⟩
              · cases h
            · rcases Tab.kindOf_line (T := T) hb he with ⟨i, f, hk, hf, hn⟩ | ⟨hk, hn⟩
              · rw [hk] at h
                obtain ⟨s1, h1, h2⟩ := Res.bind_eq_ok.1 h
                obtain ⟨k2, e2, is, rfl, he2, hv2, hi2, hg2⟩ := ih ls _ s' r (by omega) (addProp_sound hso hf h1) h2
                exact ⟨l :: k2, e2, _, rfl, he2, hv2, .line hb he hi2, (Grows.prop hw hso hf hn).2 ⟨s1, h1, hg2⟩⟩
              · rw [hk] at h
                obtain ⟨k2, e2, is, rfl, he2, hv2, hi2, hg2⟩ := ih ls _ s' r (by omega) hso h
                exact ⟨l :: k2, e2, _, rfl, he2, hv2, .line hb he hi2, (Grows.other hn).2 hg2⟩
    exact this _ _ _ _ _ (Nat.le_refl _) hso
  · rintro ⟨k, e, is, rfl, he, hv, hi, hg⟩
    induction hi generalizing s with
    | nil =>
      rw [(Grows.nil_iff hso).1 hg, List.nil_append, Sect.run_cons hs, Tab.kindOf_end hw he]
      dsimp only
      rw [if_pos hv]
    | line hb hne _ ih =>
      rw [List.cons_append, Sect.run_cons hs]
      rcases Tab.kindOf_line (T := T) hb hne with ⟨i, f, hk, hf, hn⟩ | ⟨hk, hn⟩
      · obtain ⟨s1, h1, h2⟩ := (Grows.prop hw hso hf hn).1 hg
        rw [hk]
        dsimp only
        rw [h1]
        exact ih (addProp_sound hso hf h1) h2
      · rw [hk]
        exact ih hso ((Grows.other hn).1 hg)
    | @known b body r0 is hb hm _ ih =>
      rw [show (b :: body ++ r0) ++ e :: r = b :: (body ++ (r0 ++ e :: r)) by simp, Sect.run_cons hs]
      rcases Tab.kindOf_begin (T := T) hb with ⟨i, k, hk, hi⟩ | ⟨hk, hi⟩
      · obtain ⟨x, hx, hg2⟩ := (Grows.sub hw hso hi).1 hg
        rw [hk]
        dsimp only
        rw [(hsub _ (List.mem_of_getElem? hi) _ x _).2 ⟨body, rfl, hx⟩]
        exact ih (addSub_sound hso i x) hg2
      · exact absurd hm hi
    | @unknown b body r0 is hb hm hc _ ih =>
      rw [show (b :: body ++ r0) ++ e :: r = b :: (body ++ (r0 ++ e :: r)) by simp, Sect.run_cons hs]
      rcases Tab.kindOf_begin (T := T) hb with ⟨i, k, hk, hi⟩ | ⟨hk, hi⟩
      · exact absurd (List.mem_map.2 ⟨_, List.mem_of_getElem? hi, rfl⟩) hm
      · rw [hk]
        dsimp only
        rw [skip_iff.2 ⟨body, rfl, hc⟩]
        exact ih hso ((Grows.unk hi).1 hg)

theorem filled_iff {E : Env} {T : Tab κ} (hw : T.Wf) {R : κ → List Line → σ → Prop} {is : List Item} {s : Sect σ} :
    Filled E T R is s ↔ Grows E T R is (T.start σ) s ∧ T.finish s = .ok () := by
  constructor
  · rintro ⟨l1, l2, hf, hs, hr⟩
    have hst := start_sound (σ := σ) T
    refine ⟨⟨by rw [l1, hst.lenF], by rw [l2, hst.lenS], ?_, ?_⟩, (Tab.finish_ok T hw s l1.symm).2 ⟨?_, hr⟩⟩
    · intro i f h
      obtain ⟨h1, h2⟩ := hf i f h
      rw [(start_fields T i).1]
      refine ⟨_, rfl, h1, fun hm => ?_⟩
      unfold CountOk at h2
      cases hx : f.mult <;> simp_all
    · intro i x h
      rw [(start_fields T i).2]
      exact ⟨_, rfl, hs i x h⟩
    · rw [reqMet_iff _ _ l1.symm]
      intro i f h hm he
      obtain ⟨h1, h2⟩ := hf i f h
      have := Pairwise2.length h1
      rw [hm] at h2
      rw [he] at this
      simp [CountOk] at h2
      simp at this
      rw [this] at h2
      simp at h2
  · rintro ⟨⟨l1, l2, hf, hs⟩, hfin⟩
    have hst := start_sound (σ := σ) T
    have l1 := l1.trans hst.lenF
    have l2 := l2.trans hst.lenS
    obtain ⟨hreq, hrul⟩ := (Tab.finish_ok T hw s l1.symm).1 hfin
    refine ⟨l1, l2, ?_, ?_, hrul⟩
    · intro i f h
      obtain ⟨vs, e, h1, h2⟩ := hf i f h
      rw [(start_fields T i).1, List.nil_append] at e
      rw [(start_fields T i).1] at h2
      subst e
      refine ⟨h1, ?_⟩
      unfold CountOk
      have hlen := Pairwise2.length h1
      cases hm : f.mult with
      | many => trivial
      | opt => simpa [hm] using h2 (by rw [hm]; decide)
      | req =>
        have a := h2 (by rw [hm]; decide)
        have b := (reqMet_iff _ _ l1.symm).1 hreq i f h hm
        dsimp only
        cases hx : s.fields.getD i [] with
        | nil => exact absurd hx b
        | cons v vs => rw [hx] at hlen; simp at hlen a; omega
    · intro i x h
      obtain ⟨vs, e, h1⟩ := hs i x h
      rw [(start_fields T i).2, List.nil_append] at e
      rw [e]
      exact h1

theorem Tab.decode_grammar {E : Env} {T : Tab κ} (hw : T.Wf) {sub : κ → List Line → Res (σ × List Line)} {R : κ → List Line → σ → Prop} {t : Term} (hs : Suffix sub)
    (hsub : SubExact T sub R) {ls : List Line} {s : Sect σ} {r : List Line} : T.decode E sub t ls = .ok (s, r) ↔ ∃ p, ls = p ++ r ∧ ExactSect E T R p s := by
  rw [Tab.decode_ok, Sect.run_grammar hw hs hsub (start_sound T)]
  constructor
  · rintro ⟨⟨k, e, is, rfl, he, hv, hi, hg⟩, hf⟩
    exact ⟨k ++ [e], by simp, k, e, is, rfl, he, hv, hi, (filled_iff hw).2 ⟨hg, hf⟩⟩
  · rintro ⟨p, rfl, k, e, is, rfl, he, hv, hi, hg⟩
    obtain ⟨h1, h2⟩ := (filled_iff hw).1 hg
    exact ⟨⟨k, e, is, by simp, he, hv, hi, h1⟩, h2⟩

/-! ## Alarms -/

theorem exactActions_cons (l : Line) (k : List Line) : exactActions (l :: k) = if l.name = c!"ACTION" then l.value :: exactActions k else exactActions k := by
  unfold exactActions
  by_cases h : l.name = c!"ACTION" <;> simp [h]

theorem alarmCollect_grammar {t : Term} {y : AKind} : ∀ {ls : List Line} {a : Option AKind} {pt r : List Line}, alarmCollect t a ls = .ok (some y, pt, r) ↔
    ls = pt ++ r ∧ ∃ k e, pt = k ++ [e] ∧ e.name = c!"END" ∧ (∀ l ∈ k, l.name ≠ c!"BEGIN" ∧ l.name ≠ c!"END") ∧
      ((a = some y ∧ exactActions k = []) ∨ (a = none ∧ ∃ us, exactActions k = us ++ [y.action] ∧ ∀ u ∈ us, ∀ b : AKind, u ≠ b.action)) := by
  intro ls
  induction ls with
  | nil =>
    intro a pt r
    constructor
    · intro h; unfold alarmCollect at h; split at h <;> cases h
    · rintro ⟨h, k, e, rfl, _⟩
      simp at h
  | cons l ls ih =>
    intro a pt r
    constructor
    · intro h
      unfold alarmCollect at h
      split at h
      · cases h
      · next hb =>
        have hb' : l.name ≠ c!"BEGIN" := hb
        split at h
        · next ha =>
          have hne : l.name ≠ c!"END" := by rw [ha]; decide
          split at h
          · cases h
          · next hn =>
            obtain ⟨⟨x1, p1, r1⟩, h1, h2⟩ := Res.bind_eq_ok.1 h
            cases h2
            obtain ⟨rfl, k, e, rfl, he, hc, hy⟩ := ih.1 h1
            refine ⟨rfl, l :: k, e, rfl, he, by simpa [hb', hne] using hc, Or.inr ⟨by simpa using hn, ?_⟩⟩
            rw [exactActions_cons, if_pos (show l.name = c!"ACTION" from ha)]
            rcases hy with ⟨h3, h4⟩ | ⟨h3, us, h4, h5⟩
            · exact ⟨[], by rw [h4, ofAction_some.1 h3]; rfl, by simp⟩
            · exact ⟨l.value :: us, by rw [h4]; rfl, by simpa using ⟨ofAction_none.1 h3, h5⟩⟩
        · next ha =>
          split at h
          · next he =>
            cases h
            exact ⟨rfl, [], l, rfl, he, by simp, Or.inl ⟨rfl, rfl⟩⟩
          · next he =>
            have hne : l.name ≠ c!"END" := he
            obtain ⟨⟨x1, p1, r1⟩, h1, h2⟩ := Res.bind_eq_ok.1 h
            cases h2
            obtain ⟨rfl, k, e, rfl, he, hc, hy⟩ := ih.1 h1
            refine ⟨rfl, l :: k, e, rfl, he, by simpa [hb', hne] using hc, ?_⟩
            rw [exactActions_cons, if_neg (show ¬ l.name = c!"ACTION" from ha)]
            exact hy
    · rintro ⟨h0, k, e, rfl, he, hc, hy⟩
      cases k with
      | nil =>
        simp only [List.nil_append, List.singleton_append, List.cons.injEq] at h0
        obtain ⟨rfl, rfl⟩ := h0
        rcases hy with ⟨rfl, _⟩ | ⟨_, us, h, _⟩
        · rw [alarmCollect, he, if_neg (by decide), if_neg (by decide), if_pos (by decide)]
          rfl
        · simp [exactActions] at h
      | cons m k =>
        simp only [List.cons_append, List.append_assoc, List.cons.injEq] at h0
        obtain ⟨rfl, rfl⟩ := h0
        obtain ⟨hb, hn⟩ := hc l (by simp)
        have hc1 : ∀ l ∈ k, l.name ≠ c!"BEGIN" ∧ l.name ≠ c!"END" := fun x hx => hc x (by simp [hx])
        rw [alarmCollect, if_neg (show ¬ l.name = kBEGIN from hb)]
        rw [exactActions_cons] at hy
        by_cases ha : l.name = c!"ACTION"
        · rw [if_pos ha] at hy
          rw [if_pos (show l.name = kACTION from ha)]
          rcases hy with ⟨_, h⟩ | ⟨rfl, us, h, hu'⟩
          · cases h
          · rw [if_neg (by simp), (ih (pt := k ++ [e]) (r := r)).2 ⟨by simp, k, e, rfl, he, hc1, ?_⟩]
            · rfl
            · cases us with
              | nil =>
                simp only [List.nil_append, List.cons.injEq] at h
                exact Or.inl ⟨ofAction_some.2 h.1, h.2⟩
              | cons u us =>
                simp only [List.cons_append, List.cons.injEq] at h
                exact Or.inr ⟨ofAction_none.2 (by rw [h.1]; exact hu' u (by simp)), us, h.2, fun x hx => hu' x (by simp [hx])⟩
        · rw [if_neg ha] at hy
          rw [if_neg (show ¬ l.name = kACTION from ha), if_neg (show ¬ l.name = kEND from hn), (ih (pt := k ++ [e]) (r := r)).2 ⟨by simp, k, e, rfl, he, hc1, hy⟩]
          rfl

theorem noSub_grammar {T : Tab Empty} {R : Empty → List Line → Empty → Prop} : SubExact T noSub R := fun x => nomatch x.2

/-! ## Components and calendars -/

theorem subDecode_grammar {E : Env} {t : Term} {x : Str × Tab SubKind} (hx : x ∈ tabCalendar.subs) : SubExact x.2 (subDecode E t) (ExactSub E) := by
  rintro ⟨n, k⟩ hy ls y r
  have hg := (compTab_good x hx).2.2 _ hy
  cases k with
  | leaf T =>
    obtain ⟨hw, _⟩ := hg
    simp only [subDecode]
    constructor
    · intro h
      obtain ⟨⟨s, r1⟩, h1, h2⟩ := Res.bind_eq_ok.1 h
      cases h2
      exact (Tab.decode_grammar hw noSub_suffix noSub_grammar).1 h1
    · rintro ⟨k, rfl, h⟩
      cases y with
      | alarm => exact absurd h (by simp [ExactSub])
      | leaf s =>
        rw [(Tab.decode_grammar hw noSub_suffix noSub_grammar).2 ⟨k, rfl, h⟩]
        rfl
  | alarm =>
    simp only [subDecode, alarmDecode]
    constructor
    · intro h
      obtain ⟨⟨a, pt, r1⟩, h1, h2⟩ := Res.bind_eq_ok.1 h
      cases a with
      | none => cases h2
      | some a =>
        obtain ⟨⟨s, r2⟩, h3, h4⟩ := Res.bind_eq_ok.1 h2
        cases h4
        obtain ⟨rfl, k, e, rfl, he, hf, hy⟩ := alarmCollect_grammar.1 h1
        obtain ⟨p, h5, h6⟩ := (Tab.decode_grammar (aTab_wf a) noSub_suffix (noSub_grammar (R := fun x => nomatch x))).1 h3
        refine ⟨k ++ [e], rfl, k, e, rfl, he, hf, ?_, p, r2, h5, h6⟩
        rcases hy with ⟨h, _⟩ | ⟨_, h⟩
        · cases h
        · exact h
    · rintro ⟨k, rfl, h⟩
      cases y with
      | leaf => exact absurd h (by simp [ExactSub])
      | alarm o =>
        cases o with
        | none => exact absurd h (by simp [ExactSub])
        | some o =>
          obtain ⟨a, s⟩ := o
          obtain ⟨body, e, rfl, he, hf, hy, p, q, h5, h6⟩ := h
          rw [alarmCollect_grammar.2 ⟨rfl, body, e, rfl, he, hf, Or.inr ⟨rfl, hy⟩⟩]
          simp only [Res.ok_bind]
          rw [(Tab.decode_grammar (aTab_wf a) noSub_suffix (noSub_grammar (R := fun x => nomatch x))).2 ⟨p, h5, h6⟩]
          rfl

theorem compDecode_grammar {E : Env} {t : Term} : SubExact tabCalendar (compDecode E t) (ExactComp E) := by
  intro x hx ls y r
  exact Tab.decode_grammar (compTab_good x hx).1 (subDecode_suffix E t) (subDecode_grammar hx)

/-- Exactly the documents that are accepted, and what they are read as. -/
theorem decodeStream_grammar {E : Env} {s : Stream} {c : Cal} : decodeStream E s = .ok c ↔ ∃ p r, s.lines = p ++ r ∧ ExactDoc E p c := by
  obtain ⟨ls, t⟩ := s
  unfold decodeStream
  dsimp only
  cases ls with
  | nil =>
    constructor
    · intro h; cases h
    · rintro ⟨p, r, h, b, k, rfl, _⟩
      simp at h
  | cons l ls =>
    dsimp only
    constructor
    · intro h
      split at h
      · next hb =>
        obtain ⟨⟨c1, r⟩, h1, h2⟩ := Res.bind_eq_ok.1 h
        cases h2
        obtain ⟨p, rfl, h3⟩ := (Tab.decode_grammar calTab_wf (compDecode_suffix E _) compDecode_grammar).1 h1
        exact ⟨l :: p, r, rfl, l, p, rfl, hb, h3⟩
      · cases h
    · rintro ⟨p, r, h, b, k, rfl, hb, hs⟩
      simp only [List.cons_append, List.cons.injEq] at h
      obtain ⟨rfl, rfl⟩ := h
      rw [if_pos (show upper l.name = kBEGIN ∧ upper l.value = tabCalendar.name from hb), (Tab.decode_grammar calTab_wf (compDecode_suffix E _) compDecode_grammar).2 ⟨k, rfl, hs⟩]
      rfl

/-- One calendar at the beginning of the lines, and one way to read it. -/
theorem exactDoc_unique {E : Env} {p p' r r' : List Line} {c c' : Cal} (h : ExactDoc E p c) (h' : ExactDoc E p' c') (e : p ++ r = p' ++ r') : p = p' ∧ c = c' := by
  obtain ⟨b, k, rfl, _, hs⟩ := h
  obtain ⟨b', k', rfl, _, hs'⟩ := h'
  simp only [List.cons_append, List.cons.injEq] at e
  obtain ⟨rfl, e⟩ := e
  have h1 := (Tab.decode_grammar (t := .done) (r := r) calTab_wf (compDecode_suffix E .done) compDecode_grammar).2 ⟨k, rfl, hs⟩
  have h2 := (Tab.decode_grammar (t := .done) (r := r') calTab_wf (compDecode_suffix E .done) compDecode_grammar).2 ⟨k', rfl, hs'⟩
  rw [e, h2] at h1
  cases h1
  exact ⟨by rw [List.append_cancel_right e], rfl⟩

/-- With all names in upper case, these are the documents of RFC 5545. -/
theorem exactDoc_reads {E : Env} {p : List Line} {c : Cal} (hl : Loud p) : ExactDoc E p c ↔ DocReads E p c := by
  constructor
  · rintro ⟨b, k, rfl, hb, hs⟩
    have h1 := (Tab.decode_grammar (t := .done) calTab_wf (compDecode_suffix E .done) compDecode_grammar).2 ⟨k, (List.append_nil _).symm, hs⟩
    obtain ⟨k', e, rfl, he, hv, _, hr⟩ := Tab.decode_sound calTab_wf (compDecode_suffix E _) compDecode_sound (Keywords.cons hl.1) h1
    exact ⟨b, k', e, rfl, hb.1, hb.2, he, hv, hr⟩
  · rintro ⟨b, k, e, rfl, hb, hbv, he, hev, hs⟩
    have h1 := Tab.decode_complete (t := .done) calTab_wf (compDecode_suffix E .done) compDecode_complete (Loud.cons (Loud.append hl).1).2 hs e [] he hev
    obtain ⟨p, h2, h3⟩ := (Tab.decode_grammar calTab_wf (compDecode_suffix E _) compDecode_grammar).1 h1
    rw [List.append_nil] at h2
    subst h2
    exact ⟨b, k ++ [e], rfl, ⟨hb, hbv⟩, h3⟩

end Ics
