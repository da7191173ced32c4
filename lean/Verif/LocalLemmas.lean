import Verif.SectionLemmas
/-!
# Lemmas: what a successful decoder read decides its result, what follows does not
-/

namespace Ics

variable {κ σ α : Type}

/-- If the decoder succeeds it has read some lines `pre`, and with any other lines behind `pre` it gives the same. -/
def Local (dec : Term → List Line → Res (α × List Line)) : Prop := ∀ t ls x r, dec t ls = .ok (x, r) →
  ∃ pre, ls = pre ++ r ∧ ∀ t' r', dec t' (pre ++ r') = .ok (x, r')

theorem skip_local : ∀ (n : Nat) (t : Term) (name : Str) (ls r : List Line), ls.length ≤ n → skip t name ls = .ok r →
    ∃ pre, ls = pre ++ r ∧ ∀ t' r', skip t' name (pre ++ r') = .ok r' := by
  intro n
  induction n with
  | zero =>
    intro t name ls r hl h
    cases ls with
    | nil => cases h
    | cons => simp at hl
  | succ n ih =>
    intro t name ls r hl h
    cases ls with
    | nil => cases h
    | cons l ls =>
      simp only [List.length_cons] at hl
      rw [skip_cons] at h
      split at h
      · next hb =>
        obtain ⟨r1, h1, h2⟩ := Res.bind_eq_ok.1 h
        have hlen := skip_length h1
        obtain ⟨p1, e1, g1⟩ := ih _ _ _ _ (by omega) h1
        obtain ⟨p2, e2, g2⟩ := ih _ _ _ _ (by omega) h2
        refine ⟨l :: (p1 ++ p2), by rw [e1, e2]; simp, fun t' r' => ?_⟩
        rw [List.cons_append, skip_cons, if_pos hb, List.append_assoc, g1]
        exact g2 t' r'
      · next hb =>
        split at h
        · next he =>
          split at h
          · next hv =>
            cases h
            refine ⟨[l], rfl, fun t' r' => ?_⟩
            rw [List.singleton_append, skip_cons, if_neg hb, if_pos he, if_pos hv]
          · cases h
        · next he =>
          obtain ⟨p1, e1, g1⟩ := ih _ _ _ _ (by omega) h
          refine ⟨l :: p1, by rw [e1]; rfl, fun t' r' => ?_⟩
          rw [List.cons_append, skip_cons, if_neg hb, if_neg he]
          exact g1 t' r'

theorem Tab.kindOf_fin {T : Tab κ} {l : Line} (h : T.kindOf l = .fin) : upper l.name = kEND := by
  unfold Tab.kindOf at h
  split at h
  · split at h
    · split at h <;> cases h
    · cases h
  · split at h
    · split at h <;> cases h
    · split at h
      · next he => exact he
      · cases h

theorem Sect.run_local {E : Env} {T : Tab κ} {sub : Term → κ → List Line → Res (σ × List Line)} (hs : ∀ t, Suffix (sub t))
    (hl : ∀ k, Local (fun t => sub t k)) : ∀ (n : Nat) (t : Term) (s : Sect σ) (ls : List Line) (x : Sect σ) (r : List Line), ls.length ≤ n →
      Sect.run E T (sub t) t s ls = .ok (x, r) → ∃ pre e, ls = pre ++ e :: r ∧ upper e.name = kEND ∧ e.value = T.name ∧
        ∀ t' r', Sect.run E T (sub t') t' s (pre ++ e :: r') = .ok (x, r') := by
  intro n
  induction n with
  | zero =>
    intro t s ls x r hl h
    cases ls with
    | nil => cases h
    | cons => simp at hl
  | succ n ih =>
    intro t s ls x r hn h
    cases ls with
    | nil => cases h
    | cons l ls =>
      simp only [List.length_cons] at hn
      rw [Sect.run_cons (hs t)] at h
      cases hk : T.kindOf l with
      | sub i k =>
        rw [hk] at h
        obtain ⟨⟨y, r1⟩, h1, h2⟩ := Res.bind_eq_ok.1 h
        obtain ⟨p1, e1, g1⟩ := hl k t ls y r1 h1
        obtain ⟨p2, e, e2, he, hv, g2⟩ := ih t _ r1 x r (by rw [e1] at hn; simp at hn; omega) h2
        refine ⟨l :: (p1 ++ p2), e, by rw [e1, e2]; simp, he, hv, fun t' r' => ?_⟩
        rw [List.cons_append, Sect.run_cons (hs t'), hk, List.append_assoc]
        dsimp only
        rw [show sub t' k (p1 ++ (p2 ++ e :: r')) = _ from g1 t' (p2 ++ e :: r')]
        exact g2 t' r'
      | unk =>
        rw [hk] at h
        obtain ⟨r1, h1, h2⟩ := Res.bind_eq_ok.1 h
        have := skip_length h1
        obtain ⟨p1, e1, g1⟩ := skip_local _ _ _ _ _ (Nat.le_refl _) h1
        obtain ⟨p2, e, e2, he, hv, g2⟩ := ih t _ r1 x r (by omega) h2
        refine ⟨l :: (p1 ++ p2), e, by rw [e1, e2]; simp, he, hv, fun t' r' => ?_⟩
        rw [List.cons_append, Sect.run_cons (hs t'), hk, List.append_assoc]
        dsimp only
        rw [g1]
        exact g2 t' r'
      | prop i f =>
        rw [hk] at h
        obtain ⟨s1, h1, h2⟩ := Res.bind_eq_ok.1 h
        obtain ⟨p2, e, e2, he, hv, g2⟩ := ih t _ ls x r (by omega) h2
        refine ⟨l :: p2, e, by rw [e2]; simp, he, hv, fun t' r' => ?_⟩
        rw [List.cons_append, Sect.run_cons (hs t'), hk]
        dsimp only
        rw [h1]
        exact g2 t' r'
      | fin =>
        rw [hk] at h
        dsimp only at h
        split at h
        · next hv =>
          cases h
          refine ⟨[], l, rfl, Tab.kindOf_fin hk, hv, fun t' r' => ?_⟩
          rw [List.nil_append, Sect.run_cons (hs t'), hk]
          dsimp only
          rw [if_pos hv]
        · cases h
      | other =>
        rw [hk] at h
        obtain ⟨p2, e, e2, he, hv, g2⟩ := ih t _ ls x r (by omega) h
        refine ⟨l :: p2, e, by rw [e2]; simp, he, hv, fun t' r' => ?_⟩
        rw [List.cons_append, Sect.run_cons (hs t'), hk]
        exact g2 t' r'

theorem Tab.decode_local' {E : Env} {T : Tab κ} {sub : Term → κ → List Line → Res (σ × List Line)} (hs : ∀ t, Suffix (sub t))
    (hl : ∀ k, Local (fun t => sub t k)) {t : Term} {ls : List Line} {x : Sect σ} {r : List Line} (h : T.decode E (sub t) t ls = .ok (x, r)) :
    ∃ pre e, ls = pre ++ e :: r ∧ upper e.name = kEND ∧ e.value = T.name ∧ ∀ t' r', T.decode E (sub t') t' (pre ++ e :: r') = .ok (x, r') := by
  obtain ⟨h1, h2⟩ := Tab.decode_ok.1 h
  obtain ⟨p, e, e1, he, hv, g⟩ := Sect.run_local hs hl _ t _ ls x r (Nat.le_refl _) h1
  exact ⟨p, e, e1, he, hv, fun t' r' => Tab.decode_ok.2 ⟨g t' r', h2⟩⟩

theorem Tab.decode_local {E : Env} {T : Tab κ} {sub : Term → κ → List Line → Res (σ × List Line)} (hs : ∀ t, Suffix (sub t))
    (hl : ∀ k, Local (fun t => sub t k)) : Local (fun t => T.decode E (sub t) t) := by
  intro t ls x r h
  obtain ⟨p, e, e1, _, _, g⟩ := Tab.decode_local' hs hl h
  exact ⟨p ++ [e], by simpa using e1, fun t' r' => by simpa using g t' r'⟩

theorem alarmCollect_local : ∀ (ls : List Line) (t : Term) (a x : Option AKind) (pt r : List Line), alarmCollect t a ls = .ok (x, pt, r) →
    ls = pt ++ r ∧ ∀ t' r', alarmCollect t' a (pt ++ r') = .ok (x, pt, r') := by
  intro ls
  induction ls with
  | nil => intro t a x pt r h; unfold alarmCollect at h; split at h <;> cases h
  | cons l ls ih =>
    intro t a x pt r h
    unfold alarmCollect at h
    split at h
    · cases h
    · next hb =>
      split at h
      · next ha =>
        split at h
        · cases h
        · next hn =>
          obtain ⟨⟨x1, p1, r1⟩, h1, h2⟩ := Res.bind_eq_ok.1 h
          cases h2
          obtain ⟨e, g⟩ := ih _ _ _ _ _ h1
          refine ⟨by rw [e]; rfl, fun t' r' => ?_⟩
          rw [List.cons_append, alarmCollect, if_neg hb, if_pos ha, if_neg hn, g]
          rfl
      · next ha =>
        split at h
        · next he =>
          cases h
          refine ⟨rfl, fun t' r' => ?_⟩
          rw [List.singleton_append, alarmCollect, if_neg hb, if_neg ha, if_pos he]
        · next he =>
          obtain ⟨⟨x1, p1, r1⟩, h1, h2⟩ := Res.bind_eq_ok.1 h
          cases h2
          obtain ⟨e, g⟩ := ih _ _ _ _ _ h1
          refine ⟨by rw [e]; rfl, fun t' r' => ?_⟩
          rw [List.cons_append, alarmCollect, if_neg hb, if_neg ha, if_neg he, g]
          rfl

theorem subDecode_local (E : Env) (k : SubKind) : Local (fun t => subDecode E t k) := by
  intro t ls x r h
  cases k with
  | alarm =>
    simp only [subDecode, alarmDecode] at h ⊢
    obtain ⟨⟨a, pt, r1⟩, h1, h2⟩ := Res.bind_eq_ok.1 h
    obtain ⟨e, g⟩ := alarmCollect_local _ _ _ _ _ _ h1
    cases a with
    | none => cases h2
    | some a =>
      obtain ⟨⟨s, r2⟩, h3, h4⟩ := Res.bind_eq_ok.1 h2
      cases h4
      refine ⟨pt, e, fun t' r' => ?_⟩
      rw [g]
      simp only [Res.ok_bind, h3, Res.pure_eq]
  | leaf T =>
    simp only [subDecode] at h ⊢
    obtain ⟨⟨s, r1⟩, h1, h2⟩ := Res.bind_eq_ok.1 h
    cases h2
    obtain ⟨p, e, g⟩ := Tab.decode_local (E := E) (T := T) (sub := fun _ => noSub) (fun _ => noSub_suffix) (fun k => nomatch k) t ls s _ h1
    refine ⟨p, e, fun t' r' => ?_⟩
    rw [show T.decode E noSub t' (p ++ r') = _ from g t' r']
    rfl

theorem compDecode_local (E : Env) (T : Tab SubKind) : Local (fun t => compDecode E t T) :=
  Tab.decode_local (subDecode_suffix E) (subDecode_local E)

/-- A calendar is decided by the lines from the first, BEGIN:VCALENDAR, to the line END:VCALENDAR at its end. -/
theorem decodeStream_local {E : Env} {st : Stream} {c : Cal} (h : decodeStream E st = .ok c) :
    ∃ b k e r, st.lines = b :: k ++ e :: r ∧ upper b.name = kBEGIN ∧ upper b.value = tabCalendar.name ∧ upper e.name = kEND ∧
      e.value = tabCalendar.name ∧ ∀ t' r', decodeStream E ⟨b :: k ++ e :: r', t'⟩ = .ok c := by
  unfold decodeStream at h
  split at h
  · cases h
  · next l ls hl =>
    split at h
    · next hb =>
      obtain ⟨⟨c1, r⟩, h1, h2⟩ := Res.bind_eq_ok.1 h
      cases h2
      obtain ⟨k, e, e1, he, hv, g⟩ := Tab.decode_local' (compDecode_suffix E) (compDecode_local E) h1
      refine ⟨l, k, e, r, by rw [hl, e1]; rfl, hb.1, hb.2, he, hv, fun t' r' => ?_⟩
      unfold decodeStream
      simp only [List.cons_append]
      rw [if_pos hb, g t' r']
      rfl
    · cases h

end Ics
