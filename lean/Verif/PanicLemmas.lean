import Verif.DocumentLemmas
import Verif.Spec.Structure
/-!
# Lemmas: where decoding can panic
-/

namespace Ics

open Spec

variable {κ σ : Type}

theorem mapRes_ne_panic {α β : Type} {f : α → Res β} (h : ∀ a, f a ≠ .panic) : ∀ l : List α, mapRes f l ≠ .panic := by
  intro l
  induction l with
  | nil => intro h; cases h
  | cons a l ih =>
    unfold mapRes
    intro hp
    rcases Res.bind_eq_panic.1 hp with hp | ⟨b, _, hp⟩
    · exact h a hp
    · rcases Res.bind_eq_panic.1 hp with hp | ⟨b, _, hp⟩
      · exact ih hp
      · cases hp

theorem oneVal_ne_panic (vs : List PVal) : oneVal vs ≠ .panic := by
  unfold oneVal
  split <;> (intro h; cases h)

theorem wantQuoted_ne_panic (v : PVal) : wantQuoted v ≠ .panic := Res.guard_ne_panic

theorem PKind.decode_ne_panic (E : Env) (k : PKind) (vs : List PVal) : k.decode E vs ≠ .panic := by
  cases k <;> unfold PKind.decode <;> intro h <;> rcases Res.bind_eq_panic.1 h with h | ⟨v, _, h⟩
  · exact oneVal_ne_panic _ h
  · rcases Res.bind_eq_panic.1 h with h | ⟨_, _, h⟩
    · exact wantQuoted_ne_panic _ h
    · rcases Res.bind_eq_panic.1 h with h | ⟨_, _, h⟩
      · exact Res.ofOption_ne_panic h
      · cases h
  · refine mapRes_ne_panic (fun v h => ?_) _ h
    rcases Res.bind_eq_panic.1 h with h | ⟨_, _, h⟩
    · exact wantQuoted_ne_panic _ h
    · exact Res.ofOption_ne_panic h
  · cases h
  · exact oneVal_ne_panic _ h
  · dsimp only at h
    split at h <;> rcases Res.bind_eq_panic.1 h with h | ⟨_, _, h⟩
    · exact wantQuoted_ne_panic _ h
    · cases h
    · cases h
    · cases h
  · exact oneVal_ne_panic _ h
  · rcases Res.bind_eq_panic.1 h with h | ⟨_, _, h⟩
    · exact Res.guard_ne_panic h
    · cases h
  · exact oneVal_ne_panic _ h
  · split at h <;> cases h
  · refine mapRes_ne_panic (fun v h => ?_) _ h
    rcases Res.bind_eq_panic.1 h with h | ⟨_, _, h⟩
    · exact wantQuoted_ne_panic _ h
    · cases h
  · cases h
  · exact oneVal_ne_panic _ h
  · rcases Res.bind_eq_panic.1 h with h | ⟨_, _, h⟩
    · exact Res.guard_ne_panic h
    · cases h
  · exact oneVal_ne_panic _ h
  · rcases Res.bind_eq_panic.1 h with h | ⟨_, _, h⟩
    · exact Boolean.decode_ne_panic _ h
    · cases h

theorem PState.step_ne_panic (E : Env) (params : List PDef) (vals : List (Str × Kind)) (st : PState) (p : Str × List PVal) :
    st.step E params vals p ≠ .panic := by
  unfold PState.step
  dsimp only
  split
  · split
    · intro h; cases h
    · intro h
      rcases Res.bind_eq_panic.1 h with h | ⟨_, _, h⟩
      · exact PKind.decode_ne_panic _ _ _ h
      · cases h
  · split
    · split
      · split
        · intro h; cases h
        · split <;> (intro h; cases h)
      · intro h; cases h
    · intro h; cases h

theorem PState.steps_ne_panic (E : Env) (params : List PDef) (vals : List (Str × Kind)) : ∀ (ps : List (Str × List PVal)) (st : PState),
    PState.steps E params vals st ps ≠ .panic := by
  intro ps
  induction ps with
  | nil => intro st h; cases h
  | cons p ps ih =>
    intro st h
    rcases Res.bind_eq_panic.1 h with h | ⟨_, _, h⟩
    · exact PState.step_ne_panic _ _ _ _ _ h
    · exact ih _ h

/-- The property type has a recurrence rule among its alternatives. -/
def PSpec.hasRecur (sp : PSpec) : Bool :=
  match sp.shape with
  | .enum _ => false
  | .fields _ vals => vals.any (fun x => x.2 == .recur)

theorem PSpec.decode_panic {E : Env} {sp : PSpec} {ps : List (Str × List PVal)} {v : Str} (h : sp.decode E ps v = .panic) :
    sp.hasRecur = true ∧ plusDay v = true := by
  unfold PSpec.decode at h
  cases hs : sp.shape with
  | enum names => rw [hs] at h; dsimp only at h; split at h <;> cases h
  | fields params vals =>
    rw [hs] at h
    rcases Res.bind_eq_panic.1 h with h | ⟨st, _, h⟩
    · exact absurd h (PState.steps_ne_panic _ _ _ _ _)
    · dsimp only at h
      rcases Res.bind_eq_panic.1 h with h | ⟨w, _, h⟩
      · obtain ⟨h1, h2⟩ := Val.decode_panic h
        refine ⟨?_, h2⟩
        unfold PSpec.hasRecur
        rw [hs]
        simp only [List.any_eq_true, beq_iff_eq]
        rw [List.getD_eq_getElem?_getD] at h1
        cases hg : vals[st.vtype.getD 0]? with
        | none => rw [hg] at h1; cases h1
        | some x => rw [hg] at h1; exact ⟨x, List.mem_of_getElem? hg, h1⟩
      · cases h

def Tab.recurOk (T : Tab κ) : Bool := T.fields.all fun f => !f.spec.hasRecur || f.key == c!"RRULE"

theorem Tab.kindOf_prop {T : Tab κ} {l : Line} {i : Nat} {f : SField} (h : T.kindOf l = .prop i f) :
    upper l.name ≠ kBEGIN ∧ fieldIdx (upper l.name) T.fields = some i ∧ T.fields[i]? = some f ∧ f.key = upper l.name := by
  unfold Tab.kindOf at h
  split at h
  · split at h
    · split at h <;> cases h
    · cases h
  · next hb =>
    split at h
    · next i' hi =>
      split at h
      · next f' hf =>
        injection h with h1 h2
        subst h1 h2
        obtain ⟨d, hd, hn⟩ := fieldIdx_some hi
        rw [hf] at hd
        cases hd
        exact ⟨hb, hi, hf, hn⟩
      · cases h
    · split at h <;> cases h

theorem Tab.kindOf_sub {T : Tab κ} {l : Line} {i : Nat} {k : κ} (h : T.kindOf l = .sub i k) :
    upper l.name = kBEGIN ∧ T.subs[i]? = some (upper l.value, k) := by
  unfold Tab.kindOf at h
  split at h
  · next hb =>
    split at h
    · next i' hi =>
      have hg := indexOf_some _ _ _ hi
      rw [List.getElem?_map] at hg
      obtain ⟨⟨n, k'⟩, hk, hn⟩ := Option.map_eq_some_iff.1 hg
      rw [hk] at h
      injection h with h1 h2
      subst h1 h2
      dsimp only at hn
      subst hn
      exact ⟨hb, hk⟩
    · cases h
  · split at h
    · split at h <;> cases h
    · split at h <;> cases h

theorem Sect.addProp_panic {E : Env} {T : Tab κ} (hT : T.recurOk = true) {s : Sect σ} {i : Nat} {f : SField} {l : Line}
    (hk : T.kindOf l = .prop i f) (h : s.addProp E i f l = .panic) : BadRule l := by
  unfold Sect.addProp at h
  split at h
  · cases h
  · rcases Res.bind_eq_panic.1 h with h | ⟨v, _, h⟩
    · obtain ⟨h1, h2⟩ := PSpec.decode_panic h
      obtain ⟨_, _, h3, h4⟩ := Tab.kindOf_prop hk
      have := List.all_eq_true.1 hT f (List.mem_of_getElem? h3)
      simp only [h1, Bool.not_true, Bool.false_or, beq_iff_eq] at this
      exact ⟨by rw [← h4, this], h2⟩
    · cases h

theorem Sect.run_panic {E : Env} {T : Tab κ} (hT : T.recurOk = true) {sub : κ → List Line → Res (σ × List Line)} {t : Term} (hs : Suffix sub) :
    ∀ (n : Nat) (ls : List Line) (s : Sect σ), ls.length ≤ n → Sect.run E T sub t s ls = .panic →
      (∃ l ∈ ls, BadRule l) ∨ ∃ pre b post i k, ls = pre ++ b :: post ∧ T.kindOf b = .sub i k ∧ sub k post = .panic := by
  intro n
  induction n with
  | zero =>
    intro ls s hl h
    cases ls with
    | nil => cases h
    | cons => simp at hl
  | succ n ih =>
    intro ls s hl h
    cases ls with
    | nil => cases h
    | cons l r =>
      simp only [List.length_cons] at hl
      have key : ∀ (s : Sect σ) (p r' : List Line), r = p ++ r' → Sect.run E T sub t s r' = .panic →
          (∃ x ∈ l :: r, BadRule x) ∨ ∃ pre b post i k, l :: r = pre ++ b :: post ∧ T.kindOf b = .sub i k ∧ sub k post = .panic := by
        intro s' p r' hr h'
        subst hr
        rcases ih r' s' (by simp at hl; omega) h' with ⟨x, hx, hb⟩ | ⟨pre, b, post, i, k, e, h1, h2⟩
        · exact Or.inl ⟨x, by simp [hx], hb⟩
        · exact Or.inr ⟨l :: (p ++ pre), b, post, i, k, by rw [e]; simp, h1, h2⟩
      rw [Sect.run_cons hs] at h
      split at h
      · next i k hk =>
        rcases Res.bind_eq_panic.1 h with h | ⟨x, h1, h⟩
        · exact Or.inr ⟨[], l, r, i, k, rfl, hk, h⟩
        · obtain ⟨p, hp⟩ := hs _ _ _ _ h1
          exact key _ p _ hp h
      · rcases Res.bind_eq_panic.1 h with h | ⟨x, h1, h⟩
        · exact absurd h (skip_ne_panic _ _ _ _ (Nat.le_refl _))
        · obtain ⟨p, _, hp⟩ := skip_suffix h1
          exact key _ p _ hp h
      · next i f hk =>
        rcases Res.bind_eq_panic.1 h with h | ⟨x, h1, h⟩
        · exact Or.inl ⟨l, by simp, Sect.addProp_panic hT hk h⟩
        · exact key _ [] _ rfl h
      · split at h <;> cases h
      · exact key _ [] _ rfl h

theorem Tab.finish_ne_panic (T : Tab κ) (s : Sect σ) : T.finish s ≠ .panic := by
  unfold Tab.finish
  intro h
  rcases Res.bind_eq_panic.1 h with h | ⟨_, _, h⟩ <;> exact Res.guard_ne_panic h

theorem Tab.decode_panic {E : Env} {T : Tab κ} (hT : T.recurOk = true) {sub : κ → List Line → Res (σ × List Line)} {t : Term} (hs : Suffix sub)
    {ls : List Line} (h : T.decode E sub t ls = .panic) :
    (∃ l ∈ ls, BadRule l) ∨ ∃ pre b post i k, ls = pre ++ b :: post ∧ T.kindOf b = .sub i k ∧ sub k post = .panic := by
  rw [Tab.decode_run] at h
  rcases Res.bind_eq_panic.1 h with h | ⟨_, _, h⟩
  · exact Sect.run_panic hT hs _ ls _ (Nat.le_refl _) h
  · rcases Res.bind_eq_panic.1 h with h | ⟨_, _, h⟩
    · exact absurd h (Tab.finish_ne_panic _ _)
    · cases h

theorem alarmCollect_panic {t : Term} : ∀ {ls : List Line} {a : Option AKind}, alarmCollect t a ls = .panic →
    t = .done ∧ ∀ l ∈ ls, l.name ≠ kEND := by
  intro ls
  induction ls with
  | nil =>
    intro a h
    unfold alarmCollect at h
    split at h
    · exact ⟨rfl, by simp⟩
    · cases h
  | cons l ls ih =>
    intro a h
    unfold alarmCollect at h
    split at h
    · cases h
    · split at h
      · next hx =>
        split at h
        · cases h
        · rcases Res.bind_eq_panic.1 h with h | ⟨_, _, h⟩
          · obtain ⟨h1, h2⟩ := ih h
            refine ⟨h1, fun x hx' => ?_⟩
            rcases List.mem_cons.1 hx' with rfl | hx'
            · rw [hx]; decide
            · exact h2 x hx'
          · cases h
      · split at h
        · cases h
        · next hx =>
          rcases Res.bind_eq_panic.1 h with h | ⟨_, _, h⟩
          · obtain ⟨h1, h2⟩ := ih h
            refine ⟨h1, fun x hx' => ?_⟩
            rcases List.mem_cons.1 hx' with rfl | hx'
            · exact hx
            · exact h2 x hx'
          · cases h

theorem recurOk_tabs : tabCalendar.recurOk = true ∧ (∀ x ∈ tabCalendar.subs, x.2.recurOk = true) ∧
    (∀ k : AKind, k.tab.recurOk = true) ∧ tabStandard.recurOk = true ∧ tabDaylight.recurOk = true := by
  refine ⟨by decide, by decide, ?_, by decide, by decide⟩
  intro k
  cases k <;> decide

theorem subDecode_panic {E : Env} {t : Term} {x : Str × Tab SubKind} (hx : x ∈ tabCalendar.subs) {y : Str × SubKind} (hy : y ∈ x.2.subs)
    {ls : List Line} (h : subDecode E t y.2 ls = .panic) :
    (∃ l ∈ ls, BadRule l) ∨ y.1 = kVALARM ∧ t = .done ∧ ∀ l ∈ ls, l.name ≠ kEND := by
  obtain ⟨n, k⟩ := y
  unfold subDecode at h
  cases k with
  | leaf T =>
    dsimp only at h
    rcases Res.bind_eq_panic.1 h with h | ⟨_, _, h⟩
    · have hT : T.recurOk = true := by
        have : T ∈ [tabStandard, tabDaylight] := leafTab_mem x hx _ hy T rfl
        simp only [List.mem_cons, List.not_mem_nil, or_false] at this
        rcases this with rfl | rfl
        · exact recurOk_tabs.2.2.2.1
        · exact recurOk_tabs.2.2.2.2
      rcases Tab.decode_panic hT noSub_suffix h with h | ⟨_, _, _, _, k, _⟩
      · exact Or.inl h
      · exact nomatch k
    · cases h
  | alarm =>
    have hn : n = kVALARM := (compTab_good x hx).2.2 _ hy
    subst hn
    dsimp only at h
    unfold alarmDecode at h
    rcases Res.bind_eq_panic.1 h with h | ⟨⟨a, pt, r⟩, h1, h⟩
    · exact Or.inr ⟨rfl, alarmCollect_panic h⟩
    · dsimp only at h
      split at h
      · cases h
      · rcases Res.bind_eq_panic.1 h with h | ⟨_, _, h⟩
        · rcases Tab.decode_panic (recurOk_tabs.2.2.1 _) noSub_suffix h with ⟨l, hl, hb⟩ | ⟨_, _, _, _, k, _⟩
          · rw [alarmCollect_ok h1]
            exact Or.inl ⟨l, List.mem_append.2 (Or.inl hl), hb⟩
          · exact nomatch k
        · cases h

theorem decodeStream_panic {E : Env} {st : Stream} (h : decodeStream E st = .panic) : (∃ l ∈ st.lines, BadRule l) ∨ OpenAlarm st.term st.lines := by
  unfold decodeStream at h
  split at h
  · cases h
  · next l r hl =>
    rw [hl]
    split at h
    · rcases Res.bind_eq_panic.1 h with h | ⟨_, _, h⟩
      · rcases Tab.decode_panic recurOk_tabs.1 (compDecode_suffix E st.term) h with ⟨x, hx, hb⟩ | ⟨pre, b, post, i, T, e, hk, h0⟩
        · exact Or.inl ⟨x, by simp [hx], hb⟩
        · subst e
          have hT := List.mem_of_getElem? (Tab.kindOf_sub hk).2
          unfold compDecode at h0
          rcases Tab.decode_panic (recurOk_tabs.2.1 _ hT) (subDecode_suffix E st.term) h0 with ⟨x, hx, hb⟩ | ⟨pre2, b2, post2, i2, k2, e2, hk2, h2⟩
          · exact Or.inl ⟨x, by simp [hx], hb⟩
          · subst e2
            obtain ⟨hb1, hk3⟩ := Tab.kindOf_sub hk2
            rcases subDecode_panic hT (List.mem_of_getElem? hk3) h2 with ⟨x, hx, hb⟩ | ⟨g1, g2, g3⟩
            · exact Or.inl ⟨x, by simp [hx], hb⟩
            · exact Or.inr ⟨g2, l :: (pre ++ b :: pre2), b2, post2, by simp, hb1, g1, g3⟩
      · cases h
    · cases h

end Ics
