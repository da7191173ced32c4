import Verif.OpenLemmas
import Verif.PanicLemmas
/-!
# Lemmas: what one more line does
-/

namespace Ics

open Spec

variable {κ σ α β : Type}

/-- The decoder wants more lines. -/
abbrev Wants (E : Env) (ls : List Line) : Prop := Hungry (fun t ls => decodeStream E ⟨ls, t⟩) ls

theorem wants_or_settled (E : Env) (ls : List Line) : (∀ t q, decodeStream E ⟨ls ++ q, t⟩ = decodeStream E ⟨ls, .done⟩) ∨ Wants E ls := by
  rcases decodeStream_early E ls with h | h
  · exact Or.inl h
  · exact Or.inr h.hungry

theorem Wants.not_settled {E : Env} {ls : List Line} (h : Wants E ls) {x : Res Cal} (hx : ∀ t q, decodeStream E ⟨ls ++ q, t⟩ = x) : False :=
  h.const (x := x) fun t => by have := hx t []; simpa using this

theorem Wants.of_append {E : Env} {p q : List Line} (h : Wants E (p ++ q)) : Wants E p := by
  rcases wants_or_settled E p with h1 | h1
  · exact (h.not_settled (x := decodeStream E ⟨p, .done⟩) fun t r => by rw [List.append_assoc, h1]).elim
  · exact h1

theorem wants_nil (E : Env) : Wants E [] := fun _ => rfl

/-- If the result is settled, one line has settled it. -/
theorem first_settled {E : Env} {x : Res Cal} : ∀ (r p : List Line), Wants E p → (∀ t q, decodeStream E ⟨p ++ r ++ q, t⟩ = x) →
    ∃ p' l r', p ++ r = p' ++ l :: r' ∧ Wants E p' ∧ ∀ t q, decodeStream E ⟨p' ++ l :: q, t⟩ = x := by
  intro r
  induction r with
  | nil => intro p hp h; exact (hp.not_settled (x := x) (by simpa using h)).elim
  | cons l r ih =>
    intro p hp h
    rcases wants_or_settled E (p ++ [l]) with h1 | h1
    · refine ⟨p, l, r, rfl, hp, fun t q => ?_⟩
      have e1 := h1 t q
      have e2 := h1 .done r
      have e3 := h .done []
      simp only [List.append_assoc, List.singleton_append, List.append_nil] at e1 e2 e3
      rw [e1, ← e2, e3]
    · obtain ⟨p', l', r', e, h2, h3⟩ := ih (p ++ [l]) h1 (by simpa using h)
      exact ⟨p', l', r', by simpa using e, h2, h3⟩

/-- The decoder is inside the body. -/
theorem Wants.at {E : Env} {B : Body} {pre : List Line} (h : Wants E pre) (hi : Inside B pre) :
    ∃ s : B.State, ∀ t, ∃ K : Res B.Result → Res Cal, Quiet K ∧ ∀ r, decodeStream E ⟨pre ++ r, t⟩ = K (B.run E t s r) := by
  rcases hi.reaches E with ⟨res, _, hr⟩ | h
  · exact (h.not_settled hr).elim
  · exact h

/-- What the end of the document gives there. -/
theorem Wants.eof {E : Env} {B : Body} {pre : List Line} (h : Wants E pre) (hi : Inside B pre) : decodeStream E ⟨pre, .done⟩ = B.eof := by
  obtain ⟨s, hs⟩ := h.at hi
  obtain ⟨K, ⟨hK, _⟩, hr⟩ := hs .done
  have h0 := hr []
  rw [List.append_nil] at h0
  rw [h0]
  cases B with
  | cal => exact hK.1 _
  | comp T => exact hK.1 _
  | leaf T => exact hK.1 _
  | unknown => exact hK.1 _
  | alarm k =>
    show K (alarmDecode E .done (k ++ [])) = .panic
    rcases alarmCollect_walk hi.flat none with ⟨e, he⟩ | ⟨a', ha⟩
    · refine (h.const (x := .err e) fun t => ?_).elim
      obtain ⟨K', ⟨hK', _⟩, hr'⟩ := hs t
      have h1 := hr' []
      rw [List.append_nil] at h1
      rw [h1]
      have h2 : Body.run E t (.alarm k) s [] = .err e := by
        show alarmDecode E t (k ++ []) = _
        unfold alarmDecode
        rw [he]; rfl
      rw [h2, hK'.1]
    · unfold alarmDecode
      rw [ha]
      exact hK.2

/-! ## A property -/

theorem Tab.kindOf_field {T : Tab κ} (hw : T.Wf) {f : SField} (hf : f ∈ T.fields) {l : Line} (hl : f.key = upper l.name) :
    ∃ i, T.kindOf l = .prop i f := by
  obtain ⟨j, hj⟩ := List.getElem?_of_mem hf
  have hnb : ¬ Begins l := fun h => (hw.field f hf).notCtl.1 (hl.trans h)
  have hne : ¬ Ends l := fun h => (hw.field f hf).notCtl.2.1 (hl.trans h)
  rcases Tab.kindOf_line (T := T) hnb hne with ⟨i, g, hk, hi, hn⟩ | ⟨_, hn⟩
  · have := hw.key_inj hi hj (hn.trans hl.symm)
    subst this
    rw [hi] at hj
    cases hj
    exact ⟨i, hk⟩
  · exact absurd (List.mem_map.2 ⟨f, hf, hl⟩) hn

/-- One more property of a section: refused because it is there already, or decoded. -/
theorem Sect.run_prop {E : Env} {T : Tab κ} (hw : T.Wf) {sub : Term → κ → List Line → Res (σ × List Line)} (hs : ∀ t, Suffix (sub t)) {f : SField} (hf : f ∈ T.fields) :
    ∃ (dup : Sect σ → Prop) (put : Sect σ → PropVal → Sect σ), ∀ (l : Line) (s : Sect σ), f.key = upper l.name →
      (dup s → ∀ t r, Sect.run E T (sub t) t s (l :: r) = .err .multiple) ∧
      (¬ dup s → ∀ t r, Sect.run E T (sub t) t s (l :: r) = f.spec.decode E l.params l.value >>= fun v => Sect.run E T (sub t) t (put s v) r) := by
  obtain ⟨j, hj⟩ := List.getElem?_of_mem hf
  refine ⟨fun s => f.mult ≠ .many ∧ s.fields.getD j [] ≠ [], fun s v => { s with fields := s.fields.modify j (· ++ [v]) }, fun l s hl => ?_⟩
  obtain ⟨i, hk⟩ := Tab.kindOf_field hw hf hl
  have hij : i = j := hw.key_inj (Tab.kindOf_prop hk).2.2.1 hj rfl
  subst hij
  constructor
  · intro hd t r
    rw [Sect.run_cons (hs t), hk]
    unfold Sect.addProp
    simp only
    rw [if_pos hd]
    rfl
  · intro hd t r
    rw [Sect.run_cons (hs t), hk]
    unfold Sect.addProp
    simp only
    rw [if_neg hd, Res.bind_assoc']
    rfl

theorem Spec.Body.run_prop (E : Env) {B : Body} (hok : B.Ok) {f : SField} (hf : f ∈ B.fields) :
    ∃ (dup : B.State → Prop) (put : B.State → PropVal → B.State), ∀ (l : Line) (s : B.State), f.key = upper l.name →
      (dup s → ∀ t r, B.run E t s (l :: r) = .err .multiple) ∧
      (¬ dup s → ∀ t r, B.run E t s (l :: r) = f.spec.decode E l.params l.value >>= fun v => B.run E t (put s v) r) := by
  cases B with
  | cal => exact Sect.run_prop calTab_wf (compDecode_suffix E) hf
  | comp T =>
    obtain ⟨m, hm⟩ := hok
    exact Sect.run_prop (compTab_good _ hm).1 (subDecode_suffix E) hf
  | leaf T =>
    obtain ⟨x, hx, n, hn⟩ := hok
    exact Sect.run_prop (sub := fun _ => noSub) ((compTab_good _ hx).2.2 _ hn).1 (fun _ => noSub_suffix) hf
  | alarm k => cases hf
  | unknown => cases hf

theorem Spec.Body.run_nil (E : Env) {B : Body} (hB : ∀ k, B ≠ .alarm k) (t : Term) (s : B.State) : B.run E t s [] = .err t.err := by
  cases B with
  | alarm k => exact absurd rfl (hB k)
  | _ => rfl

theorem Spec.Body.not_alarm {B : Body} {f : SField} (hf : f ∈ B.fields) : ∀ k, B ≠ .alarm k := by
  rintro k rfl
  cases hf

/-- Where a line `l0` is accepted, so that the decoder goes on, what another line for the same property does depends on its value. -/
theorem next_prop {E : Env} {B : Body} {pre : List Line} (hi : Inside B pre) {f : SField} (hf : f ∈ B.fields) {l l0 : Line} (hl : f.key = upper l.name)
    (hl0 : f.key = upper l0.name) (h0 : Wants E (pre ++ [l0])) :
    (∀ v, f.spec.decode E l.params l.value = .ok v → Wants E (pre ++ [l])) ∧
    (∀ e, f.spec.decode E l.params l.value = .err e → ∀ t r, decodeStream E ⟨pre ++ l :: r, t⟩ = .err e) ∧
    (f.spec.decode E l.params l.value = .panic → ∀ t r, decodeStream E ⟨pre ++ l :: r, t⟩ = .panic) := by
  obtain ⟨s, hs⟩ := h0.of_append.at hi
  obtain ⟨dup, put, hd⟩ := Spec.Body.run_prop E hi.ok hf
  have hnd : ¬ dup s := by
    intro h
    refine h0.not_settled (x := .err .multiple) fun t q => ?_
    obtain ⟨K, ⟨hK, _⟩, hr⟩ := hs t
    rw [List.append_assoc, hr, List.singleton_append, (hd l0 s hl0).1 h, hK.1]
  have hrun := (hd l s hl).2 hnd
  refine ⟨fun v hv e => ?_, fun e hv t r => ?_, fun hv t r => ?_⟩
  · obtain ⟨K, ⟨hK, _⟩, hr⟩ := hs (.error e)
    show decodeStream E ⟨pre ++ [l], .error e⟩ = _
    rw [hr, hrun, hv]
    show K (B.run E _ _ []) = _
    rw [Spec.Body.run_nil E (Spec.Body.not_alarm hf), hK.1]
    rfl
  · obtain ⟨K, ⟨hK, _⟩, hr⟩ := hs t
    rw [hr, hrun, hv]
    exact hK.1 e
  · obtain ⟨K, ⟨hK, _⟩, hr⟩ := hs t
    rw [hr, hrun, hv]
    exact hK.2

/-! ## Where decoding panics -/

/-- There is no recurrence rule among the properties of an alarm. -/
theorem alarm_no_recur (a : AKind) : ∀ f ∈ a.tab.fields, f.spec.hasRecur = false := by
  cases a <;> decide

theorem Sect.run_no_panic {E : Env} {T : Tab Empty} (hT : ∀ f ∈ T.fields, f.spec.hasRecur = false) {t : Term} :
    ∀ (ls : List Line) (s : Leaf), ∀ n, ls.length ≤ n → Sect.run E T noSub t s ls ≠ .panic := by
  intro ls s n
  induction n generalizing ls s with
  | zero =>
    intro hl h
    obtain rfl : ls = [] := List.length_eq_zero_iff.1 (by omega)
    cases h
  | succ n ih =>
    intro hl h
    cases ls with
    | nil => cases h
    | cons l r =>
      simp only [List.length_cons] at hl
      rw [Sect.run_cons noSub_suffix] at h
      split at h
      · next k _ => exact nomatch k
      · rcases Res.bind_eq_panic.1 h with h | ⟨x, h1, h⟩
        · exact absurd h (skip_ne_panic _ _ _ _ (Nat.le_refl _))
        · have := skip_length h1
          exact ih _ _ (by omega) h
      · next i f hk =>
        rcases Res.bind_eq_panic.1 h with h | ⟨x, h1, h⟩
        · unfold Sect.addProp at h
          split at h
          · cases h
          · rcases Res.bind_eq_panic.1 h with h | ⟨v, _, h⟩
            · have h1 := (PSpec.decode_panic h).1
              rw [hT f (List.mem_of_getElem? (Tab.kindOf_prop hk).2.2.1)] at h1
              cases h1
            · cases h
        · exact ih _ _ (by omega) h
      · split at h <;> cases h
      · exact ih _ _ (by omega) h

theorem alarmDecode_no_panic {E : Env} {t : Term} (ht : t ≠ .done) (ls : List Line) : alarmDecode E t ls ≠ .panic := by
  intro h
  unfold alarmDecode at h
  rcases Res.bind_eq_panic.1 h with h | ⟨⟨a, pt, r⟩, h1, h⟩
  · exact ht (alarmCollect_panic h).1
  · dsimp only at h
    split at h
    · cases h
    · next a _ =>
      rcases Res.bind_eq_panic.1 h with h | ⟨_, _, h⟩
      · rw [Tab.decode_run] at h
        rcases Res.bind_eq_panic.1 h with h | ⟨_, _, h⟩
        · exact Sect.run_no_panic (alarm_no_recur _) _ _ _ (Nat.le_refl _) h
        · rcases Res.bind_eq_panic.1 h with h | ⟨_, _, h⟩
          · exact absurd h (Tab.finish_ne_panic _ _)
          · cases h
      · cases h

/-- One line, at the end of what there is. -/
theorem Sect.run_one {E : Env} {T : Tab κ} {sub : κ → List Line → Res (σ × List Line)} {t : Term} (hs : Suffix sub) (h0 : ∀ k, ∃ e, sub k [] = .err e) (s : Sect σ) (l : Line) :
    (∃ e, Sect.run E T sub t s [l] = .err e) ∨ (∃ x, Sect.run E T sub t s [l] = .ok (x, [])) ∨
    ∃ f ∈ T.fields, f.key = upper l.name ∧ f.spec.decode E l.params l.value = .panic := by
  rw [Sect.run_cons hs]
  split
  · next i k hk =>
    obtain ⟨e, he⟩ := h0 k
    exact Or.inl ⟨e, by rw [he]; rfl⟩
  · exact Or.inl ⟨_, by rw [skip_nil]; rfl⟩
  · next i f hk =>
    obtain ⟨_, _, h3, h4⟩ := Tab.kindOf_prop hk
    unfold Sect.addProp
    split
    · exact Or.inl ⟨_, rfl⟩
    · cases hv : f.spec.decode E l.params l.value with
      | ok v => exact Or.inl ⟨_, rfl⟩
      | err e => exact Or.inl ⟨e, rfl⟩
      | panic => exact Or.inr (Or.inr ⟨f, List.mem_of_getElem? h3, h4, hv⟩)
  · split
    · exact Or.inr (Or.inl ⟨s, rfl⟩)
    · exact Or.inl ⟨_, rfl⟩
  · exact Or.inl ⟨_, rfl⟩

theorem alarmDecode_nil {E : Env} {t : Term} (ht : t ≠ .done) : ∃ e, alarmDecode E t [] = .err e := by
  cases t with
  | done => exact absurd rfl ht
  | error e => exact ⟨e, rfl⟩

theorem skip_one (t : Term) (s : Str) (l : Line) : (∃ e, skip t s [l] = .err e) ∨ skip t s [l] = .ok [] := by
  rw [skip_cons]
  split
  · exact Or.inl ⟨_, by rw [skip_nil]; rfl⟩
  · split
    · split
      · exact Or.inr rfl
      · exact Or.inl ⟨_, rfl⟩
    · exact Or.inl ⟨_, by rw [skip_nil]⟩

theorem Spec.Body.run_one {E : Env} {B : Body} (hok : B.Ok) {t : Term} (ht : t ≠ .done) (s : B.State) (l : Line) (hk : ∀ k, B = .alarm k → (∀ x ∈ k, ¬ Begins x ∧ ¬ Ends x) ∧ Keywords (k ++ [l])) :
    (∃ e, B.run E t s [l] = .err e) ∨ (∃ x, B.run E t s [l] = .ok x ∧ B.rest x = []) ∨
    ∃ f ∈ B.fields, f.key = upper l.name ∧ f.spec.decode E l.params l.value = .panic := by
  cases B with
  | cal =>
    rcases Sect.run_one (E := E) (T := tabCalendar) (t := t) (compDecode_suffix E t) (fun k => ⟨t.err, rfl⟩) s l with h | ⟨x, h⟩ | h
    · exact Or.inl h
    · exact Or.inr (Or.inl ⟨_, h, rfl⟩)
    · exact Or.inr (Or.inr h)
  | comp T =>
    have h0 : ∀ k, ∃ e, subDecode E t k [] = .err e := by
      intro k
      cases k with
      | alarm => exact alarmDecode_nil ht
      | leaf T => exact ⟨t.err, rfl⟩
    rcases Sect.run_one (E := E) (T := T) (t := t) (subDecode_suffix E t) h0 s l with h | ⟨x, h⟩ | h
    · exact Or.inl h
    · exact Or.inr (Or.inl ⟨_, h, rfl⟩)
    · exact Or.inr (Or.inr h)
  | leaf T =>
    rcases Sect.run_one (E := E) (T := T) (t := t) noSub_suffix (fun k => nomatch k) s l with h | ⟨x, h⟩ | h
    · exact Or.inl h
    · exact Or.inr (Or.inl ⟨_, h, rfl⟩)
    · exact Or.inr (Or.inr h)
  | unknown =>
    rcases skip_one t s l with h | h
    · exact Or.inl h
    · exact Or.inr (Or.inl ⟨_, h, rfl⟩)
  | alarm k =>
    obtain ⟨hf, hkw⟩ := hk k rfl
    show (∃ e, alarmDecode E t (k ++ [l]) = .err e) ∨ (∃ x, alarmDecode E t (k ++ [l]) = .ok x ∧ x.2 = []) ∨ _
    cases hd : alarmDecode E t (k ++ [l]) with
    | err e => exact Or.inl ⟨e, rfl⟩
    | panic => exact absurd hd (alarmDecode_no_panic ht _)
    | ok x =>
      refine Or.inr (Or.inl ⟨x, rfl, ?_⟩)
      have bad : (∀ y ∈ k ++ [l], ¬ Begins y ∧ ¬ Ends y) → x.2 = [] := by
        intro hfl
        exfalso
        unfold alarmDecode at hd
        rcases alarmCollect_walk hfl none with ⟨e, he⟩ | ⟨a', ha⟩
        · have := he t []
          rw [List.append_nil] at this
          rw [this] at hd
          cases hd
        · have := ha t []
          rw [List.append_nil] at this
          rw [this] at hd
          cases t with
          | done => exact ht rfl
          | error e => cases hd
      by_cases he : Ends l
      · obtain ⟨res, hres⟩ := alarmDecode_exact E k l (closed_of_flat hf) hkw he
        have := hres t []
        rw [hd] at this
        cases res with
        | ok y => cases this; rfl
        | err e => cases this
        | panic => cases this
      · by_cases hb : Begins l
        · exfalso
          have hn : l.name = kBEGIN := Keywords.name hkw (by simp) (by decide) hb
          unfold alarmDecode at hd
          rcases alarmCollect_walk hf none with ⟨e, he⟩ | ⟨a', ha⟩
          · rw [he] at hd
            cases hd
          · rw [ha, alarmCollect, if_pos hn] at hd
            cases hd
        · refine bad fun y hy => ?_
          rcases List.mem_append.1 hy with hy | hy
          · exact hf y hy
          · rw [List.mem_singleton.1 hy]
            exact ⟨hb, he⟩

theorem Spec.Inside.alarm_mem {k pre : List Line} (h : Inside (.alarm k) pre) : ∀ l ∈ k, l ∈ pre := by
  generalize hB : Body.alarm k = B at h
  induction h generalizing k with
  | cal => cases hB
  | comp => cases hB
  | leaf => cases hB
  | alarm => cases hB; simp
  | unknown => cases hB
  | line _ _ _ ih =>
    cases hB
    intro l hl
    rcases List.mem_append.1 hl with hl | hl
    · exact List.mem_append_left _ (ih rfl l hl)
    · exact List.mem_append_right _ hl
  | lines _ hB' => subst hB; exact absurd rfl (hB' k)

/-- Where the decoder panics on a line. -/
theorem panics_here {E : Env} {pre : List Line} {l : Line} (h : Wants E pre) (hk : Keywords (pre ++ [l])) (hp : ∀ t q, decodeStream E ⟨pre ++ l :: q, t⟩ = .panic) :
    ∃ B, Inside B pre ∧ ∃ f ∈ B.fields, f.key = upper l.name ∧ f.spec.decode E l.params l.value = .panic := by
  have hp1 := hp (.error .unexpectedEOF) []
  rcases decodeStream_hungry h (fun y hy => hk y (by simp [hy])) with rfl | ⟨B, hi⟩
  · exfalso
    rw [List.nil_append] at hp1
    unfold decodeStream at hp1
    simp only at hp1
    split at hp1 <;> cases hp1
  · refine ⟨B, hi, ?_⟩
    obtain ⟨s, hs⟩ := h.at hi
    obtain ⟨K, ⟨hK, hq⟩, hr⟩ := hs (.error .unexpectedEOF)
    rw [hr] at hp1
    have hfl : ∀ k, B = .alarm k → (∀ x ∈ k, ¬ Begins x ∧ ¬ Ends x) ∧ Keywords (k ++ [l]) := by
      rintro k rfl
      refine ⟨hi.flat, fun y hy => ?_⟩
      rcases List.mem_append.1 hy with hy | hy
      · exact hk y (List.mem_append_left _ (hi.alarm_mem y hy))
      · exact hk y (List.mem_append_right _ hy)
    rcases Spec.Body.run_one (E := E) hi.ok (t := .error .unexpectedEOF) (by simp) s l hfl with ⟨e, he⟩ | ⟨x, hx, hx0⟩ | h
    · rw [he, hK.1] at hp1
      cases hp1
    · rw [hx] at hp1
      exact absurd hp1 (hq x hx0)
    · exact h

/-- The recurrence rules of a calendar are all of the same type. -/
theorem recur_spec {B : Body} (hok : B.Ok) {f : SField} (hf : f ∈ B.fields) (hr : f.spec.hasRecur = true) : f.spec = propRecurrenceRule ∧ f.key = c!"RRULE" := by
  have key : ∀ fs : List SField, fs.all (fun f => !f.spec.hasRecur || (f.spec == propRecurrenceRule && f.key == c!"RRULE")) = true → f ∈ fs →
      f.spec = propRecurrenceRule ∧ f.key = c!"RRULE" := by
    intro fs h hm
    have := List.all_eq_true.1 h f hm
    simpa [hr] using this
  cases B with
  | cal => exact key tabCalendar.fields (by decide) hf
  | comp T =>
    obtain ⟨n, hn⟩ := hok
    refine key T.fields ?_ hf
    exact (by decide : ∀ x ∈ tabCalendar.subs, x.2.fields.all (fun f => !f.spec.hasRecur || (f.spec == propRecurrenceRule && f.key == c!"RRULE")) = true) _ hn
  | leaf T =>
    obtain ⟨x, hx, n, hn⟩ := hok
    have : T ∈ [tabStandard, tabDaylight] := leafTab_mem x hx _ hn T rfl
    simp only [List.mem_cons, List.not_mem_nil, or_false] at this
    rcases this with rfl | rfl
    · exact key tabStandard.fields (by decide) hf
    · exact key tabDaylight.fields (by decide) hf
  | alarm k => cases hf
  | unknown => cases hf

theorem daily_decode (E : Env) : ∃ v, propRecurrenceRule.decode E [] c!"FREQ=DAILY" = .ok v := by
  refine ⟨_, rfl⟩

theorem recur_key {B : Body} (hok : B.Ok) {f : SField} (hf : f ∈ B.fields) (hr : f.key = c!"RRULE") : f.spec = propRecurrenceRule := by
  have key : ∀ fs : List SField, fs.all (fun f => f.key != c!"RRULE" || f.spec == propRecurrenceRule) = true → f ∈ fs → f.spec = propRecurrenceRule := by
    intro fs h hm
    have := List.all_eq_true.1 h f hm
    simpa [hr] using this
  cases B with
  | cal => exact key tabCalendar.fields (by decide) hf
  | comp T =>
    obtain ⟨n, hn⟩ := hok
    refine key T.fields ?_ hf
    exact (by decide : ∀ x ∈ tabCalendar.subs, x.2.fields.all (fun f => f.key != c!"RRULE" || f.spec == propRecurrenceRule) = true) _ hn
  | leaf T =>
    obtain ⟨x, hx, n, hn⟩ := hok
    have : T ∈ [tabStandard, tabDaylight] := leafTab_mem x hx _ hn T rfl
    simp only [List.mem_cons, List.not_mem_nil, or_false] at this
    rcases this with rfl | rfl
    · exact key tabStandard.fields (by decide) hf
    · exact key tabDaylight.fields (by decide) hf
  | alarm k => cases hf
  | unknown => cases hf

end Ics
