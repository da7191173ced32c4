import Verif.CutLemmas
import Verif.EarlyLemmas
/-!
# Lemmas: where the decoder is when it wants more lines
-/

namespace Ics

open Spec

variable {κ σ α β : Type}

/-- The first half of `Starved`: whatever error comes next is the result. -/
def Hungry (dec : Term → List Line → Res β) (ls : List Line) : Prop := ∀ e, dec (.error e) ls = .err e

theorem Starved.hungry {dec : Term → List Line → Res β} {ls : List Line} (h : Starved dec ls) : Hungry dec ls := h.1

theorem Hungry.const {dec : Term → List Line → Res β} {ls : List Line} (h : Hungry dec ls) {x : Res β} (hx : ∀ t, dec t ls = x) : False := by
  have h1 := h .unexpectedEOF
  have h2 := h .invalidEnd
  rw [hx] at h1 h2
  rw [h1] at h2
  cases h2

/-- The first of two decoders is hungry, or it gives a result with which the second is. -/
theorem Hungry.bind {d1 : Term → List Line → Res (α × List Line)} {f : Term → α × List Line → Res β} {ls : List Line} (he : Early d1)
    (h : Hungry (fun t ls => d1 t ls >>= f t) ls) : Hungry d1 ls ∨ ∃ y r, (∀ t, d1 t ls = .ok (y, r)) ∧ Hungry (fun t _ => f t (y, r)) ls := by
  rcases he ls with ⟨x, hx⟩ | hs
  · right
    have hx' : ∀ t, d1 t ls = x := by
      intro t
      have := hx t []
      rw [List.append_nil] at this
      rw [this]
      cases x with
      | ok y => simp [Res.more]
      | err e => rfl
      | panic => rfl
    cases x with
    | ok y =>
      refine ⟨y.1, y.2, hx', fun e => ?_⟩
      have := h e
      simp only [hx'] at this
      exact this
    | err x => exact (h.const (x := .err x) fun t => by simp only [hx']; rfl).elim
    | panic => exact (h.const (x := .panic) fun t => by simp only [hx']; rfl).elim
  · exact Or.inl hs.hungry

theorem skip_hungry : ∀ (n : Nat) (name : Str) (ls : List Line), ls.length ≤ n → Hungry (skipU name) ls → Keywords ls →
    ∀ q, Inside .unknown q → Inside .unknown (q ++ ls) := by
  intro n
  induction n with
  | zero =>
    intro name ls hl _ _ q hq
    obtain rfl : ls = [] := List.length_eq_zero_iff.1 (by omega)
    simpa using hq
  | succ n ih =>
    intro name ls hl h hk q hq
    cases ls with
    | nil => simpa using hq
    | cons l ls =>
      simp only [List.length_cons] at hl
      have hkl : Keywords ls := fun y hy => hk y (by simp [hy])
      by_cases hb : upper l.name = kBEGIN
      · have e : ∀ t, skipU name t (l :: ls) = skipU l.value t ls >>= fun r => skipU name t r.2 := by
          intro t
          unfold skipU
          rw [skip_cons, if_pos hb]
          cases skip t l.value ls <;> rfl
        have h' : Hungry (fun t ls => skipU l.value t ls >>= fun r => skipU name t r.2) ls := fun x => (e _).symm.trans (h x)
        rcases Hungry.bind (fun ls => skip_early _ _ ls (Nat.le_refl _)) h' with h1 | ⟨y, r, h1, h2⟩
        · have := ih l.value ls (by omega) h1 hkl _ (hq.unknown (by simp) hb (by simp [Body.parts]))
          simpa using this
        · have h3 := h1 .done
          unfold skipU at h3
          obtain ⟨r1, g1, g2⟩ := Res.bind_eq_ok.1 h3
          cases g2
          have hlen := skip_length g1
          obtain ⟨body, e', rfl, he', hev, hc⟩ := skip_sound _ _ _ _ _ (Nat.le_refl _) g1
          have hup : upper e'.value = upper l.value := by rw [hev, ← hev, upper_idem]
          have := ih name r (by omega) h2 (fun y hy => hkl y (by simp [hy])) _ (hq.lines (by simp) (.block hb he' hup hc .nil) (fun y hy => hk y (by
            simp only [List.cons_append, List.mem_cons, List.mem_append, List.not_mem_nil, or_false] at hy ⊢
            rcases hy with h | h | h <;> simp [h])))
          simpa using this
      · by_cases he : upper l.name = kEND
        · exfalso
          by_cases hv : upper l.value = name
          · exact h.const (x := .ok ((), ls)) fun t => by unfold skipU; rw [skip_cons, if_neg hb, if_pos he, if_pos hv]; rfl
          · exact h.const (x := .err .invalidEnd) fun t => by unfold skipU; rw [skip_cons, if_neg hb, if_pos he, if_neg hv]; rfl
        · have e : ∀ t, skipU name t (l :: ls) = skipU name t ls := by
            intro t
            unfold skipU
            rw [skip_cons, if_neg hb, if_neg he]
          have := ih name ls (by omega) (fun x => (e _).symm.trans (h x)) hkl _ (hq.lines (k := [l]) (by simp) (.line hb he .nil) (fun y hy => hk y (by
            simp at hy; simp [hy])))
          simpa using this

/-- A decoder's hunger is explained: inside some body. -/
def Explained (q : List Line) : Prop := ∃ B, Inside B q

theorem Sect.run_hungry {E : Env} {T : Tab κ} (hw : T.Wf) {sub : Term → κ → List Line → Res (σ × List Line)} {R : κ → List Line → σ → Prop} (hs : ∀ t, Suffix (sub t))
    (hl : ∀ k, Early (fun t => sub t k)) (hsound : SubSound T (sub .done) R) {B : Body} (hB : ∀ k, B ≠ .alarm k) (hparts : B.parts = T.subs.map (·.1))
    (hsub : ∀ q b, Inside B q → Begins b → ∀ k, (upper b.value, k) ∈ T.subs → ∀ ls, Keywords ls → Hungry (fun t => sub t k) ls → Explained (q ++ b :: ls)) :
    ∀ (n : Nat) (s : Sect σ) (ls : List Line), ls.length ≤ n → Hungry (fun t => Sect.run E T (sub t) t s) ls → Keywords ls → ∀ q, Inside B q → Explained (q ++ ls) := by
  intro n
  induction n with
  | zero =>
    intro s ls hn _ _ q hq
    obtain rfl : ls = [] := List.length_eq_zero_iff.1 (by omega)
    exact ⟨B, by simpa using hq⟩
  | succ n ih =>
    intro s ls hn h hkw q hq
    cases ls with
    | nil => exact ⟨B, by simpa using hq⟩
    | cons l ls =>
      simp only [List.length_cons] at hn
      have hkl : Keywords ls := fun y hy => hkw y (by simp [hy])
      have e0 := fun t => Sect.run_cons (E := E) (T := T) (t := t) (hs t) s l ls
      have block : ∀ (s' : Sect σ) {body r : List Line} {e : Line}, Begins l → ls = body ++ e :: r → Ends e → upper e.value = upper l.value → Closed body →
          Hungry (fun t => Sect.run E T (sub t) t s') r → Explained (q ++ l :: ls) := by
        intro s' body r e hb hls he hv hc hr
        subst hls
        have := ih s' r (by simp at hn; omega) hr (fun y hy => hkl y (by simp [hy])) _ (hq.lines hB (.block hb he hv hc .nil) (fun y hy => hkw y (by
            simp only [List.cons_append, List.mem_cons, List.mem_append, List.not_mem_nil, or_false] at hy ⊢
            rcases hy with h | h | h <;> simp [h])))
        simpa using this
      have plain : ∀ (s' : Sect σ), ¬ Begins l → ¬ Ends l → Hungry (fun t => Sect.run E T (sub t) t s') ls → Explained (q ++ l :: ls) := by
        intro s' hb he hr
        have := ih s' ls (by omega) hr hkl _ (hq.lines (k := [l]) hB (.line hb he .nil) (fun y hy => hkw y (by simp at hy; simp [hy])))
        simpa using this
      by_cases hb : Begins l
      · rcases Tab.kindOf_begin (T := T) hb with ⟨i, k, hk, hi⟩ | ⟨hk, hno⟩
        · have e : ∀ t, Sect.run E T (sub t) t s (l :: ls) = sub t k ls >>= fun x => Sect.run E T (sub t) t (s.addSub i x.1) x.2 := by
            intro t; have := e0 t; rw [hk] at this; exact this
          have hm := List.mem_of_getElem? hi
          have h' : Hungry (fun t ls => sub t k ls >>= fun x => Sect.run E T (sub t) t (s.addSub i x.1) x.2) ls := fun x => (e _).symm.trans (h x)
          rcases Hungry.bind (hl k) h' with h1 | ⟨y, r, h1, h2⟩
          · exact hsub q l hq hb k hm ls hkl h1
          · obtain ⟨body, e', g1, he', hv', hc, _⟩ := hsound _ hm ls y r hkl (h1 .done)
            exact block _ hb g1 he' hv' hc h2
        · have e : ∀ t, Sect.run E T (sub t) t s (l :: ls) = skipU (upper l.value) t ls >>= fun x => Sect.run E T (sub t) t s x.2 := by
            intro t
            have := e0 t
            rw [hk] at this
            rw [this]
            unfold skipU
            dsimp only
            cases skip t (upper l.value) ls <;> rfl
          have h' : Hungry (fun t ls => skipU (upper l.value) t ls >>= fun x => Sect.run E T (sub t) t s x.2) ls := fun x => (e _).symm.trans (h x)
          rcases Hungry.bind (fun ls => skip_early _ _ ls (Nat.le_refl _)) h' with h1 | ⟨y, r, h1, h2⟩
          · have := skip_hungry _ _ ls (Nat.le_refl _) h1 hkl _ (hq.unknown hB hb (by rw [hparts]; exact hno))
            exact ⟨_, by simpa using this⟩
          · have h3 := h1 .done
            unfold skipU at h3
            obtain ⟨r1, g1, g2⟩ := Res.bind_eq_ok.1 h3
            cases g2
            obtain ⟨body, e', g3, he', hev, hc⟩ := skip_sound _ _ _ _ _ (Nat.le_refl _) g1
            exact block s hb g3 he' hev hc h2
      · by_cases he : Ends l
        · exfalso
          have hk := Tab.kindOf_end hw he
          by_cases hv : l.value = T.name
          · refine h.const (x := .ok (s, ls)) fun t => ?_
            have := e0 t
            rw [hk] at this
            simp only [if_pos hv] at this
            exact this
          · refine h.const (x := .err .invalidEnd) fun t => ?_
            have := e0 t
            rw [hk] at this
            simp only [if_neg hv] at this
            exact this
        · rcases Tab.kindOf_line (T := T) hb he with ⟨i, f, hk, _, _⟩ | ⟨hk, _⟩
          · have e : ∀ t, Sect.run E T (sub t) t s (l :: ls) = s.addProp E i f l >>= fun s => Sect.run E T (sub t) t s ls := by
              intro t; have := e0 t; rw [hk] at this; exact this
            cases ha : s.addProp E i f l with
            | ok s1 => exact plain s1 hb he fun x => by have := h x; simp only at this ⊢; rw [e, ha] at this; exact this
            | err x => exact (h.const (x := .err x) fun t => (e t).trans (by rw [ha]; rfl)).elim
            | panic => exact (h.const (x := .panic) fun t => (e t).trans (by rw [ha]; rfl)).elim
          · have e : ∀ t, Sect.run E T (sub t) t s (l :: ls) = Sect.run E T (sub t) t s ls := by
              intro t; have := e0 t; rw [hk] at this; exact this
            exact plain s hb he fun x => by have := h x; simp only at this ⊢; rw [e] at this; exact this

theorem Tab.decode_hungry {E : Env} {T : Tab κ} (hw : T.Wf) {sub : Term → κ → List Line → Res (σ × List Line)} {R : κ → List Line → σ → Prop} (hs : ∀ t, Suffix (sub t))
    (hl : ∀ k, Early (fun t => sub t k)) (hsound : SubSound T (sub .done) R) {B : Body} (hB : ∀ k, B ≠ .alarm k) (hparts : B.parts = T.subs.map (·.1))
    (hsub : ∀ q b, Inside B q → Begins b → ∀ k, (upper b.value, k) ∈ T.subs → ∀ ls, Keywords ls → Hungry (fun t => sub t k) ls → Explained (q ++ b :: ls))
    {ls : List Line} (h : Hungry (fun t => T.decode E (sub t) t) ls) (hk : Keywords ls) {q : List Line} (hq : Inside B q) : Explained (q ++ ls) := by
  have h' : Hungry (fun t ls => Sect.run E T (sub t) t (T.start σ) ls >>= fun x => (do T.finish x.1; return x)) ls := h
  rcases Hungry.bind (fun ls => Sect.run_early hs hl _ (T.start σ) ls (Nat.le_refl _)) h' with h1 | ⟨y, r, h1, h2⟩
  · exact Sect.run_hungry hw hs hl hsound hB hparts hsub _ _ ls (Nat.le_refl _) h1 hk q hq
  · exact (h2.const (x := do T.finish y; return (y, r)) fun t => rfl).elim

theorem alarmCollect_hungry : ∀ (ls : List Line) (a : Option AKind), Hungry (fun t => alarmCollect t a) ls → Keywords ls → ∀ l ∈ ls, ¬ Begins l ∧ ¬ Ends l := by
  intro ls
  induction ls with
  | nil => intro a _ _ l hl; cases hl
  | cons l ls ih =>
    intro a h hk
    have hkl : Keywords ls := fun y hy => hk y (by simp [hy])
    by_cases hb : l.name = kBEGIN
    · exact (h.const (x := .err .invalidStructure) fun t => by rw [alarmCollect, if_pos hb]).elim
    have hnb : ¬ Begins l := fun x => hb (Keywords.name hk (by simp) (by decide) x)
    have rest : ¬ Ends l → (∃ a', Hungry (fun t => alarmCollect t a') ls) → ∀ x ∈ l :: ls, ¬ Begins x ∧ ¬ Ends x := by
      rintro he ⟨a', h'⟩ x hx
      rcases List.mem_cons.1 hx with rfl | hx
      · exact ⟨hnb, he⟩
      · exact ih a' h' hkl x hx
    have inner : ∀ a', (∀ t, alarmCollect t a (l :: ls) = alarmCollect t a' ls >>= fun y => .ok (y.1, l :: y.2.1, y.2.2)) → Hungry (fun t => alarmCollect t a') ls := by
      intro a' e
      rcases alarmCollect_early ls a' with ⟨x, hx⟩ | hs
      · exact (h.const (x := (x >>= fun y => .ok (y.1, y.2.1, y.2.2)) >>= fun y => .ok (y.1, l :: y.2.1, y.2.2)) fun t => by
          have h3 := hx t []
          simp only [List.append_nil] at h3
          rw [e, h3]).elim
      · exact hs.hungry
    by_cases ha : l.name = kACTION
    · by_cases hn : a.isSome = true
      · exact (h.const (x := .err .invalidStructure) fun t => by rw [alarmCollect, if_neg hb, if_pos ha, if_pos hn]).elim
      · refine rest (by unfold Ends; rw [ha]; decide) ⟨AKind.ofAction l.value, inner _ fun t => ?_⟩
        rw [alarmCollect, if_neg hb, if_pos ha, if_neg hn]
        rfl
    by_cases he : l.name = kEND
    · exact (h.const (x := .ok (a, [l], ls)) fun t => by rw [alarmCollect, if_neg hb, if_neg ha, if_pos he]).elim
    refine rest (fun x => he (Keywords.name hk (by simp) (by decide) x)) ⟨a, inner _ fun t => ?_⟩
    rw [alarmCollect, if_neg hb, if_neg ha, if_neg he]
    rfl

theorem alarmDecode_hungry {E : Env} {ls : List Line} (h : Hungry (alarmDecode E) ls) (hk : Keywords ls) : ∀ l ∈ ls, ¬ Begins l ∧ ¬ Ends l := by
  rcases alarmCollect_early ls none with ⟨x, hx⟩ | hs
  · exfalso
    have hx' : ∀ t, alarmCollect t none ls = (x >>= fun y => .ok (y.1, y.2.1, y.2.2)) := fun t => by
      have h3 := hx t []
      simpa only [List.append_nil] using h3
    exact h.const (x := alarmDecode E .done ls) fun t => by unfold alarmDecode; rw [hx', hx']
  · exact alarmCollect_hungry ls none hs.hungry hk

theorem subDecode_hungry {E : Env} {x : Str × Tab SubKind} (hx : x ∈ tabCalendar.subs) (q : List Line) (b : Line) (hq : Inside (.comp x.2) q) (hb : Begins b) (k : SubKind)
    (hk : (upper b.value, k) ∈ x.2.subs) (ls : List Line) (hkw : Keywords ls) (h : Hungry (fun t => subDecode E t k) ls) : Explained (q ++ b :: ls) := by
  cases k with
  | alarm => exact ⟨_, by simpa using (hq.alarm hb hk rfl).flats (alarmDecode_hungry h hkw)⟩
  | leaf T =>
    obtain ⟨_, _, hg⟩ := compTab_good x hx
    have h' : Hungry (fun t ls => T.decode E noSub t ls >>= fun y => .ok (Sub.leaf y.1, y.2)) ls := h
    rcases Hungry.bind (Tab.decode_early (fun _ => noSub_suffix) (fun k => nomatch k)) h' with h1 | ⟨y, r, _, h2⟩
    · have := Tab.decode_hungry (B := .leaf T) (R := fun x => nomatch x) (hg _ hk).1 (fun _ => noSub_suffix) (fun k => nomatch k) (fun x => nomatch x.2) (by simp)
        (by
          cases hT : T.subs with
          | nil => rfl
          | cons y ys => exact nomatch y.2) (fun _ _ _ _ k => nomatch k) h1 hkw (hq.leaf hb hk rfl)
      simpa using this
    · exact (h2.const (x := .ok (.leaf y, r)) fun t => rfl).elim

theorem compDecode_hungry {E : Env} (q : List Line) (b : Line) (hq : Inside .cal q) (hb : Begins b) (T : Tab SubKind)
    (hk : (upper b.value, T) ∈ tabCalendar.subs) (ls : List Line) (hkw : Keywords ls) (h : Hungry (fun t => compDecode E t T) ls) : Explained (q ++ b :: ls) := by
  obtain ⟨hw, _, _⟩ := compTab_good _ hk
  have := Tab.decode_hungry (B := .comp T) hw (subDecode_suffix E) (subDecode_early E) (subDecode_sound hk) (by simp) rfl (subDecode_hungry hk) h hkw
    (hq.comp hb hk rfl)
  simpa using this

/-- If the decoder wants more lines it is inside some body. -/
theorem decodeStream_hungry {E : Env} {ls : List Line} (h : Hungry (fun t ls => decodeStream E ⟨ls, t⟩) ls) (hk : Keywords ls) : ls = [] ∨ Explained ls := by
  cases ls with
  | nil => exact Or.inl rfl
  | cons l ls =>
    right
    have hkl : Keywords ls := fun y hy => hk y (by simp [hy])
    by_cases hb : upper l.name = kBEGIN ∧ upper l.value = tabCalendar.name
    · have e : ∀ t, decodeStream E ⟨l :: ls, t⟩ = tabCalendar.decode E (compDecode E t) t ls >>= fun x => .ok x.1 := by
        intro t
        unfold decodeStream
        simp only
        rw [if_pos hb]
        rfl
      have h' : Hungry (fun t ls => tabCalendar.decode E (compDecode E t) t ls >>= fun x => .ok x.1) ls := fun x => (e _).symm.trans (h x)
      rcases Hungry.bind (Tab.decode_early (compDecode_suffix E) (compDecode_early E)) h' with h1 | ⟨y, r, _, h2⟩
      · have := Tab.decode_hungry (B := .cal) calTab_wf (compDecode_suffix E) (compDecode_early E) compDecode_sound (by simp) rfl compDecode_hungry h1 hkl
          (.cal hb.1 hb.2)
        simpa using this
      · exact (h2.const (x := .ok y) fun t => rfl).elim
    · exact (h.const (x := .err .invalidCalendar) fun t => by unfold decodeStream; simp only; rw [if_neg hb]).elim

end Ics
