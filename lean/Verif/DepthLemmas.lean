import Verif.Depth
import Verif.Spec.Depth
import Verif.SectionLemmas
/-!
# Lemmas about the depth of the calls
-/

namespace Ics
open Spec

/-! ## Counting -/

theorem begins_yes {l : Line} {r : List Line} (h : upper l.name = kBEGIN) : begins (l :: r) = 1 + begins r := by
  show (if upper l.name = kBEGIN then 1 else 0) + begins r = _
  rw [if_pos h]

theorem begins_no {l : Line} {r : List Line} (h : upper l.name ≠ kBEGIN) : begins (l :: r) = begins r := by
  show (if upper l.name = kBEGIN then 1 else 0) + begins r = _
  rw [if_neg h, Nat.zero_add]

theorem ends_yes {l : Line} {r : List Line} (h : upper l.name = kEND) : ends (l :: r) = 1 + ends r := by
  show (if upper l.name = kEND then 1 else 0) + ends r = _
  rw [if_pos h]

theorem ends_no {l : Line} {r : List Line} (h : upper l.name ≠ kEND) : ends (l :: r) = ends r := by
  show (if upper l.name = kEND then 1 else 0) + ends r = _
  rw [if_neg h, Nat.zero_add]

theorem begins_tail (l : Line) (r : List Line) : begins r ≤ begins (l :: r) := Nat.le_add_left ..

theorem begins_append (a b : List Line) : begins (a ++ b) = begins a + begins b := by
  induction a with
  | nil => simp [begins]
  | cons l a ih => simp only [List.cons_append, begins, ih]; omega

theorem ends_append (a b : List Line) : ends (a ++ b) = ends a + ends b := by
  induction a with
  | nil => simp [ends]
  | cons l a ih => simp only [List.cons_append, ends, ih]; omega

/-- The most blocks open at one time. -/
def peak : List Line → Nat
  | [] => 0
  | l :: r => if upper l.name = kBEGIN then 1 + peak r else if upper l.name = kEND then peak r - 1 else peak r

theorem peak_begin {l : Line} {r : List Line} (h : upper l.name = kBEGIN) : peak (l :: r) = 1 + peak r := if_pos h

theorem kEND_ne_kBEGIN : kEND ≠ kBEGIN := by decide

theorem peak_end {l : Line} {r : List Line} (h : upper l.name = kEND) : peak (l :: r) = peak r - 1 := by
  show (if upper l.name = kBEGIN then 1 + peak r else if upper l.name = kEND then peak r - 1 else peak r) = _
  rw [if_neg (by rw [h]; exact kEND_ne_kBEGIN), if_pos h]

theorem peak_else {l : Line} {r : List Line} (h : upper l.name ≠ kBEGIN) (h' : upper l.name ≠ kEND) : peak (l :: r) = peak r := by
  show (if upper l.name = kBEGIN then 1 + peak r else if upper l.name = kEND then peak r - 1 else peak r) = _
  rw [if_neg h, if_neg h']

theorem peak_le {ls : List Line} : ∀ {n m : Nat}, (∀ p r, ls = p ++ r → begins p + m ≤ ends p + n) → peak ls + m ≤ n := by
  induction ls with
  | nil => intro n m h; have := h [] [] rfl; simp [begins, ends, peak] at this ⊢; omega
  | cons l ls ih =>
    intro n m h
    have h0 := h [] (l :: ls) rfl
    simp only [begins, ends] at h0
    by_cases hb : upper l.name = kBEGIN
    · rw [peak_begin hb]
      have := ih (n := n) (m := m + 1) (fun p r e => by
        have := h (l :: p) r (by rw [e]; rfl)
        rw [begins_yes hb, ends_no (by rw [hb]; decide)] at this
        omega)
      omega
    · by_cases he : upper l.name = kEND
      · rw [peak_end he]
        have := ih (n := n + 1) (m := m) (fun p r e => by
          have := h (l :: p) r (by rw [e]; rfl)
          rw [begins_no hb, ends_yes he] at this
          omega)
        omega
      · rw [peak_else hb he]
        exact ih (fun p r e => by
          have := h (l :: p) r (by rw [e]; rfl)
          rw [begins_no hb, ends_no he] at this
          omega)

theorem Spec.OpenAtMost.peak {n : Nat} {ls : List Line} (h : OpenAtMost n ls) : Ics.peak ls ≤ n := peak_le (m := 0) h

theorem peak_ge {ls : List Line} : ∀ p r, ls = p ++ r → begins p ≤ ends p + peak ls := by
  induction ls with
  | nil =>
    intro p r h
    cases p with
    | nil => simp [begins]
    | cons => cases h
  | cons l ls ih =>
    intro p r h
    cases p with
    | nil => simp [begins]
    | cons x p =>
      injection h with h1 h2
      subst h1
      have := ih p r h2
      by_cases hb : upper l.name = kBEGIN
      · rw [peak_begin hb, begins_yes hb, ends_no (by rw [hb]; decide)]; omega
      · by_cases he : upper l.name = kEND
        · rw [peak_end he, begins_no hb, ends_yes he]; omega
        · rw [peak_else hb he, begins_no hb, ends_no he]; exact this

theorem within_iff {n : Nat} {ls : List Line} : OpenAtMost n ls ↔ peak ls ≤ n :=
  ⟨fun h => h.peak, fun h p r e => Nat.le_trans (peak_ge p r e) (Nat.add_le_add_left h _)⟩

instance (n : Nat) (ls : List Line) : Decidable (OpenAtMost n ls) := decidable_of_iff _ within_iff.symm
instance (ls : List Line) : Decidable (Capital ls) := by unfold Capital; infer_instance

theorem Spec.Capital.tail {l : Line} {r : List Line} (h : Capital (l :: r)) : Capital r := fun x hx => h x (.tail _ hx)

theorem Spec.Capital.right {a b : List Line} (h : Capital (a ++ b)) : Capital b := fun x hx => h x (List.mem_append_right _ hx)

/-! ## No more than one call for each BEGIN -/

theorem dummyDepth_le {t : Term} : ∀ (f : Nat) (n : Str) (ls : List Line), dummyDepth t f n ls ≤ 1 + begins ls := by
  intro f
  induction f with
  | zero => intro n ls; simp [dummyDepth]
  | succ f ih =>
    intro n ls
    cases ls with
    | nil => simp [dummyDepth]
    | cons l r =>
      have ht := begins_tail l r
      simp only [dummyDepth]
      split
      · rename_i hb
        rw [begins_yes hb]
        refine Nat.max_le.2 ⟨?_, ?_⟩
        · have := ih l.value r; omega
        · split
          · rename_i r' hr
            obtain ⟨p, _, rfl⟩ := dummy_suffix hr
            have := ih n r'
            rw [begins_append]; omega
          · omega
      · split
        · omega
        · have := ih n r; omega

section
variable {κ σ : Type} {E : Env} {T : Tab κ} {sub : κ → List Line → Res (σ × List Line)} {below : κ → List Line → Nat} {t : Term}

theorem Sect.depth_le (hs : Suffix sub) (c : Nat) (hb : ∀ k ls, below k ls ≤ 1 + c + begins ls) :
    ∀ (f : Nat) (s : Sect σ) (ls : List Line), Sect.depth E T sub below t f s ls ≤ c + begins ls := by
  intro f
  induction f with
  | zero => intro s ls; simp [Sect.depth]
  | succ f ih =>
    intro s ls
    cases ls with
    | nil => simp [Sect.depth]
    | cons l r =>
      have ht := begins_tail l r
      simp only [Sect.depth]
      split
      · rename_i hl
        rw [begins_yes hl]
        split
        · split
          · rename_i i _ _ _ k _
            refine Nat.max_le.2 ⟨?_, ?_⟩
            · have := hb k r; omega
            · split
              · rename_i x r' hr
                obtain ⟨p, rfl⟩ := hs _ _ _ _ hr
                have := ih (s.addSub i x) r'
                rw [begins_append]; omega
              · omega
          · omega
        · refine Nat.max_le.2 ⟨?_, ?_⟩
          · have := dummyDepth_le (t := t) (r.length + 1) (upper l.value) r; omega
          · split
            · rename_i r' hr
              obtain ⟨p, _, rfl⟩ := dummy_suffix hr
              have := ih s r'
              rw [begins_append]; omega
            · omega
      · split
        · split
          · split
            · rename_i s' _
              have := ih s' r; omega
            · omega
          · omega
        · split
          · omega
          · have := ih s r; omega

theorem Tab.depth_le (hs : Suffix sub) (c : Nat) (hb : ∀ k ls, below k ls ≤ 1 + c + begins ls) (ls : List Line) : T.depth E sub below t ls ≤ 1 + c + begins ls := by
  have := Sect.depth_le (E := E) (T := T) (t := t) hs c hb (ls.length + 1) (T.start σ) ls
  unfold Tab.depth; omega

end

theorem alarmDepth_le (E : Env) (t : Term) (ls : List Line) : alarmDepth E t ls ≤ 2 + begins ls := by
  unfold alarmDepth
  split
  · rename_i k pt r h
    have := alarmCollect_ok h
    have h2 := Tab.depth_le (E := E) (T := k.tab) (t := .error .unexpectedEOF) (below := noDepth) noSub_suffix 0 (fun k => nomatch k) pt
    rw [this, begins_append]; omega
  · omega

theorem subDepth_le (E : Env) (t : Term) (k : SubKind) (ls : List Line) : subDepth E t k ls ≤ 2 + begins ls := by
  cases k with
  | alarm => exact alarmDepth_le E t ls
  | leaf T =>
    have := Tab.depth_le (E := E) (T := T) (t := t) (below := noDepth) noSub_suffix 0 (fun k => nomatch k) ls
    show T.depth E noSub _ t ls ≤ _
    omega

theorem compDepth_le (E : Env) (t : Term) (T : Tab SubKind) (ls : List Line) : compDepth E t T ls ≤ 2 + begins ls :=
  Tab.depth_le (subDecode_suffix E t) 1 (subDepth_le E t) ls

theorem decodeDepth_le (E : Env) (s : Str) : decodeDepth E s ≤ 2 + begins (tokenise s).lines := by
  unfold decodeDepth
  split
  · omega
  · rename_i l r h
    split
    · rename_i hl
      have := Tab.depth_le (E := E) (T := tabCalendar) (t := (tokenise s).term) (compDecode_suffix E (tokenise s).term) 1 (compDepth_le E (tokenise s).term) r
      rw [h]
      rw [begins_yes hl.1]
      omega
    · omega

/-! ## No more than one call for each open block -/

theorem dummy_peak {t : Term} : ∀ {f : Nat} {n : Str} {ls r : List Line}, dummy t f n ls = .ok r → peak r ≤ 1 + peak ls := by
  intro f
  induction f with
  | zero => intro n ls r h; cases h
  | succ f ih =>
    intro n ls r h
    cases ls with
    | nil => cases h
    | cons l ls =>
      simp only [dummy] at h
      split at h
      · rename_i hb
        obtain ⟨r1, h1, h2⟩ := Res.bind_eq_ok.1 h
        have a1 := ih h1
        have a2 := ih h2
        rw [peak_begin hb]; omega
      · rename_i hb
        split at h
        · rename_i he
          split at h
          · injection h with h; subst h
            rw [peak_end he]; omega
          · cases h
        · rename_i he
          rw [peak_else hb he]
          exact ih h

theorem dummyDepth_peak {t : Term} : ∀ (f : Nat) (n : Str) (ls : List Line), dummyDepth t f n ls ≤ 1 + peak ls := by
  intro f
  induction f with
  | zero => intro n ls; simp [dummyDepth]
  | succ f ih =>
    intro n ls
    cases ls with
    | nil => simp [dummyDepth]
    | cons l r =>
      simp only [dummyDepth]
      split
      · rename_i hb
        rw [peak_begin hb]
        refine Nat.max_le.2 ⟨?_, ?_⟩
        · have := ih l.value r; omega
        · split
          · rename_i r' hr
            have := ih n r'
            have := dummy_peak hr
            omega
          · omega
      · rename_i hb
        split
        · omega
        · rename_i he
          rw [peak_else hb he]
          exact ih n r

/-- No field is called END. -/
def Tab.endless {κ : Type} (T : Tab κ) : Prop := fieldIdx kEND T.fields = none

section
variable {κ σ : Type} {E : Env} {T : Tab κ} {sub : κ → List Line → Res (σ × List Line)} {below : κ → List Line → Nat} {t : Term}

theorem Sect.loop_peak (he : T.endless) (hs : Suffix sub) (hp : ∀ k ∈ T.subs, ∀ ls x r, Capital ls → sub k.2 ls = .ok (x, r) → peak r ≤ 1 + peak ls) :
    ∀ {f : Nat} {s : Sect σ} {ls : List Line} {x : Sect σ} {r : List Line}, Capital ls → Sect.loop E T sub t f s ls = .ok (x, r) → peak r ≤ 1 + peak ls := by
  intro f
  induction f with
  | zero => intro s ls x r _ h; cases h
  | succ f ih =>
    intro s ls x r hc h
    cases ls with
    | nil => cases h
    | cons l ls =>
      simp only [Sect.loop] at h
      split at h
      · rename_i hb
        rw [peak_begin hb]
        split at h
        · split at h
          · rename_i k hk
            obtain ⟨⟨x1, r1⟩, h1, h2⟩ := Res.bind_eq_ok.1 h
            have a1 := hp _ (List.mem_of_getElem? hk) _ _ _ hc.tail h1
            obtain ⟨p, e⟩ := hs _ _ _ _ h1
            have a2 := ih (ls := r1) ((e ▸ hc.tail : Capital (p ++ r1)).right) h2
            omega
          · cases h
        · obtain ⟨r1, h1, h2⟩ := Res.bind_eq_ok.1 h
          have a1 := dummy_peak h1
          obtain ⟨p, _, e⟩ := dummy_suffix h1
          have a2 := ih (ls := r1) ((e ▸ hc.tail : Capital (p ++ r1)).right) h2
          omega
      · rename_i hb
        split at h
        · rename_i i hi
          rw [peak_else hb (fun e => by rw [e, he] at hi; cases hi)]
          split at h
          · obtain ⟨s1, _, h2⟩ := Res.bind_eq_ok.1 h
            exact ih hc.tail h2
          · cases h
        · split at h
          · rename_i hn
            rw [peak_end hn]
            split at h
            · injection h with h; injection h with _ h; subst h; omega
            · cases h
          · rename_i hn
            rw [peak_else hb hn]
            exact ih hc.tail h

theorem Tab.decode_peak (he : T.endless) (hs : Suffix sub) (hp : ∀ k ∈ T.subs, ∀ ls x r, Capital ls → sub k.2 ls = .ok (x, r) → peak r ≤ 1 + peak ls) {ls : List Line} {x : Sect σ}
    {r : List Line} (hc : Capital ls) (h : T.decode E sub t ls = .ok (x, r)) : peak r ≤ 1 + peak ls :=
  Sect.loop_peak he hs hp hc (Tab.decode_ok.1 h).1

theorem Sect.depth_peak (he : T.endless) (hs : Suffix sub) (hp : ∀ k ∈ T.subs, ∀ ls x r, Capital ls → sub k.2 ls = .ok (x, r) → peak r ≤ 1 + peak ls) (c : Nat)
    (hb : ∀ k ∈ T.subs, ∀ ls, Capital ls → below k.2 ls ≤ max c (1 + peak ls)) :
    ∀ (f : Nat) (s : Sect σ) (ls : List Line), Capital ls → Sect.depth E T sub below t f s ls ≤ max c (peak ls) := by
  intro f
  induction f with
  | zero => intro s ls _; simp [Sect.depth]
  | succ f ih =>
    intro s ls hc
    cases ls with
    | nil => simp [Sect.depth]
    | cons l r =>
      simp only [Sect.depth]
      split
      · rename_i hl
        rw [peak_begin hl]
        split
        · split
          · rename_i i _ _ _ k hk
            refine Nat.max_le.2 ⟨hb _ (List.mem_of_getElem? hk) r hc.tail, ?_⟩
            split
            · rename_i x r' hr
              obtain ⟨p, e⟩ := hs _ _ _ _ hr
              have a1 := hp _ (List.mem_of_getElem? hk) _ _ _ hc.tail hr
              have := ih (s.addSub i x) r' ((e ▸ hc.tail : Capital (p ++ r')).right)
              omega
            · omega
          · omega
        · refine Nat.max_le.2 ⟨?_, ?_⟩
          · have := dummyDepth_peak (t := t) (r.length + 1) (upper l.value) r; omega
          · split
            · rename_i r' hr
              obtain ⟨p, _, e⟩ := dummy_suffix hr
              have a1 := dummy_peak hr
              have := ih s r' ((e ▸ hc.tail : Capital (p ++ r')).right)
              omega
            · omega
      · rename_i hl
        split
        · rename_i i hi
          rw [peak_else hl (fun e => by rw [e, he] at hi; cases hi)]
          split
          · split
            · rename_i s' _
              exact ih s' r hc.tail
            · omega
          · omega
        · split
          · omega
          · rename_i hn
            rw [peak_else hl hn]
            exact ih s r hc.tail

theorem Tab.depth_peak (he : T.endless) (hs : Suffix sub) (hp : ∀ k ∈ T.subs, ∀ ls x r, Capital ls → sub k.2 ls = .ok (x, r) → peak r ≤ 1 + peak ls) (c : Nat)
    (hb : ∀ k ∈ T.subs, ∀ ls, Capital ls → below k.2 ls ≤ max c (1 + peak ls)) (ls : List Line) (hc : Capital ls) : T.depth E sub below t ls ≤ max (1 + c) (1 + peak ls) := by
  have := Sect.depth_peak (E := E) (t := t) he hs hp c hb (ls.length + 1) (T.start σ) ls hc
  unfold Tab.depth; omega

end

/-- What an alarm collects has no BEGIN in it and one END, at the end. -/
theorem alarmCollect_peak {t : Term} : ∀ {ls : List Line} {a x : Option AKind} {pt r : List Line}, Capital ls → alarmCollect t a ls = .ok (x, pt, r) →
    begins pt = 0 ∧ peak ls = peak r - 1 := by
  intro ls
  induction ls with
  | nil => intro a x pt r _ h; unfold alarmCollect at h; split at h <;> cases h
  | cons l ls ih =>
    intro a x pt r hc h
    have hl := hc l (.head _)
    unfold alarmCollect at h
    split at h
    · cases h
    · rename_i hb
      have hb' : upper l.name ≠ kBEGIN := fun e => hb (hl.1 e)
      split at h
      · rename_i hk
        split at h
        · cases h
        · obtain ⟨⟨x1, p1, r1⟩, h1, h2⟩ := Res.bind_eq_ok.1 h
          injection h2 with h2; injection h2 with h3 h4; injection h4 with h4 h5
          subst h4 h5
          obtain ⟨a1, a2⟩ := ih hc.tail h1
          refine ⟨?_, ?_⟩
          · rw [begins_no hb', a1]
          · rw [peak_else hb' (by rw [hk]; decide), a2]
      · split at h
        · rename_i he
          injection h with h; injection h with h1 h2; injection h2 with h2 h3
          subst h2 h3
          refine ⟨?_, peak_end (by rw [he]; decide)⟩
          rw [begins_no hb']; rfl
        · rename_i he
          obtain ⟨⟨x1, p1, r1⟩, h1, h2⟩ := Res.bind_eq_ok.1 h
          injection h2 with h2; injection h2 with h3 h4; injection h4 with h4 h5
          subst h4 h5
          obtain ⟨a1, a2⟩ := ih hc.tail h1
          refine ⟨?_, ?_⟩
          · rw [begins_no hb', a1]
          · rw [peak_else hb' (fun e => he (hl.2 e)), a2]

theorem alarmDepth_peak (E : Env) (t : Term) (ls : List Line) (hc : Capital ls) : alarmDepth E t ls ≤ 2 := by
  unfold alarmDepth
  split
  · rename_i k pt r h
    have := Tab.depth_le (E := E) (T := k.tab) (t := .error .unexpectedEOF) (below := noDepth) noSub_suffix 0 (fun k => nomatch k) pt
    rw [(alarmCollect_peak hc h).1] at this
    omega
  · omega

theorem alarmDecode_peak {E : Env} {t : Term} {ls : List Line} {x : Sub} {r : List Line} (hc : Capital ls) (h : alarmDecode E t ls = .ok (x, r)) : peak r ≤ 1 + peak ls := by
  unfold alarmDecode at h
  obtain ⟨⟨a, pt, r1⟩, h1, h2⟩ := Res.bind_eq_ok.1 h
  dsimp only at h2
  split at h2
  · cases h2
  · obtain ⟨⟨s, _⟩, h3, h4⟩ := Res.bind_eq_ok.1 h2
    injection h4 with h4; injection h4 with h4 h5
    subst h5
    have := (alarmCollect_peak hc h1).2
    omega

/-- No field of the section is called END. -/
def SubKind.endless : SubKind → Bool
  | .alarm => true
  | .leaf T => (fieldIdx kEND T.fields).isNone

theorem SubKind.endless_leaf {T : Tab Empty} (h : (SubKind.leaf T).endless = true) : T.endless := by
  unfold SubKind.endless at h
  exact Option.isNone_iff_eq_none.1 h

theorem subDecode_peak {E : Env} {t : Term} {k : SubKind} (hk : k.endless = true) {ls : List Line} {x : Sub} {r : List Line} (hc : Capital ls)
    (h : subDecode E t k ls = .ok (x, r)) : peak r ≤ 1 + peak ls := by
  unfold subDecode at h
  cases k with
  | alarm => exact alarmDecode_peak hc h
  | leaf T =>
    obtain ⟨⟨s, r1⟩, h1, h2⟩ := Res.bind_eq_ok.1 h
    injection h2 with h2; injection h2 with h2 h3
    subst h3
    exact Tab.decode_peak (SubKind.endless_leaf hk) noSub_suffix (fun k => nomatch k.2) hc h1

theorem subDepth_peak {E : Env} {t : Term} {k : SubKind} (hk : k.endless = true) (ls : List Line) (hc : Capital ls) : subDepth E t k ls ≤ max 2 (1 + peak ls) := by
  cases k with
  | alarm => have := alarmDepth_peak E t ls hc; show alarmDepth E t ls ≤ _; omega
  | leaf T =>
    have := Tab.depth_peak (E := E) (t := t) (below := noDepth) (SubKind.endless_leaf hk) noSub_suffix (fun k => nomatch k.2) 0 (fun k => nomatch k.2) ls hc
    show T.depth E noSub _ t ls ≤ _
    omega

theorem comps_endless : ∀ T ∈ tabCalendar.subs, fieldIdx kEND T.2.fields = none ∧ ∀ k ∈ T.2.subs, k.2.endless = true := by decide

theorem compDecode_peak {E : Env} {t : Term} {T : Str × Tab SubKind} (hT : T ∈ tabCalendar.subs) {ls : List Line} {x : Comp} {r : List Line} (hc : Capital ls)
    (h : compDecode E t T.2 ls = .ok (x, r)) : peak r ≤ 1 + peak ls :=
  Tab.decode_peak (comps_endless T hT).1 (subDecode_suffix E t) (fun k hk _ _ _ hc h => subDecode_peak ((comps_endless T hT).2 k hk) hc h) hc h

theorem compDepth_peak {E : Env} {t : Term} {T : Str × Tab SubKind} (hT : T ∈ tabCalendar.subs) (ls : List Line) (hc : Capital ls) :
    compDepth E t T.2 ls ≤ max 3 (1 + peak ls) :=
  Tab.depth_peak (comps_endless T hT).1 (subDecode_suffix E t) (fun k hk _ _ _ hc h => subDecode_peak ((comps_endless T hT).2 k hk) hc h) 2
    (fun k hk ls hc => subDepth_peak ((comps_endless T hT).2 k hk) ls hc) ls hc

theorem decodeDepth_peak (E : Env) (s : Str) (hc : Capital (tokenise s).lines) : decodeDepth E s ≤ max 5 (1 + peak (tokenise s).lines) := by
  unfold decodeDepth
  split
  · omega
  · rename_i l r h
    rw [h] at hc
    split
    · rename_i hl
      have := Tab.depth_peak (E := E) (T := tabCalendar) (t := (tokenise s).term) (below := compDepth E (tokenise s).term) (show fieldIdx kEND tabCalendar.fields = none by decide) (compDecode_suffix E (tokenise s).term)
        (fun T hT _ _ _ hc h => compDecode_peak hT hc h) 3 (fun T hT ls hc => compDepth_peak hT ls hc) r hc.tail
      rw [h, peak_begin hl.1]
      omega
    · omega

/-! ## The deep calendar -/

theorem nest_lines (n : Nat) : nest n = List.replicate n ⟨c!"BEGIN", [], c!"A"⟩ ++ List.replicate n ⟨c!"END", [], c!"A"⟩ := by
  induction n with
  | zero => rfl
  | succ n ih =>
    show _ :: nest n ++ [_] = _
    rw [ih, List.replicate_succ, List.replicate_succ' (n := n) (a := (⟨c!"END", [], c!"A"⟩ : Line))]
    simp

theorem dummyDepth_pos {t : Term} : ∀ (f : Nat) (m : Str) (ls : List Line), 1 ≤ dummyDepth t f m ls := by
  intro f
  induction f with
  | zero => intro m ls; exact Nat.le_refl _
  | succ f ih =>
    intro m ls
    cases ls with
    | nil => exact Nat.le_refl _
    | cons l r =>
      simp only [dummyDepth]
      split
      · exact Nat.le_trans (Nat.le_add_right 1 _) (Nat.le_max_left _ _)
      · split
        · exact Nat.le_refl _
        · exact ih m r

theorem dummyDepth_nest {t : Term} (r : List Line) : ∀ (n f : Nat) (m : Str), n ≤ f → n + 1 ≤ dummyDepth t f m (List.replicate n ⟨c!"BEGIN", [], c!"A"⟩ ++ r) := by
  intro n
  induction n with
  | zero => intro f m _; exact dummyDepth_pos ..
  | succ n ih =>
    intro f m hf
    cases f with
    | zero => omega
    | succ f =>
      have := ih f c!"A" (by omega)
      rw [List.replicate_succ, List.cons_append]
      simp only [dummyDepth]
      rw [if_pos (show upper c!"BEGIN" = kBEGIN by decide)]
      refine Nat.le_trans ?_ (Nat.le_max_left _ _)
      omega

theorem Tab.depth_unknown {κ σ : Type} {E : Env} {T : Tab κ} {sub : κ → List Line → Res (σ × List Line)} {below : κ → List Line → Nat} {t : Term} {l : Line} {r : List Line}
    (hb : upper l.name = kBEGIN) (hn : indexOf (upper l.value) (T.subs.map (·.1)) = none) :
    1 + dummyDepth t (r.length + 1) (upper l.value) r ≤ T.depth E sub below t (l :: r) := by
  unfold Tab.depth
  rw [List.length_cons, Sect.depth, if_pos hb, hn]
  exact Nat.add_le_add_left (Nat.le_max_left _ _) 1

end Ics
