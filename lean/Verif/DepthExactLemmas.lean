import Verif.DepthLemmas
import Verif.Spec.DepthExact
/-!
# Lemmas: exactly how deep the calls are for a document that is accepted
-/

namespace Ics
open Spec

theorem peak_append (a b : List Line) : peak (a ++ b) = max (peak a) (peak b + begins a - ends a) := by
  induction a with
  | nil => simp [peak, begins, ends]
  | cons l a ih =>
    rw [List.cons_append]
    by_cases hb : upper l.name = kBEGIN
    · rw [peak_begin hb, peak_begin hb, begins_yes hb, ends_no (by rw [hb]; decide), ih]; omega
    · by_cases he : upper l.name = kEND
      · rw [peak_end he, peak_end he, begins_no hb, ends_yes he, ih]; omega
      · rw [peak_else hb he, peak_else hb he, begins_no hb, ends_no he, ih]

/-- The lines up to the END of a block that has been begun. -/
structure Closing (u : List Line) : Prop where
  all : ends u = begins u + 1
  before : ∀ p q, u = p ++ q → q ≠ [] → ends p ≤ begins p

theorem Closing.ending {l : Line} (h : upper l.name = kEND) : Closing [l] := by
  have hb : upper l.name ≠ kBEGIN := by rw [h]; exact kEND_ne_kBEGIN
  refine ⟨by rw [ends_yes h, begins_no hb]; rfl, ?_⟩
  intro p q e hq
  cases p with
  | nil => exact Nat.le_refl _
  | cons x p =>
    injection e with _ e
    have := List.append_eq_nil_iff.1 e.symm
    exact absurd this.2 hq

theorem Closing.line {l : Line} {u : List Line} (hb : upper l.name ≠ kBEGIN) (he : upper l.name ≠ kEND) (h : Closing u) : Closing (l :: u) := by
  refine ⟨by rw [begins_no hb, ends_no he]; exact h.all, ?_⟩
  intro p q e hq
  cases p with
  | nil => exact Nat.le_refl _
  | cons x p =>
    injection e with e1 e
    subst e1
    rw [begins_no hb, ends_no he]
    exact h.before p q e hq

theorem Closing.block {l : Line} {u v : List Line} (hb : upper l.name = kBEGIN) (hu : Closing u) (hv : Closing v) : Closing (l :: (u ++ v)) := by
  have he : upper l.name ≠ kEND := by rw [hb]; exact fun e => kEND_ne_kBEGIN e.symm
  have h1 := hu.all
  have h2 := hv.all
  refine ⟨by rw [begins_yes hb, ends_no he, begins_append, ends_append]; omega, ?_⟩
  intro p q e hq
  cases p with
  | nil => exact Nat.le_refl _
  | cons x p =>
    injection e with e1 e
    subst e1
    rw [begins_yes hb, ends_no he]
    rcases List.append_eq_append_iff.1 e with ⟨w, rfl, e2⟩ | ⟨w, e1, rfl⟩
    · have := hv.before w q e2 hq
      rw [begins_append, ends_append]; omega
    · cases w with
      | nil => rw [List.append_nil] at e1; subst e1; omega
      | cons y w =>
        have := hu.before p (y :: w) e1 (by simp)
        omega

theorem Closing.peak_block {l : Line} {u v : List Line} (hb : upper l.name = kBEGIN) (hu : Closing u) : peak (l :: (u ++ v)) = max (1 + peak u) (peak v) := by
  have := hu.all
  rw [peak_begin hb, peak_append]; omega

/-! ## Blocks that are skipped -/

theorem dummy_deep {t : Term} : ∀ {f : Nat} {n : Str} {ls r : List Line}, dummy t f n ls = .ok r → ∃ u, ls = u ++ r ∧ Closing u ∧ dummyDepth t f n ls = 1 + peak u := by
  intro f
  induction f with
  | zero => intro n ls r h; cases h
  | succ f ih =>
    intro n ls r h
    cases ls with
    | nil => cases h
    | cons l ls =>
      simp only [dummy] at h
      split at h
      · rename_i hb
        obtain ⟨r1, h1, h2⟩ := Res.bind_eq_ok.1 h
        obtain ⟨u, rfl, hu, du⟩ := ih h1
        obtain ⟨v, rfl, hv, dv⟩ := ih h2
        refine ⟨l :: (u ++ v), by simp, .block hb hu hv, ?_⟩
        simp only [dummyDepth]
        rw [if_pos hb, h1, du, hu.peak_block hb]
        simp only [dv]
        omega
      · rename_i hb
        split at h
        · rename_i he
          split at h
          · injection h with h; subst h
            refine ⟨[l], rfl, .ending he, ?_⟩
            simp only [dummyDepth]
            rw [if_neg hb, if_pos he, peak_end he]; rfl
          · cases h
        · rename_i he
          obtain ⟨u, rfl, hu, du⟩ := ih h
          refine ⟨l :: u, rfl, .line hb he hu, ?_⟩
          simp only [dummyDepth]
          rw [if_neg hb, if_neg he, du, peak_else hb he]

/-! ## Sections -/

/-- The greatest of the numbers. -/
def mostOf {σ : Type} (g : σ → Nat) : List σ → Nat
  | [] => 0
  | x :: xs => max (g x) (mostOf g xs)

theorem mostOf_append {σ : Type} (g : σ → Nat) (a b : List σ) : mostOf g (a ++ b) = max (mostOf g a) (mostOf g b) := by
  induction a with
  | nil => simp [mostOf]
  | cons x a ih => simp only [List.cons_append, mostOf, ih]; omega

theorem mostOf_modify {σ : Type} (g : σ → Nat) (x : σ) : ∀ (ss : List (List σ)) (i : Nat), i < ss.length →
    mostOf g (ss.modify i (· ++ [x])).flatten = max (mostOf g ss.flatten) (g x) := by
  intro ss
  induction ss with
  | nil => intro i h; simp at h
  | cons s ss ih =>
    intro i h
    cases i with
    | zero =>
      simp only [List.modify_zero_cons, List.flatten_cons, mostOf_append, mostOf]; omega
    | succ i =>
      simp only [List.modify_succ_cons, List.flatten_cons, mostOf_append, ih i (by simpa using h)]; omega

theorem mostOf_pos {σ : Type} {g : σ → Nat} {c : Nat} (hc : 0 < c) : ∀ {xs : List σ}, (∀ x ∈ xs, g x = 0 ∨ g x = c) → mostOf g xs = 0 ∧ (∀ x ∈ xs, g x = 0) ∨ mostOf g xs = c ∧ ∃ x ∈ xs, g x = c := by
  intro xs
  induction xs with
  | nil => intro _; exact .inl ⟨rfl, by simp⟩
  | cons x xs ih =>
    intro h
    have hx := h x (.head _)
    rcases ih (fun y hy => h y (.tail _ hy)) with ⟨h1, h2⟩ | ⟨h1, y, hy, h2⟩
    · rcases hx with hx | hx
      · left
        refine ⟨by simp [mostOf, h1, hx], ?_⟩
        intro z hz
        rcases List.mem_cons.1 hz with rfl | hz
        · exact hx
        · exact h2 z hz
      · exact .inr ⟨by simp [mostOf, h1, hx], x, .head _, hx⟩
    · exact .inr ⟨by rcases hx with hx | hx <;> simp [mostOf, h1, hx], y, .tail _ hy, h2⟩

section
variable {κ σ : Type} {E : Env} {T : Tab κ} {sub : κ → List Line → Res (σ × List Line)} {below : κ → List Line → Nat} {t : Term}

theorem Sect.addProp_subs {s s' : Sect σ} {i : Nat} {f : SField} {l : Line} (h : s.addProp E i f l = .ok s') : s'.subs = s.subs := by
  unfold Sect.addProp at h
  split at h
  · cases h
  · obtain ⟨v, _, h⟩ := Res.bind_eq_ok.1 h
    injection h with h
    subst h; rfl

theorem Sect.loop_deep (g : σ → Nat) (he : T.endless) (hs : Suffix sub)
    (hp : ∀ k ∈ T.subs, ∀ ls x r, Capital ls → sub k.2 ls = .ok (x, r) → ∃ u, ls = u ++ r ∧ Closing u ∧ below k.2 ls = max (1 + peak u) (g x)) :
    ∀ {f : Nat} {s : Sect σ} {ls : List Line} {x : Sect σ} {r : List Line}, Capital ls → s.subs.length = T.subs.length → Sect.loop E T sub t f s ls = .ok (x, r) →
      ∃ u, ls = u ++ r ∧ Closing u ∧ max (Sect.depth E T sub below t f s ls) (mostOf g s.subs.flatten) = max (peak u) (mostOf g x.subs.flatten) := by
  intro f
  induction f with
  | zero => intro s ls x r _ _ h; cases h
  | succ f ih =>
    intro s ls x r hc hl h
    cases ls with
    | nil => cases h
    | cons l ls =>
      simp only [Sect.loop] at h
      simp only [Sect.depth]
      split at h
      · rename_i hb
        rw [if_pos hb]
        split at h
        · rename_i i hi
          rw [hi]
          split at h
          · rename_i nm k hk
            simp only [hk]
            obtain ⟨⟨x1, r1⟩, h1, h2⟩ := Res.bind_eq_ok.1 h
            obtain ⟨u, rfl, hu, du⟩ := hp _ (List.mem_of_getElem? hk) _ _ _ hc.tail h1
            have hi' : i < T.subs.length := by
              rcases Nat.lt_or_ge i T.subs.length with h | h
              · exact h
              · rw [List.getElem?_eq_none h] at hk; cases hk
            obtain ⟨v, rfl, hv, dv⟩ := ih (s := s.addSub i x1) (ls := r1) hc.tail.right (by simp only [Sect.addSub, List.length_modify]; exact hl) h2
            refine ⟨l :: (u ++ v), by simp, .block hb hu hv, ?_⟩
            rw [h1, du, hu.peak_block hb]
            have hm := mostOf_modify g x1 s.subs i (by omega)
            rw [Sect.addSub, hm] at dv
            simp only at dv ⊢
            simp only [Sect.addSub]
            omega
          · cases h
        · rename_i hi
          rw [hi]
          obtain ⟨r1, h1, h2⟩ := Res.bind_eq_ok.1 h
          obtain ⟨u, rfl, hu, du⟩ := dummy_deep h1
          obtain ⟨v, rfl, hv, dv⟩ := ih (ls := r1) hc.tail.right hl h2
          refine ⟨l :: (u ++ v), by simp, .block hb hu hv, ?_⟩
          simp only
          rw [h1, du, hu.peak_block hb]
          simp only
          omega
      · rename_i hb
        rw [if_neg hb]
        split at h
        · rename_i i hi
          rw [hi]
          split at h
          · rename_i fd hf
            simp only [hf]
            obtain ⟨s1, h1, h2⟩ := Res.bind_eq_ok.1 h
            have hn : upper l.name ≠ kEND := fun e => by rw [e, he] at hi; cases hi
            obtain ⟨u, rfl, hu, du⟩ := ih hc.tail (by rw [Sect.addProp_subs h1]; exact hl) h2
            refine ⟨l :: u, rfl, .line hb hn hu, ?_⟩
            rw [peak_else hb hn, h1]
            rw [Sect.addProp_subs h1] at du
            exact du
          · cases h
        · rename_i hi
          rw [hi]
          simp only
          split at h
          · rename_i hn
            rw [if_pos hn]
            split at h
            · injection h with h; injection h with h1 h2; subst h1 h2
              exact ⟨[l], rfl, .ending hn, by rw [peak_end hn]; rfl⟩
            · cases h
          · rename_i hn
            rw [if_neg hn]
            obtain ⟨u, rfl, hu, du⟩ := ih hc.tail hl h
            exact ⟨l :: u, rfl, .line hb hn hu, by rw [peak_else hb hn]; exact du⟩

theorem Tab.decode_deep (g : σ → Nat) (he : T.endless) (hs : Suffix sub)
    (hp : ∀ k ∈ T.subs, ∀ ls x r, Capital ls → sub k.2 ls = .ok (x, r) → ∃ u, ls = u ++ r ∧ Closing u ∧ below k.2 ls = max (1 + peak u) (g x)) {ls : List Line} {x : Sect σ}
    {r : List Line} (hc : Capital ls) (h : T.decode E sub t ls = .ok (x, r)) :
    ∃ u, ls = u ++ r ∧ Closing u ∧ T.depth E sub below t ls = 1 + max (peak u) (mostOf g x.subs.flatten) := by
  have h1 := (Tab.decode_ok.1 h).1
  have h0 : (T.start σ).subs.flatten = [] := by simp [Tab.start]
  obtain ⟨u, e, hu, d⟩ := Sect.loop_deep g he hs hp (s := T.start σ) hc (by simp [Tab.start]) h1
  refine ⟨u, e, hu, ?_⟩
  rw [h0] at d
  unfold Tab.depth
  simp only [mostOf] at d
  omega

end

theorem alarmCollect_deep {t : Term} : ∀ {ls : List Line} {a x : Option AKind} {pt r : List Line}, Capital ls → alarmCollect t a ls = .ok (x, pt, r) → ls = pt ++ r ∧ Closing pt ∧ peak pt = 0 := by
  intro ls
  induction ls with
  | nil => intro a x pt r _ h; unfold alarmCollect at h; split at h <;> cases h
  | cons l ls ih =>
    intro a x pt r hc h
    have hl := hc l (.head _)
    unfold alarmCollect at h
    split at h
    · cases h
    · rename_i hb
      have hb' : upper l.name ≠ kBEGIN := fun e => hb (hl.1 e)
      split at h
      · rename_i hk
        split at h
        · cases h
        · obtain ⟨⟨x1, p1, r1⟩, h1, h2⟩ := Res.bind_eq_ok.1 h
          injection h2 with h2; injection h2 with h3 h4; injection h4 with h4 h5
          subst h4 h5
          obtain ⟨rfl, a1, a2⟩ := ih hc.tail h1
          have hn : upper l.name ≠ kEND := by rw [hk]; decide
          exact ⟨rfl, .line hb' hn a1, by rw [peak_else hb' hn, a2]⟩
      · split at h
        · rename_i he
          injection h with h; injection h with h1 h2; injection h2 with h2 h3
          subst h2 h3
          have hn : upper l.name = kEND := by rw [he]; decide
          exact ⟨rfl, .ending hn, by rw [peak_end hn]; rfl⟩
        · rename_i he
          obtain ⟨⟨x1, p1, r1⟩, h1, h2⟩ := Res.bind_eq_ok.1 h
          injection h2 with h2; injection h2 with h3 h4; injection h4 with h4 h5
          subst h4 h5
          obtain ⟨rfl, a1, a2⟩ := ih hc.tail h1
          have hn : upper l.name ≠ kEND := fun e => he (hl.2 e)
          exact ⟨rfl, .line hb' hn a1, by rw [peak_else hb' hn, a2]⟩

/-- The calls below that of `Alarm.decode`, with it. -/
def subCalls : Sub → Nat
  | .alarm _ => 2
  | .leaf _ => 0

/-- The calls below that of the component, with it, if there is an alarm. -/
def compCalls (c : Comp) : Nat := if mostOf subCalls c.subs.flatten = 0 then 0 else 3

theorem subDecode_deep {E : Env} {t : Term} {k : SubKind} (hk : k.endless = true) {ls : List Line} {x : Sub} {r : List Line} (hc : Capital ls) (h : subDecode E t k ls = .ok (x, r)) :
    ∃ u, ls = u ++ r ∧ Closing u ∧ subDepth E t k ls = max (1 + peak u) (subCalls x) := by
  cases k with
  | alarm =>
    simp only [subDecode, alarmDecode] at h
    obtain ⟨⟨a, pt, r1⟩, h1, h2⟩ := Res.bind_eq_ok.1 h
    obtain ⟨rfl, hu, hz⟩ := alarmCollect_deep hc h1
    cases a with
    | none => cases h2
    | some k =>
      obtain ⟨⟨s, r2⟩, h3, h4⟩ := Res.bind_eq_ok.1 h2
      injection h4 with h4; injection h4 with h5 h6
      subst h5 h6
      refine ⟨pt, rfl, hu, ?_⟩
      have hd : alarmDepth E t (pt ++ r1) = 1 + k.tab.depth E noSub noDepth (.error .unexpectedEOF) pt := by
        unfold alarmDepth; rw [h1]
      have hb := (alarmCollect_peak hc h1).1
      have h5 := Tab.depth_le (E := E) (T := k.tab) (t := .error .unexpectedEOF) (below := noDepth) noSub_suffix 0 (fun k => nomatch k) pt
      have h6 : 1 ≤ k.tab.depth E noSub noDepth (.error .unexpectedEOF) pt := Nat.le_add_right ..
      rw [hb] at h5
      show alarmDepth E t (pt ++ r1) = _
      rw [hd, hz]
      simp only [subCalls]
      omega
  | leaf T =>
    simp only [subDecode] at h
    obtain ⟨⟨s, r1⟩, h1, h2⟩ := Res.bind_eq_ok.1 h
    injection h2 with h2; injection h2 with h2 h3
    subst h2 h3
    obtain ⟨u, e, hu, d⟩ := Tab.decode_deep (below := noDepth) (fun x : Empty => nomatch x) (SubKind.endless_leaf hk) noSub_suffix (fun k => nomatch k.2) hc h1
    refine ⟨u, e, hu, ?_⟩
    show T.depth E noSub _ t ls = _
    rw [d]
    have : mostOf (fun x : Empty => (nomatch x : Nat)) s.subs.flatten = 0 := by
      cases s.subs.flatten with
      | nil => rfl
      | cons x _ => exact nomatch x
    simp only [subCalls, this]
    omega

theorem mostOf_subCalls (c : Comp) : mostOf subCalls c.subs.flatten = 0 ∧ compCalls c = 0 ∧ ¬ HasAlarm c ∨ mostOf subCalls c.subs.flatten = 2 ∧ compCalls c = 3 ∧ HasAlarm c := by
  rcases mostOf_pos (g := subCalls) (c := 2) (by decide) (xs := c.subs.flatten) (fun x _ => by cases x <;> simp [subCalls]) with ⟨h1, h2⟩ | ⟨h1, x, hx, h2⟩
  · refine .inl ⟨h1, by rw [compCalls, if_pos h1], ?_⟩
    rintro ⟨ss, hss, a, ha⟩
    have := h2 _ (List.mem_flatten.2 ⟨ss, hss, ha⟩)
    simp [subCalls] at this
  · refine .inr ⟨h1, by rw [compCalls, if_neg (by omega)], ?_⟩
    obtain ⟨ss, hss, hx⟩ := List.mem_flatten.1 hx
    cases x with
    | leaf _ => simp [subCalls] at h2
    | alarm a => exact ⟨ss, hss, a, hx⟩

theorem compDecode_deep {E : Env} {t : Term} {T : Str × Tab SubKind} (hT : T ∈ tabCalendar.subs) {ls : List Line} {x : Comp} {r : List Line} (hc : Capital ls)
    (h : compDecode E t T.2 ls = .ok (x, r)) : ∃ u, ls = u ++ r ∧ Closing u ∧ compDepth E t T.2 ls = max (1 + peak u) (compCalls x) := by
  obtain ⟨u, e, hu, d⟩ := Tab.decode_deep (below := subDepth E t) subCalls (comps_endless T hT).1 (subDecode_suffix E t)
    (fun k hk _ _ _ hc h => subDecode_deep ((comps_endless T hT).2 k hk) hc h) hc h
  refine ⟨u, e, hu, ?_⟩
  show T.2.depth E _ _ t ls = _
  rw [d]
  rcases mostOf_subCalls x with ⟨h1, h2, _⟩ | ⟨h1, h2, _⟩ <;> rw [h1, h2] <;> omega

theorem mostOf_compCalls (c : Cal) : mostOf compCalls c.subs.flatten = 0 ∧ (∀ cs ∈ c.subs, ∀ x ∈ cs, ¬ HasAlarm x) ∨ mostOf compCalls c.subs.flatten = 3 ∧ ∃ cs ∈ c.subs, ∃ x ∈ cs, HasAlarm x := by
  rcases mostOf_pos (g := compCalls) (c := 3) (by decide) (xs := c.subs.flatten) (fun x _ => by rcases mostOf_subCalls x with ⟨_, h, _⟩ | ⟨_, h, _⟩ <;> simp [h]) with ⟨h1, h2⟩ | ⟨h1, x, hx, h2⟩
  · refine .inl ⟨h1, fun cs hcs x hx ha => ?_⟩
    have := h2 x (List.mem_flatten.2 ⟨cs, hcs, hx⟩)
    rcases mostOf_subCalls x with ⟨_, h, h'⟩ | ⟨_, h, _⟩
    · exact h' ha
    · omega
  · obtain ⟨cs, hcs, hx⟩ := List.mem_flatten.1 hx
    refine .inr ⟨h1, cs, hcs, x, hx, ?_⟩
    rcases mostOf_subCalls x with ⟨_, h, h'⟩ | ⟨_, h, h'⟩
    · omega
    · exact h'

theorem decodeDepth_exact {E : Env} {s : Str} {c : Cal} (hc : Capital (tokenise s).lines) (h : decodeDoc E s = .ok c) :
    ∃ u r, (tokenise s).lines = u ++ r ∧ WholeBlock u ∧ ∀ n, decodeDepth E s ≤ n + 1 ↔ OpenAtMost n u ∧ ((∃ cs ∈ c.subs, ∃ x ∈ cs, HasAlarm x) → 4 ≤ n) := by
  unfold decodeDoc decodeStream at h
  unfold decodeDepth
  generalize tokenise s = st at h hc ⊢
  obtain ⟨ls, t⟩ := st
  cases ls with
  | nil => cases h
  | cons l ls =>
    simp only at h ⊢
    split at h
    · rename_i hl
      rw [if_pos hl]
      obtain ⟨⟨c', r⟩, h1, h2⟩ := Res.bind_eq_ok.1 h
      injection h2 with h2; subst h2
      obtain ⟨u, rfl, hu, d⟩ := Tab.decode_deep (below := compDepth E t) compCalls (show fieldIdx kEND tabCalendar.fields = none by decide) (compDecode_suffix E t)
        (fun T hT _ _ _ hc h => compDecode_deep hT hc h) hc.tail h1
      refine ⟨l :: u, r, rfl, ⟨by simp, ?_, ?_⟩, ?_⟩
      · have := hu.all
        rw [begins_yes hl.1, ends_no (by rw [hl.1]; decide)]; omega
      · intro p q e hp hq
        cases p with
        | nil => exact absurd rfl hp
        | cons x p =>
          injection e with e1 e
          subst e1
          have := hu.before p q e hq
          rw [begins_yes hl.1, ends_no (by rw [hl.1]; decide)]; omega
      · intro n
        rw [d, within_iff, peak_begin hl.1]
        rcases mostOf_compCalls c' with ⟨h1, h2⟩ | ⟨h1, h2⟩
        · rw [h1]
          constructor
          · intro h3
            exact ⟨by omega, fun ⟨cs, hcs, x, hx, ha⟩ => absurd ha (h2 cs hcs x hx)⟩
          · intro h3; have := h3.1; omega
        · rw [h1]
          constructor
          · intro h3; exact ⟨by omega, fun _ => by omega⟩
          · intro h3; have := h3.1; have := h3.2 h2; omega
    · cases h

end Ics
