import Verif.UnfolderTerm
import Verif.CallsLemmas
import Verif.UnfolderCuts
import Verif.WaitingLemmas
/-!
# Lemmas about the calls after which a `Read` does not return
-/

namespace Ics

open Spec

/-- Two readers that answer alike every call made from the history `h0` to the history `h1`.  Not in /repo: an argument about unfolder.go:14-83. -/
def Answers (R R' : Reader) (h0 h1 : List Nat) : Prop := ∀ k h, h0 <:+ h → k :: h <:+ h1 → R (k :: h) = R' (k :: h)

theorem Answers.left {R R' : Reader} {a b c : List Nat} (h : Answers R R' a c) (hb : b <:+ c) : Answers R R' a b := fun k x h1 h2 => h k x h1 (h2.trans hb)

theorem Answers.right {R R' : Reader} {a b c : List Nat} (h : Answers R R' a c) (hb : a <:+ b) : Answers R R' b c := fun k x h1 h2 => h k x (hb.trans h1) h2

theorem suffix_step {a z h : List Nat} {k0 k : Nat} (h1 : k0 :: a <:+ z) (h2 : a <:+ h) (h3 : k :: h <:+ z) : k :: h = k0 :: a ∨ k0 :: a <:+ h := by
  rcases List.suffix_or_suffix_of_suffix h1 h3 with h4 | h4
  · rcases List.suffix_cons_iff.1 h4 with h5 | h5
    · exact .inl h5.symm
    · exact .inr h5
  · have h5 := h4.length_le
    have h6 := h2.length_le
    simp only [List.length_cons] at h5
    exact .inl (h4.eq_of_length (by simp only [List.length_cons]; omega))

theorem squeeze_le {f f' : Nat} {kept win : Bytes} {n : Nat} {x : Bytes × Nat} (h : squeeze f kept win n = .done x) (hf : f ≤ f') : squeeze f' kept win n = .done x := by
  obtain ⟨j, rfl⟩ := Nat.le.dest hf
  exact squeeze_more _ _ _ _ _ _ h

theorem fill_same {R R' : Reader} : ∀ (f f' : Nat) (h : List Nat) (q : Bytes) (k : Nat) (x : List Nat × Bytes × Option Nat),
    fill R f h q k = .done x → Answers R R' h x.1 → f ≤ f' → fill R' f' h q k = .done x := by
  intro f
  induction f with
  | zero => intro f' h q k x hd; cases hd
  | succ f ih =>
    intro f' h q k x hd hs hf
    obtain ⟨f', rfl⟩ : ∃ n, f' = n + 1 := ⟨f' - 1, by omega⟩
    obtain ⟨h', q', e⟩ := x
    have hask := (fill_asks _ _ _ _ _ _ _ hd).2
    rw [fill] at hd ⊢
    split at hd
    · next h0 => rw [if_pos h0]; exact hd
    · next h0 =>
      rw [if_neg h0]
      rw [← hs k h (List.suffix_refl _) (hask (by omega))]
      obtain ⟨y, h1, h2⟩ := Run.bind_eq_done hd
      simp only
      rw [squeeze_le h1 (show f ≤ f' by omega), Run.bind_done]
      simp only at h2 ⊢
      split at h2
      · next he => rw [if_pos he]; exact h2
      · next he =>
        rw [if_neg he]
        exact ih _ _ _ _ _ h2 (hs.right (List.suffix_cons _ _)) (by omega)

theorem read_settle_same {R R' : Reader} : ∀ (f : Nat),
    (∀ (f' : Nat) (u : Unfolder) (k : Nat) (r : ReadRes), Unfolder.read R f u k = .done r → Answers R R' u.hist r.u.hist → f ≤ f' → Unfolder.read R' f' u k = .done r) ∧
    (∀ (f' : Nat) (u : Unfolder) (q : Bytes) (m : Int) (r : ReadRes), settle R f u q m = .done r → Answers R R' u.hist r.u.hist → f ≤ f' → settle R' f' u q m = .done r) := by
  intro f
  induction f with
  | zero => exact ⟨(fun _ _ _ _ h => nomatch h), (fun _ _ _ _ _ h => nomatch h)⟩
  | succ f ih =>
    constructor
    · intro f' u k r hd hs hf
      obtain ⟨f', rfl⟩ : ∃ n, f' = n + 1 := ⟨f' - 1, by omega⟩
      rw [Unfolder.read] at hd ⊢
      obtain ⟨⟨h', q', e⟩, h1, h2⟩ := Run.bind_eq_done hd
      simp only at h2
      have hg := (fill_hist _ _ _ _ h1).1
      have hg2 : h' <:+ r.u.hist := by
        split at h2
        · cases h2; exact List.suffix_refl _
        · exact (read_settle_hist _).2 _ _ _ _ h2
      simp only
      rw [fill_same _ f' _ _ _ _ h1 (hs.left hg2) (by omega), Run.bind_done]
      simp only
      split at h2
      · next he => rw [if_pos he]; exact h2
      · next he =>
        rw [if_neg he]
        exact ih.2 _ _ _ _ _ h2 (hs.right hg) (by omega)
    · intro f' u q m r hd hs hf
      obtain ⟨f', rfl⟩ : ∃ n, f' = n + 1 := ⟨f' - 1, by omega⟩
      have hf : f ≤ f' := by omega
      rw [settle] at hd ⊢
      simp only at hd ⊢
      split at hd
      · next hq =>
        rw [if_pos hq]
        have h2 : 2 :: u.hist <:+ r.u.hist := by
          split at hd
          · cases hd; exact List.suffix_refl _
          · split at hd
            · split at hd
              · cases hd; exact List.suffix_refl _
              · split at hd
                · cases hd; exact List.suffix_cons _ _
                · exact (List.suffix_cons _ _).trans ((read_settle_hist _).2 _ _ _ _ hd)
            · cases hd; exact List.suffix_refl _
        rw [← hs 2 u.hist (List.suffix_refl _) h2]
        split at hd
        · next h => rw [if_pos h]; exact hd
        · next h =>
          rw [if_neg h]
          split at hd
          · next hb =>
            rw [if_pos hb]
            split at hd
            · next he => rw [if_pos he]; exact hd
            · next he =>
              rw [if_neg he]
              have h1 : 1 :: 2 :: u.hist <:+ r.u.hist := by
                split at hd
                · cases hd; exact List.suffix_refl _
                · exact (read_settle_hist _).2 _ _ _ _ hd
              rw [← hs 1 (2 :: u.hist) (List.suffix_cons _ _) h1]
              split at hd
              · next he => rw [if_pos he]; exact hd
              · next he =>
                rw [if_neg he]
                exact ih.2 _ _ _ _ _ hd (hs.right ((List.suffix_cons _ _).trans (List.suffix_cons _ _))) hf
          · next hb => rw [if_neg hb]; exact hd
      · next hq1 =>
        rw [if_neg hq1]
        split at hd
        · next hq =>
          rw [if_pos hq]
          have h1 : 1 :: u.hist <:+ r.u.hist := by
            split at hd
            · cases hd; exact List.suffix_refl _
            · split at hd
              · split at hd
                · cases hd; exact List.suffix_refl _
                · obtain ⟨x, h3, h4⟩ := Run.bind_eq_done hd
                  have h5 := (read_settle_hist _).1 _ _ _ h3
                  split at h4
                  · cases h4; exact h5
                  · exact h5.trans ((read_settle_hist _).2 ⟨[], x.u.hist⟩ _ _ _ h4)
              · cases hd; exact List.suffix_refl _
          rw [← hs 1 u.hist (List.suffix_refl _) h1]
          split at hd
          · next h => rw [if_pos h]; exact hd
          · next h =>
            rw [if_neg h]
            split at hd
            · next hb =>
              rw [if_pos hb]
              split at hd
              · next he => rw [if_pos he]; exact hd
              · next he =>
                rw [if_neg he]
                obtain ⟨x, h3, h4⟩ := Run.bind_eq_done hd
                have h5 := (read_settle_hist _).1 _ _ _ h3
                have h6 : x.u.hist <:+ r.u.hist := by
                  split at h4
                  · cases h4; exact List.suffix_refl _
                  · exact (read_settle_hist _).2 ⟨[], x.u.hist⟩ _ _ _ h4
                rw [ih.1 f' _ _ _ h3 ((hs.left h6).right (List.suffix_cons _ _)) hf, Run.bind_done]
                split at h4
                · next he => rw [if_pos he]; exact h4
                · next he =>
                  rw [if_neg he]
                  exact ih.2 _ _ _ _ _ h4 (hs.right ((List.suffix_cons _ _).trans h5)) hf
            · next hb => rw [if_neg hb]; exact hd
        · next hq2 => rw [if_neg hq2]; exact hd

theorem readAll_same {R R' : Reader} {f f' : Nat} (hf : f ≤ f') : ∀ (ks : List Nat) (u : Unfolder) (acc : Bytes) (x : Bytes × Option Nat × Unfolder),
    readAll R f ks u acc = .done x → Answers R R' u.hist x.2.2.hist → readAll R' f' ks u acc = .done x := by
  intro ks
  induction ks with
  | nil => intro u acc x h _; exact h
  | cons k ks ih =>
    intro u acc x h hs
    rw [readAll] at h ⊢
    obtain ⟨r, h1, h2⟩ := Run.bind_eq_done h
    have h3 := (read_settle_hist _).1 _ _ _ h1
    have h4 : r.u.hist <:+ x.2.2.hist := by
      split at h2
      · cases h2; exact List.suffix_refl _
      · obtain ⟨a, b, c⟩ := x
        exact (readAll_grows _ _ _ _ _ _ h2).1
    rw [(read_settle_same f).1 f' _ _ _ h1 (hs.left h4) hf, Run.bind_done]
    split at h2
    · next he => rw [if_pos he]; exact h2
    · next he => rw [if_neg he]; exact ih _ _ _ h2 (hs.right h3)

/-! ## Every piece of a run that returns could be squeezed -/

theorem fill_squeezed {R : Reader} : ∀ (f : Nat) (h : List Nat) (q : Bytes) (k : Nat) (x : List Nat × Bytes × Option Nat), fill R f h q k = .done x →
    ∀ k' h', h <:+ h' → k' :: h' <:+ x.1 → squeezable (R (k' :: h')).1 := by
  intro f
  induction f with
  | zero => intro h q k x hd; cases hd
  | succ f ih =>
    intro h q k x hd k' h' g1 g2
    obtain ⟨hx, q', e⟩ := x
    have hask := (fill_asks _ _ _ _ _ _ _ hd).2
    rw [fill] at hd
    split at hd
    · cases hd
      have h1 := g1.length_le
      have h2 := g2.length_le
      simp only [List.length_cons] at h2
      omega
    · next h0 =>
      obtain ⟨y, h1, h2⟩ := Run.bind_eq_done hd
      have hfirst : squeezable (R (k :: h)).1 := fun hb he => by
        rw [squeeze_bad _ _ _ _ hb he] at h1
        cases h1
      rcases suffix_step (hask (by omega)) g1 g2 with h3 | h3
      · rw [h3]; exact hfirst
      · simp only at h2
        split at h2
        · cases h2
          have h4 := h3.length_le
          have h5 := g2.length_le
          simp only [List.length_cons] at h4 h5
          omega
        · exact ih _ _ _ _ h2 k' h' h3 g2

theorem small_squeezable {b : Bytes} (h : b.length ≤ 2) : squeezable b := fun hb => absurd hb (small_noFold h)

theorem read_settle_squeezed {R : Reader} (hok : ReaderOk R) : ∀ (f : Nat),
    (∀ (u : Unfolder) (k : Nat) (r : ReadRes), Unfolder.read R f u k = .done r → ∀ k' h', u.hist <:+ h' → k' :: h' <:+ r.u.hist → squeezable (R (k' :: h')).1) ∧
    (∀ (u : Unfolder) (q : Bytes) (m : Int) (r : ReadRes), settle R f u q m = .done r → ∀ k' h', u.hist <:+ h' → k' :: h' <:+ r.u.hist → squeezable (R (k' :: h')).1) := by
  have hprobe : ∀ j, j ≤ 2 → ∀ h, squeezable (R (j :: h)).1 := fun j hj h => small_squeezable (by have := hok j h; omega)
  have hstop : ∀ {a h' : List Nat} {k' : Nat}, a <:+ h' → ¬ k' :: h' <:+ a := fun h1 h2 => by
    have h1 := h1.length_le
    have h2 := h2.length_le
    simp only [List.length_cons] at h2
    omega
  intro f
  induction f with
  | zero => exact ⟨(fun _ _ _ h => nomatch h), (fun _ _ _ _ h => nomatch h)⟩
  | succ f ih =>
    constructor
    · intro u k r hd k' h' g1 g2
      rw [Unfolder.read] at hd
      obtain ⟨⟨hx, q', e⟩, h1, h2⟩ := Run.bind_eq_done hd
      simp only at h2
      by_cases hb : k' :: h' <:+ hx
      · exact fill_squeezed _ _ _ _ _ h1 k' h' g1 hb
      · split at h2
        · cases h2; exact absurd g2 hb
        · have h3 := (read_settle_hist _).2 _ _ _ _ h2
          rcases List.suffix_or_suffix_of_suffix h3 g2 with h4 | h4
          · rcases List.suffix_cons_iff.1 h4 with h5 | h5
            · exact absurd (by rw [← h5]; exact List.suffix_refl _) hb
            · exact ih.2 _ _ _ _ h2 k' h' h5 g2
          · exact absurd h4 hb
    · intro u q m r hd k' h' g1 g2
      rw [settle] at hd
      simp only at hd
      split at hd
      · have hcons : ∀ z, 2 :: u.hist <:+ z → k' :: h' <:+ z → (2 :: u.hist <:+ h' → squeezable (R (k' :: h')).1) → squeezable (R (k' :: h')).1 := fun z h1 h2 h3 => by
          rcases suffix_step h1 g1 h2 with h4 | h4
          · rw [h4]; exact hprobe 2 (by omega) _
          · exact h3 h4
        split at hd
        · cases hd; exact hcons _ (List.suffix_refl _) g2 fun h => absurd g2 (hstop h)
        · split at hd
          · split at hd
            · cases hd; exact hcons _ (List.suffix_refl _) g2 fun h => absurd g2 (hstop h)
            · split at hd
              · cases hd
                refine hcons _ (List.suffix_cons _ _) g2 fun h => ?_
                rcases suffix_step (List.suffix_refl _) h g2 with h4 | h4
                · rw [h4]; exact hprobe 1 (by omega) _
                · exact absurd g2 (hstop h4)
              · have h5 := (read_settle_hist _).2 _ _ _ _ hd
                refine hcons _ ((List.suffix_cons _ _).trans h5) g2 fun h => ?_
                rcases suffix_step h5 h g2 with h4 | h4
                · rw [h4]; exact hprobe 1 (by omega) _
                · exact ih.2 _ _ _ _ hd k' h' h4 g2
          · cases hd; exact hcons _ (List.suffix_refl _) g2 fun h => absurd g2 (hstop h)
      · split at hd
        · have hcons : ∀ z, 1 :: u.hist <:+ z → k' :: h' <:+ z → (1 :: u.hist <:+ h' → squeezable (R (k' :: h')).1) → squeezable (R (k' :: h')).1 := fun z h1 h2 h3 => by
            rcases suffix_step h1 g1 h2 with h4 | h4
            · rw [h4]; exact hprobe 1 (by omega) _
            · exact h3 h4
          split at hd
          · cases hd; exact hcons _ (List.suffix_refl _) g2 fun h => absurd g2 (hstop h)
          · split at hd
            · split at hd
              · cases hd; exact hcons _ (List.suffix_refl _) g2 fun h => absurd g2 (hstop h)
              · obtain ⟨x, h3, h4⟩ := Run.bind_eq_done hd
                have h5 := (read_settle_hist _).1 _ _ _ h3
                have h6 : x.u.hist <:+ r.u.hist := by
                  split at h4
                  · cases h4; exact List.suffix_refl _
                  · exact (read_settle_hist _).2 ⟨[], x.u.hist⟩ _ _ _ h4
                refine hcons _ (h5.trans h6) g2 fun h => ?_
                by_cases hb : k' :: h' <:+ x.u.hist
                · exact ih.1 _ _ _ h3 k' h' h hb
                · split at h4
                  · cases h4; exact absurd g2 hb
                  · rcases List.suffix_or_suffix_of_suffix h6 g2 with h7 | h7
                    · rcases List.suffix_cons_iff.1 h7 with h8 | h8
                      · exact absurd (by rw [← h8]; exact List.suffix_refl _) hb
                      · exact ih.2 _ _ _ _ h4 k' h' h8 g2
                    · exact absurd h7 hb
            · cases hd; exact hcons _ (List.suffix_refl _) g2 fun h => absurd g2 (hstop h)
        · cases hd; exact absurd g2 (hstop g1)

theorem readAll_squeezed {R : Reader} (hok : ReaderOk R) {f : Nat} : ∀ (ks : List Nat) (u : Unfolder) (acc : Bytes) (x : Bytes × Option Nat × Unfolder),
    readAll R f ks u acc = .done x → ∀ k' h', u.hist <:+ h' → k' :: h' <:+ x.2.2.hist → squeezable (R (k' :: h')).1 := by
  intro ks
  induction ks with
  | nil =>
    intro u acc x h k' h' g1 g2
    cases h
    have h1 := g1.length_le
    have h2 := g2.length_le
    simp only [List.length_cons] at h2
    omega
  | cons k ks ih =>
    intro u acc x h k' h' g1 g2
    rw [readAll] at h
    obtain ⟨r, h1, h2⟩ := Run.bind_eq_done h
    by_cases hb : k' :: h' <:+ r.u.hist
    · exact (read_settle_squeezed hok _).1 _ _ _ h1 k' h' g1 hb
    · split at h2
      · cases h2; exact absurd g2 hb
      · obtain ⟨a, b, c⟩ := x
        have h6 := (readAll_grows _ _ _ _ _ _ h2).1
        rcases List.suffix_or_suffix_of_suffix h6 g2 with h7 | h7
        · rcases List.suffix_cons_iff.1 h7 with h8 | h8
          · exact absurd (by rw [← h8]; exact List.suffix_refl _) hb
          · exact ih _ _ _ h2 k' h' h8 g2
        · exact absurd h7 hb

end Ics
