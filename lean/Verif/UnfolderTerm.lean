import Verif.UnfolderRuns
/-!
# Termination of the unfolding reader
-/

namespace Ics

open Spec

theorem fill_finishes {R : Reader} (hok : ReaderOk R) (hs : ∀ k h, squeezable (R (k :: h)).1) :
    ∀ (fuel : Nat) (h : List Nat) (q : Bytes) (k : Nat), k + 2 ≤ fuel →
    ∃ h' q' e, fill R fuel h q k = .done (h', q', e) ∧
      (delivered R h).length ≤ (delivered R h').length := by
  intro fuel
  induction fuel with
  | zero => intro h q k hk; omega
  | succ fuel ih =>
    intro h q k hk
    rw [fill]
    by_cases hk0 : k = 0
    · rw [if_pos hk0]; exact ⟨_, _, _, rfl, Nat.le_refl _⟩
    rw [if_neg hk0]
    have hlen := hok k h
    have hsq := squeeze_good fuel (R (k :: h)).1 (by omega) (hs k h)
    have hns := squeezable_not_suffix (hs k h)
    have hd : (delivered R h).length ≤ (delivered R (k :: h)).length := by
      simp [delivered]
    cases hr : R (k :: h) with
    | mk b e =>
    rw [hr] at hsq hlen hns
    simp only [hsq, Run.bind_done]
    cases e with
    | some e =>
      simp only [Option.isSome_some, if_true]
      exact ⟨_, _, _, rfl, hd⟩
    | none =>
      simp only [Option.isSome_none, Bool.false_eq_true, if_false]
      have hlt : b.length - (removeFolds b).length + 2 ≤ fuel := by
        by_cases hb : b = []
        · subst hb; simp [removeFolds]; omega
        · have := removeFolds_ne_nil hb hns
          have : 0 < (removeFolds b).length := List.length_pos_iff.2 this
          simp only at hlen
          omega
      obtain ⟨h', q', e, h1, h2⟩ := ih (k :: h) (q ++ removeFolds b) _ hlt
      exact ⟨h', q', e, h1, Nat.le_trans hd h2⟩

theorem read_settle_finish {R : Reader} (hok : ReaderOk R) (hs : ∀ k h, squeezable (R (k :: h)).1) (N : Nat)
    (hN : ∀ h, (delivered R h).length ≤ N) : ∀ (fuel : Nat),
    (∀ (u : Unfolder) (k : Nat), 2 * (N - (delivered R u.hist).length) + 6 ≤ fuel → k + 3 ≤ fuel →
      ∃ r, Unfolder.read R fuel u k = .done r ∧
        (delivered R u.hist).length ≤ (delivered R r.u.hist).length) ∧
    (∀ (u : Unfolder) (q : Bytes) (m : Int), 2 * (N - (delivered R u.hist).length) + 5 ≤ fuel →
      ∃ r, settle R fuel u q m = .done r ∧
        (delivered R u.hist).length ≤ (delivered R r.u.hist).length) := by
  intro fuel
  induction fuel with
  | zero => exact ⟨fun u k h => by omega, fun u q m h => by omega⟩
  | succ fuel ih =>
    constructor
    · intro u k h1 h2
      rw [Unfolder.read]
      obtain ⟨h', q', e, hf, hle⟩ := fill_finishes hok hs fuel u.hist (u.pend.take k)
        (k - (u.pend.take k).length) (by omega)
      simp only [hf, Run.bind_done]
      split
      · exact ⟨_, rfl, hle⟩
      · obtain ⟨r, hr1, hr2⟩ := ih.2 ⟨u.pend.drop k, h'⟩ q' q'.length (by
          simp only
          have := hN h'
          omega)
        exact ⟨r, hr1, Nat.le_trans hle hr2⟩
    · intro u q m hfu
      rw [settle]
      have hd2 : (delivered R (2 :: u.hist)).length =
          (delivered R u.hist).length + (R (2 :: u.hist)).1.length := by simp [delivered]
      have hd1 : (delivered R (1 :: u.hist)).length =
          (delivered R u.hist).length + (R (1 :: u.hist)).1.length := by simp [delivered]
      have hd12 : (delivered R (1 :: 2 :: u.hist)).length =
          (delivered R (2 :: u.hist)).length + (R (1 :: 2 :: u.hist)).1.length := by
        simp [delivered, Nat.add_assoc]
      have hn2 := hN (2 :: u.hist)
      have hn1 := hN (1 :: u.hist)
      have hn12 := hN (1 :: 2 :: u.hist)
      split
      · cases hr : R (2 :: u.hist) with
        | mk b e =>
        rw [hr] at hd2
        simp only at hd2 ⊢
        split
        · exact ⟨_, rfl, by simp only; omega⟩
        · split
          · split
            · exact ⟨_, rfl, by simp only; omega⟩
            · cases hr2 : R (1 :: 2 :: u.hist) with
              | mk b2 e2 =>
              rw [hr2] at hd12
              simp only at hd12 ⊢
              split
              · exact ⟨_, rfl, by simp only; omega⟩
              · obtain ⟨r, h1, h2⟩ := ih.2 ⟨[], 1 :: 2 :: u.hist⟩ (overwrite q (q.length - 1) b2)
                  (m - 1 + b2.length) (by simp only; omega)
                exact ⟨r, h1, by simp only at h2; omega⟩
          · exact ⟨_, rfl, by simp only; omega⟩
      · split
        · cases hr : R (1 :: u.hist) with
          | mk b e =>
          rw [hr] at hd1
          simp only at hd1 ⊢
          split
          · exact ⟨_, rfl, by simp only; omega⟩
          · split
            · split
              · exact ⟨_, rfl, by simp only; omega⟩
              · obtain ⟨r, h1, h2⟩ := ih.1 ⟨b, 1 :: u.hist⟩ 2 (by simp only; omega) (by omega)
                simp only at h2
                rw [h1, Run.bind_done]
                split
                · exact ⟨_, rfl, by simp only; omega⟩
                · obtain ⟨r', h1', h2'⟩ := ih.2 ⟨[], r.u.hist⟩ (overwrite q (q.length - 2) r.q)
                    (m - 2 + r.m) (by simp only; have := hN r.u.hist; omega)
                  exact ⟨r', h1', by simp only at h2'; omega⟩
            · exact ⟨_, rfl, by simp only; omega⟩
        · exact ⟨_, rfl, Nat.le_refl _⟩

/-- A first piece on which the inner loop hangs makes `Read` hang. -/
theorem read_hangs {R : Reader} (fuel k : Nat) (hk : 0 < k) (hb : hasFold (R [k]).1) (he : badEnd (R [k]).1) :
    Unfolder.read R fuel {} k = .running := by
  cases fuel with
  | zero => rfl
  | succ fuel =>
    rw [Unfolder.read]
    simp only [List.take_nil, List.length_nil, Nat.sub_zero]
    have : fill R fuel [] [] k = .running := by
      cases fuel with
      | zero => rfl
      | succ fuel =>
        rw [fill, if_neg (by omega)]
        have := squeeze_bad fuel (R [k]).1 [] 0 hb he
        cases hr : R [k] with
        | mk b e =>
        rw [hr] at this
        simp only [this]
        rfl
    rw [this]
    rfl

end Ics
