import Verif.UnfolderCuts
/-!
# Lemmas: the counts returned by the unfolding reader, and its panics
-/

namespace Ics

open Spec

theorem squeeze_ne_panic (f : Nat) (b : Bytes) : squeeze f [] b 0 ≠ .panic := by
  intro h
  by_cases hb : hasFold b → ¬ badEnd b
  · have h1 := squeeze_good (f + b.length + 1) b (by omega) hb
    have h2 : ∀ (f : Nat) (kept win : Bytes) (n j : Nat), squeeze f kept win n = .panic → squeeze (f + j) kept win n = .panic := by
      intro f
      induction f with
      | zero => intro kept win n j h; cases h
      | succ f ih =>
        intro kept win n j h
        rw [show f + 1 + j = (f + j) + 1 by omega]
        rw [squeeze] at h ⊢
        cases hf : findFold win with
        | none => simp only [hf] at h ⊢; exact h
        | some p => simp only [hf] at h ⊢; exact ih _ _ _ _ h
    rw [Nat.add_assoc, h2 f [] b 0 (b.length + 1) h] at h1
    cases h1
  · have hf : hasFold b := Classical.byContradiction fun hn => hb fun h => absurd h hn
    have he : badEnd b := Classical.byContradiction fun hn => hb fun _ => hn
    rw [squeeze_bad f b [] 0 hf he] at h
    cases h

theorem fill_ne_panic {R : Reader} : ∀ (fuel : Nat) (h : List Nat) (q : Bytes) (k : Nat), fill R fuel h q k ≠ .panic := by
  intro fuel
  induction fuel with
  | zero => intro h q k hd; cases hd
  | succ fuel ih =>
    intro h q k hd
    rw [fill] at hd
    split at hd
    · cases hd
    · cases hs : squeeze fuel [] (R (k :: h)).1 0 with
      | running => simp only [hs, Run.bind] at hd; cases hd
      | panic => exact squeeze_ne_panic _ _ hs
      | done x =>
        simp only [hs, Run.bind] at hd
        split at hd
        · cases hd
        · exact ih _ _ _ hd

theorem read_settle_ne_panic {R : Reader} : ∀ (fuel : Nat),
    (∀ (u : Unfolder) (k : Nat), Unfolder.read R fuel u k ≠ .panic) ∧ (∀ (u : Unfolder) (q : Bytes) (m : Int), settle R fuel u q m ≠ .panic) := by
  intro fuel
  induction fuel with
  | zero => exact ⟨(fun _ _ h => nomatch h), (fun _ _ _ h => nomatch h)⟩
  | succ fuel ih =>
    constructor
    · intro u k hd
      rw [Unfolder.read] at hd
      cases hf : fill R fuel u.hist (u.pend.take k) (k - (u.pend.take k).length) with
      | running => simp only [hf, Run.bind] at hd; cases hd
      | panic => exact fill_ne_panic _ _ _ _ hf
      | done x =>
        simp only [hf, Run.bind] at hd
        split at hd
        · cases hd
        · exact ih.2 _ _ _ hd
    · intro u q m hd
      rw [settle] at hd
      simp only at hd
      split at hd
      · split at hd
        · cases hd
        · split at hd
          · split at hd
            · cases hd
            · split at hd
              · cases hd
              · exact ih.2 _ _ _ hd
          · cases hd
      · split at hd
        · split at hd
          · cases hd
          · split at hd
            · split at hd
              · cases hd
              · cases hr : Unfolder.read R fuel ⟨(R (1 :: u.hist)).1, 1 :: u.hist⟩ 2 with
                | running => simp only [hr, Run.bind] at hd; cases hd
                | panic => exact ih.1 _ _ hr
                | done x =>
                  simp only [hr, Run.bind] at hd
                  split at hd
                  · cases hd
                  · exact ih.2 ⟨[], x.u.hist⟩ _ _ hd
            · cases hd
        · cases hd

theorem fill_length {R : Reader} (hok : ReaderOk R) : ∀ (fuel : Nat) (h : List Nat) (q : Bytes) (k : Nat) (h' : List Nat) (q' : Bytes) (e : Option Nat),
    fill R fuel h q k = .done (h', q', e) → q'.length ≤ q.length + k := by
  intro fuel
  induction fuel with
  | zero => intro h q k h' q' e hd; cases hd
  | succ fuel ih =>
    intro h q k h' q' e hd
    rw [fill] at hd
    split at hd
    · cases hd; omega
    · cases hs : squeeze fuel [] (R (k :: h)).1 0 with
      | running => simp only [hs, Run.bind] at hd; cases hd
      | panic => simp only [hs, Run.bind] at hd; cases hd
      | done x =>
        obtain ⟨_, rfl⟩ := squeeze_done hs
        have h1 := hok k h
        have h2 := removeFolds_length_le (R (k :: h)).1
        simp only [hs, Run.bind] at hd
        split at hd
        · cases hd; simp only [List.length_append]; omega
        · have := ih _ _ _ _ _ _ hd
          simp only [List.length_append] at this
          omega

theorem overwrite_length (q b : Bytes) (i : Nat) (h : i + b.length ≤ q.length) : (overwrite q i b).length = q.length := by
  unfold overwrite
  simp only [List.length_append, List.length_take, List.length_drop]
  omega

/-- The count is never larger than the buffer. -/
theorem count_le {R : Reader} (hok : ReaderOk R) : ∀ (fuel : Nat),
    (∀ (u : Unfolder) (k : Nat) (r : ReadRes), Unfolder.read R fuel u k = .done r → r.q.length ≤ k ∧ r.m ≤ r.q.length) ∧
    (∀ (u : Unfolder) (q : Bytes) (m : Int) (r : ReadRes), settle R fuel u q m = .done r → m ≤ q.length → r.q.length = q.length ∧ r.m ≤ q.length) := by
  intro fuel
  induction fuel with
  | zero => exact ⟨(fun _ _ _ h => nomatch h), (fun _ _ _ _ h => nomatch h)⟩
  | succ fuel ih =>
    constructor
    · intro u k r hd
      rw [Unfolder.read] at hd
      cases hf : fill R fuel u.hist (u.pend.take k) (k - (u.pend.take k).length) with
      | running => simp only [hf, Run.bind] at hd; cases hd
      | panic => simp only [hf, Run.bind] at hd; cases hd
      | done x =>
        obtain ⟨h', q', e⟩ := x
        have h1 := fill_length hok _ _ _ _ _ _ _ hf
        have h2 : (u.pend.take k).length ≤ k := List.length_take_le _ _
        simp only [hf, Run.bind] at hd
        split at hd
        · cases hd; exact ⟨by simp only; omega, by simp⟩
        · obtain ⟨h3, h4⟩ := ih.2 _ _ _ _ hd (by simp)
          exact ⟨by omega, by omega⟩
    · intro u q m r hd hm
      rw [settle] at hd
      simp only at hd
      split at hd
      · next hq =>
        split at hd
        · cases hd; exact ⟨rfl, hm⟩
        · split at hd
          · split at hd
            · cases hd; exact ⟨rfl, by simp only; omega⟩
            · have hl := hok 1 (2 :: u.hist)
              have ho := overwrite_length q (R (1 :: 2 :: u.hist)).1 (q.length - 1) (by omega)
              split at hd
              · cases hd; exact ⟨ho, by simp only; omega⟩
              · obtain ⟨h3, h4⟩ := ih.2 _ _ _ _ hd (by omega)
                exact ⟨by omega, by omega⟩
          · cases hd; exact ⟨rfl, hm⟩
      · split at hd
        · next hq =>
          split at hd
          · cases hd; exact ⟨rfl, hm⟩
          · split at hd
            · split at hd
              · cases hd; exact ⟨rfl, by simp only; omega⟩
              · cases hr : Unfolder.read R fuel ⟨(R (1 :: u.hist)).1, 1 :: u.hist⟩ 2 with
                | running => simp only [hr, Run.bind] at hd; cases hd
                | panic => simp only [hr, Run.bind] at hd; cases hd
                | done x =>
                  obtain ⟨h1, h2⟩ := ih.1 _ _ _ hr
                  have ho := overwrite_length q x.q (q.length - 2) (by omega)
                  simp only [hr, Run.bind] at hd
                  split at hd
                  · cases hd; exact ⟨ho, by simp only; omega⟩
                  · obtain ⟨h3, h4⟩ := ih.2 ⟨[], x.u.hist⟩ _ _ _ hd (by omega)
                    exact ⟨by omega, by omega⟩
            · cases hd; exact ⟨rfl, hm⟩
        · cases hd; exact ⟨rfl, hm⟩

theorem fill_one {R : Reader} (hok : ReaderOk R) (hE : Eager R) (fuel : Nat) (h : List Nat) (q : Bytes) (h' : List Nat) (q' : Bytes)
    (hd : fill R fuel h q 1 = .done (h', q', none)) : q'.length = q.length + 1 := by
  cases fuel with
  | zero => cases hd
  | succ fuel =>
    rw [fill, if_neg (by decide)] at hd
    cases hs : squeeze fuel [] (R (1 :: h)).1 0 with
    | running => simp only [hs, Run.bind] at hd; cases hd
    | panic => simp only [hs, Run.bind] at hd; cases hd
    | done x =>
      obtain ⟨_, rfl⟩ := squeeze_done hs
      have h1 := hok 1 h
      rw [removeFolds_of_none ((findFold_none_iff _).2 (small_noFold (by omega)))] at hs
      simp only [hs, Run.bind] at hd
      have hg := hE 1 h (by decide)
      split at hd
      · next he =>
        injection hd with hd
        injection hd with _ hd
        injection hd with _ hd
        rw [hd] at he; cases he
      · next he =>
        have hb := List.length_pos_iff.2 (hg (by cases hx : (R (1 :: h)).2 with
          | none => rfl
          | some _ => rw [hx] at he; exact absurd rfl he))
        rw [Nat.sub_self] at hd
        have h2 := (fill_hist _ _ _ _ hd).2.length_le
        have h3 := fill_length hok _ _ _ _ _ _ _ hd
        simp only [List.length_append] at h2 h3
        omega

theorem inner_length {R : Reader} (hok : ReaderOk R) (hE : Eager R) (fuel : Nat) (h : List Nat) (r : ReadRes) (hd : Unfolder.read R fuel ⟨[32], h⟩ 2 = .done r) (he : r.err = none) :
    r.q.length = 2 := by
  cases fuel with
  | zero => cases hd
  | succ fuel =>
    rw [Unfolder.read] at hd
    simp only [List.take_succ_cons, List.take_nil, List.length_cons, List.length_nil, List.drop_succ_cons, List.drop_nil] at hd
    cases hf : fill R fuel h [32] (2 - (0 + 1)) with
    | running => simp only [hf, Run.bind] at hd; cases hd
    | panic => simp only [hf, Run.bind] at hd; cases hd
    | done x =>
      obtain ⟨h', q', e⟩ := x
      simp only [hf, Run.bind] at hd
      split at hd
      · next h1 => cases hd; simp only at he; rw [he] at h1; cases h1
      · next h1 =>
        have he' : e = none := by cases e with
          | none => rfl
          | some _ => exact absurd rfl h1
        rw [he'] at hf
        have h2 := fill_one hok hE _ _ _ _ _ hf
        have h3 := ((count_le hok fuel).2 _ _ _ _ hd (by simp)).1
        simp only [List.length_cons, List.length_nil] at h2
        omega

/-- With readers that deliver something with each call it is never negative, and nothing is missing if there is no error. -/
theorem count_ge {R : Reader} (hok : ReaderOk R) (hE : Eager R) : ∀ (fuel : Nat),
    (∀ (u : Unfolder) (k : Nat) (r : ReadRes), Unfolder.read R fuel u k = .done r → 0 ≤ r.m ∧ (r.err = none → r.m = r.q.length)) ∧
    (∀ (u : Unfolder) (q : Bytes) (r : ReadRes), settle R fuel u q q.length = .done r → 0 ≤ r.m ∧ (r.err = none → r.m = r.q.length)) := by
  intro fuel
  induction fuel with
  | zero => exact ⟨(fun _ _ _ h => nomatch h), (fun _ _ _ h => nomatch h)⟩
  | succ fuel ih =>
    constructor
    · intro u k r hd
      rw [Unfolder.read] at hd
      cases hf : fill R fuel u.hist (u.pend.take k) (k - (u.pend.take k).length) with
      | running => simp only [hf, Run.bind] at hd; cases hd
      | panic => simp only [hf, Run.bind] at hd; cases hd
      | done x =>
        simp only [hf, Run.bind] at hd
        split at hd
        · cases hd; exact ⟨by simp, fun _ => rfl⟩
        · exact ih.2 _ _ _ hd
    · intro u q r hd
      rw [settle] at hd
      simp only at hd
      split at hd
      · next hq =>
        split at hd
        · cases hd; exact ⟨by simp, fun _ => rfl⟩
        · split at hd
          · split at hd
            · next he => cases hd; exact ⟨by simp only; omega, fun hn => by simp only at hn; rw [hn] at he; cases he⟩
            · have hl := hok 1 (2 :: u.hist)
              have hg := hE 1 (2 :: u.hist) (by decide)
              have ho := overwrite_length q (R (1 :: 2 :: u.hist)).1 (q.length - 1) (by omega)
              split at hd
              · next he => cases hd; exact ⟨by simp only; omega, fun hn => by simp only at hn; rw [hn] at he; cases he⟩
              · next he =>
                have hb := List.length_pos_iff.2 (hg (by cases hx : (R (1 :: 2 :: u.hist)).2 with
                  | none => rfl
                  | some _ => rw [hx] at he; exact absurd rfl he))
                have : (q.length : Int) - 1 + ((R (1 :: 2 :: u.hist)).1.length : Nat) = ((overwrite q (q.length - 1) (R (1 :: 2 :: u.hist)).1).length : Nat) := by omega
                rw [this] at hd
                exact ih.2 _ _ _ hd
          · cases hd; exact ⟨by simp, fun _ => rfl⟩
      · split at hd
        · next hq =>
          split at hd
          · cases hd; exact ⟨by simp, fun _ => rfl⟩
          · split at hd
            · next hb =>
              split at hd
              · next he => cases hd; exact ⟨by simp only; omega, fun hn => by simp only at hn; rw [hn] at he; cases he⟩
              · cases hr : Unfolder.read R fuel ⟨(R (1 :: u.hist)).1, 1 :: u.hist⟩ 2 with
                | running => simp only [hr, Run.bind] at hd; cases hd
                | panic => simp only [hr, Run.bind] at hd; cases hd
                | done x =>
                  obtain ⟨h1, h2⟩ := ih.1 _ _ _ hr
                  have h3 := ((count_le hok fuel).1 _ _ _ hr).1
                  have ho := overwrite_length q x.q (q.length - 2) (by omega)
                  simp only [hr, Run.bind] at hd
                  split at hd
                  · next he => cases hd; exact ⟨by simp only; omega, fun hn => by simp only at hn; rw [hn] at he; cases he⟩
                  · next he =>
                    have he' : x.err = none := by cases hx : x.err with
                      | none => rfl
                      | some _ => rw [hx] at he; exact absurd rfl he
                    rw [hb] at hr
                    have h4 := inner_length hok hE _ _ _ hr he'
                    have h5 := h2 he'
                    have : (q.length : Int) - 2 + x.m = ((overwrite q (q.length - 2) x.q).length : Nat) := by omega
                    rw [this] at hd
                    exact ih.2 ⟨[], x.u.hist⟩ _ _ hd
            · cases hd; exact ⟨by simp, fun _ => rfl⟩
        · cases hd; exact ⟨by simp, fun _ => rfl⟩

end Ics
