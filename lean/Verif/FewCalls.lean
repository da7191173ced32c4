import Verif.UnfolderRuns
/-!
# How many calls of the caller's reader one Read makes where nothing is folded
-/

namespace Ics

open Spec

theorem settle_few {R : Reader} (hN : NoFolds R) (fuel : Nat) (h : List Nat) (q D : Bytes) (hD : delivered R h = D ++ q) {r : ReadRes}
    (hs : settle R (fuel + 1) ⟨[], h⟩ q q.length = .done r) : r.u.hist.length ≤ h.length + 1 := by
  rw [settle] at hs
  by_cases hb1 : q.length > 0 ∧ q[q.length - 1]? = some 13
  · simp only [if_pos hb1] at hs
    obtain ⟨q0, hq0⟩ := snoc_of_getLast? (getLast?_of_getElem? hb1.2)
    have hn := hN (2 :: h)
    have hd : delivered R (2 :: h) = D ++ q ++ (R (2 :: h)).1 := by rw [delivered, hD]
    by_cases hlen : (R (2 :: h)).1.length < 2
    · rw [if_pos hlen] at hs
      cases hs
      simp
    · rw [if_neg hlen] at hs
      have hne : (R (2 :: h)).1 ≠ [10, 32] := by
        intro hb
        refine hn ⟨D ++ q0, [], ?_⟩
        rw [hd, hb, hq0]; simp
      rw [if_neg hne] at hs
      cases hs
      simp
  · simp only [if_neg hb1] at hs
    by_cases hb2 : q.length > 1 ∧ q[q.length - 2]? = some 13 ∧ q[q.length - 1]? = some 10
    · simp only [if_pos hb2] at hs
      have hq0 : ∃ q0, q = q0 ++ [13, 10] := by
        obtain ⟨p, rfl⟩ := snoc_of_getLast? (getLast?_of_getElem? hb2.2.2)
        have h2 := hb2.2.1
        simp only [List.length_append, List.length_cons, List.length_nil] at h2 hb2
        rw [List.getElem?_append_left (by omega)] at h2
        have : p[p.length - 1]? = some 13 := by
          rw [← h2]; congr 1
        obtain ⟨p', rfl⟩ := snoc_of_getLast? (getLast?_of_getElem? this)
        exact ⟨p', by simp⟩
      obtain ⟨q0, hq0⟩ := hq0
      have hn := hN (1 :: h)
      have hd : delivered R (1 :: h) = D ++ q ++ (R (1 :: h)).1 := by rw [delivered, hD]
      by_cases hlen : (R (1 :: h)).1.length < 1
      · rw [if_pos hlen] at hs
        cases hs
        simp
      · rw [if_neg hlen] at hs
        have hne : (R (1 :: h)).1 ≠ [32] := by
          intro hb
          refine hn ⟨D ++ q0, [], ?_⟩
          rw [hd, hb, hq0]; simp
        rw [if_neg hne] at hs
        cases hs
        simp
    · simp only [if_neg hb2] at hs
      cases hs
      simp

theorem read_few {R : Reader} (hN : NoFolds R) (fuel k : Nat) (hk : 2 ≤ k) (hf : 4 ≤ fuel) (u : Unfolder) (hu : u.pend.length ≤ 2) (D : Bytes) (hD : delivered R u.hist = D ++ u.pend)
    {r : ReadRes} (hr : Unfolder.read R fuel u k = .done r) : r.u.hist.length ≤ u.hist.length + 2 := by
  obtain ⟨fuel, rfl⟩ : ∃ f, fuel = f + 4 := ⟨fuel - 4, by omega⟩
  rw [Unfolder.read] at hr
  have ht : u.pend.take k = u.pend := List.take_of_length_le (by omega)
  have hd : u.pend.drop k = [] := List.drop_of_length_le (by omega)
  simp only [ht, hd] at hr
  have hfill : ∃ h q' e, fill R (fuel + 3) u.hist u.pend (k - u.pend.length) = .done (h, u.pend ++ q', e) ∧
      delivered R h = D ++ (u.pend ++ q') ∧ h.length ≤ u.hist.length + 1 := by
    rw [fill]
    by_cases h0 : k - u.pend.length = 0
    · rw [if_pos h0]
      exact ⟨u.hist, [], none, by simp, by simpa using hD, by simp⟩
    · rw [if_neg h0]
      generalize k - u.pend.length = j at h0
      have hp := hN.piece j u.hist
      have hdel : delivered R (j :: u.hist) = D ++ (u.pend ++ (R (j :: u.hist)).1) := by
        rw [delivered, hD]; simp
      cases hr : R (j :: u.hist) with
      | mk b e =>
      rw [hr] at hp hdel
      simp only [squeeze_noFold _ _ hp, Run.bind_done]
      cases e with
      | some e =>
        simp only [Option.isSome_some, if_true]
        exact ⟨_, b, some e, rfl, hdel, by simp⟩
      | none =>
        simp only [Option.isSome_none, Bool.false_eq_true, if_false]
        rw [fill]
        simp only [if_true]
        exact ⟨_, b, none, rfl, hdel, by simp⟩
  obtain ⟨h, q', e, h1, h2, h3⟩ := hfill
  rw [h1, Run.bind_done] at hr
  cases e with
  | some e =>
    simp only [Option.isSome_some, if_true] at hr
    cases hr
    exact Nat.le_succ_of_le h3
  | none =>
    simp only [Option.isSome_none, Bool.false_eq_true, if_false] at hr
    have := settle_few hN (fuel + 2) h (u.pend ++ q') D h2 hr
    omega

theorem readAll_few {R : Reader} (hok : ReaderOk R) (hN : NoFolds R) (hL : LazyErr R) (fuel : Nat) (hf : 4 ≤ fuel) : ∀ (ks : List Nat) (u : Unfolder) (acc : Bytes), (∀ k ∈ ks, 2 ≤ k) →
    u.pend.length ≤ 2 → delivered R u.hist = acc ++ u.pend → ∀ out e u', readAll R fuel ks u acc = .done (out, e, u') → u'.hist.length ≤ u.hist.length + 2 * ks.length := by
  intro ks
  induction ks with
  | nil =>
    intro u acc _ _ _ out e u' h
    cases h
    simp
  | cons k ks ih =>
    intro u acc hks hu hd out e u' h
    obtain ⟨u1, q, e1, h1, h2, h3, h4, h5, h6⟩ := read_noFold hok hN hL fuel k (hks k (by simp)) hf u hu acc hd
    have hn := read_few hN fuel k (hks k (by simp)) hf u hu acc hd h1
    rw [readAll, h1, Run.bind_done] at h
    simp only [Int.toNat_natCast, List.take_length] at h
    rw [List.length_cons]
    cases e1 with
    | some e1 =>
      simp only [Option.isSome_some, if_true] at h
      cases h
      simp only at hn
      omega
    | none =>
      simp only [Option.isSome_none, Bool.false_eq_true, if_false] at h
      have := ih u1 (acc ++ q) (fun k hk => hks k (by simp [hk])) h4 h2 out e u' h
      simp only at hn
      omega

end Ics
