import Verif.Unfolder
import Verif.FoldingProofs
/-!
# Lemmas about the unfolding reader
-/

namespace Ics

open Spec

/-! ## Finding fold markers -/

def F3 : Bytes := [13, 10, 32]

theorem findFold_cons_none {a : UInt8} {w : Bytes} (h : findFold (a :: w) = none) : findFold w = none := by
  rcases w with _ | ⟨b, _ | ⟨c, r⟩⟩
  · rfl
  · rfl
  · rw [findFold] at h
    split at h
    · cases h
    · simpa using h

theorem findFold_cons {a : UInt8} {w : Bytes} (h : ∀ r, a :: w ≠ 13 :: 10 :: 32 :: r) :
    findFold (a :: w) = (findFold w).map (· + 1) := by
  rcases w with _ | ⟨b, _ | ⟨c, r⟩⟩
  · rfl
  · rfl
  · rw [findFold, if_neg]
    rintro ⟨rfl, rfl, rfl⟩
    exact h r rfl

theorem findFold_F3 (r : Bytes) : findFold (13 :: 10 :: 32 :: r) = some 0 := by
  rw [findFold, if_pos ⟨rfl, rfl, rfl⟩]

theorem findFold_some : ∀ {w : Bytes} {pos : Nat}, findFold w = some pos →
    ∃ r, w = w.take pos ++ 13 :: 10 :: 32 :: r ∧ (w.take pos).length = pos ∧
      findFold (w.take pos) = none := by
  intro w
  induction w with
  | nil => intro pos h; cases h
  | cons a w ih =>
    intro pos h
    by_cases hm : ∃ r, a :: w = 13 :: 10 :: 32 :: r
    · obtain ⟨r, hr⟩ := hm
      rw [hr, findFold_F3] at h
      injection h with h
      subst h
      exact ⟨r, by simp [hr], rfl, rfl⟩
    · have hne : ∀ r, a :: w ≠ 13 :: 10 :: 32 :: r := fun r hr => hm ⟨r, hr⟩
      rw [findFold_cons hne] at h
      cases hf : findFold w with
      | none => rw [hf] at h; cases h
      | some p =>
        rw [hf] at h
        injection h with h
        dsimp only at h
        subst h
        obtain ⟨r, h1, h2, h3⟩ := ih hf
        refine ⟨r, by simp [List.take_succ_cons, ← h1], by simp [h2], ?_⟩
        rw [List.take_succ_cons, findFold_cons, h3]
        · rfl
        · intro r' hr'
          apply hne (r' ++ 13 :: 10 :: 32 :: r)
          calc a :: w = a :: (List.take p w ++ 13 :: 10 :: 32 :: r) := by rw [← h1]
            _ = (a :: List.take p w) ++ 13 :: 10 :: 32 :: r := rfl
            _ = _ := by rw [hr']; rfl

theorem findFold_append_F3 : ∀ (a r : Bytes), findFold a = none →
    findFold (a ++ 13 :: 10 :: 32 :: r) = some a.length := by
  intro a
  induction a with
  | nil => intro r _; exact findFold_F3 r
  | cons x a ih =>
    intro r h
    have h' := ih r (findFold_cons_none h)
    rw [List.cons_append, findFold_cons, h']
    · rfl
    · intro r' hr'
      rcases a with _ | ⟨y, _ | ⟨z, a⟩⟩
      · simp at hr'
      · simp at hr'
      · simp at hr'
        obtain ⟨rfl, rfl, rfl, _⟩ := hr'
        rw [findFold_F3] at h
        cases h

theorem findFold_append_some {w : Bytes} {pos : Nat} (h : findFold w = some pos) (x : Bytes) :
    findFold (w ++ x) = some pos := by
  obtain ⟨r, h1, h2, h3⟩ := findFold_some h
  rw [h1, List.append_assoc]
  have := findFold_append_F3 (w.take pos) (r ++ x) h3
  rw [h2] at this
  simpa using this

/-- No marker: none found. -/
theorem findFold_none_iff (w : Bytes) : findFold w = none ↔ ¬ hasFold w := by
  constructor
  · rintro h ⟨a, b, rfl⟩
    cases ha : findFold a with
    | none =>
      have := findFold_append_F3 a b ha
      simp only [List.append_assoc] at h
      rw [show [13, 10, 32] ++ b = 13 :: 10 :: 32 :: b from rfl] at h
      rw [this] at h; cases h
    | some p =>
      rw [List.append_assoc] at h
      rw [findFold_append_some ha] at h; cases h
  · intro h
    cases hf : findFold w with
    | none => rfl
    | some p =>
      obtain ⟨r, h1, _⟩ := findFold_some hf
      exact absurd ⟨w.take p, r, by rw [List.append_assoc]; exact h1.symm⟩ h

theorem removeFolds_of_none {w : Bytes} (h : findFold w = none) : removeFolds w = w := by
  induction w with
  | nil => rfl
  | cons a w ih =>
    rw [removeFolds_ne, ih (findFold_cons_none h)]
    intro r hr
    rw [hr, findFold_F3] at h
    cases h

theorem removeFolds_append_F3 (a r : Bytes) (h : findFold a = none) :
    removeFolds (a ++ 13 :: 10 :: 32 :: r) = a ++ removeFolds r := by
  induction a with
  | nil => simp only [List.nil_append]; rw [removeFolds, if_pos ⟨rfl, rfl, rfl⟩]
  | cons x a ih =>
    rw [List.cons_append, removeFolds_ne, ih (findFold_cons_none h)]
    · rfl
    · intro r' hr'
      rcases a with _ | ⟨y, _ | ⟨z, a⟩⟩
      · simp at hr'
      · simp at hr'
      · simp at hr'
        obtain ⟨rfl, rfl, rfl, _⟩ := hr'
        rw [findFold_F3] at h
        cases h

/-! ## The inner loop -/

/-- Stale octets: `j` copies of the last three octets of the slice. -/
def stale (j : Nat) (t : Bytes) : Bytes := (List.replicate j t).flatten

theorem stale_zero (t : Bytes) : stale 0 t = [] := rfl
theorem stale_succ (j : Nat) (t : Bytes) : stale (j + 1) t = t ++ stale j t := by
  simp [stale, List.replicate_succ]
theorem stale_succ' (j : Nat) (t : Bytes) : stale (j + 1) t = stale j t ++ t := by
  simp [stale, List.replicate_succ']
theorem stale_length (j : Nat) (a b c : UInt8) : (stale j [a, b, c]).length = 3 * j := by
  induction j with
  | zero => rfl
  | succ j ih => rw [stale_succ, List.length_append, ih]; simp; omega

/-- The three endings on which the inner loop never stops once it has removed a marker. -/
def isRot (t : Bytes) : Prop := t = [13, 10, 32] ∨ t = [32, 13, 10] ∨ t = [10, 32, 13]

instance (t : Bytes) : Decidable (isRot t) := by unfold isRot; infer_instance

theorem findFold_stale {a b c : UInt8} (h : ¬ isRot [a, b, c]) : ∀ j, findFold (stale j [a, b, c]) = none := by
  intro j
  induction j with
  | zero => rfl
  | succ j ih =>
    have h1 : ¬ (a = 13 ∧ b = 10 ∧ c = 32) := by
      rintro ⟨rfl, rfl, rfl⟩; exact h (Or.inl rfl)
    have h2 : ¬ (b = 13 ∧ c = 10 ∧ a = 32) := by
      rintro ⟨rfl, rfl, rfl⟩; exact h (Or.inr (Or.inl rfl))
    have h3 : ¬ (c = 13 ∧ a = 10 ∧ b = 32) := by
      rintro ⟨rfl, rfl, rfl⟩; exact h (Or.inr (Or.inr rfl))
    rw [stale_succ]
    cases j with
    | zero => simp [stale, findFold, h1]
    | succ j =>
      rw [stale_succ] at ih ⊢
      simp only [List.cons_append, List.nil_append] at ih ⊢
      rw [findFold, if_neg h1, findFold, if_neg h2, findFold, if_neg h3, ih]
      rfl

/-- A marker in `A ++ B` lies in `A` or in the last two octets of `A` followed by `B`. -/
theorem findFold_cross (A S B : Bytes) (hS : S.length = 2) (h1 : findFold (A ++ S) = none)
    (h2 : findFold (S ++ B) = none) : findFold (A ++ S ++ B) = none := by
  induction A with
  | nil => simpa using h2
  | cons x A ih =>
    have ih' := ih (findFold_cons_none h1)
    simp only [List.cons_append]
    rw [findFold_cons, ih']
    · rfl
    · intro r hr
      have : ∃ y z w, A ++ S = y :: z :: w := by
        rcases hAS : A ++ S with _ | ⟨y, _ | ⟨z, w⟩⟩
        · have := congrArg List.length hAS; simp [hS] at this
        · have := congrArg List.length hAS; simp [hS] at this
        · exact ⟨y, z, w, rfl⟩
      obtain ⟨y, z, w, hw⟩ := this
      rw [hw] at hr
      simp at hr
      obtain ⟨rfl, rfl, rfl, _⟩ := hr
      rw [List.cons_append, hw, findFold_F3] at h1
      cases h1

/-- The slice after `j` removals: the unprocessed data `D` of the original slice `P ++ D`, then `j` copies of the last
three octets `t` of the original slice.  If anything was removed, `D` starts right after a marker. -/
structure Win (D : Bytes) (j : Nat) (a b c : UInt8) : Prop where
  tail : ∃ P : Bytes, ∃ X, P ++ D = X ++ [a, b, c] ∧ (0 < j → ∃ P', P = P' ++ [13, 10, 32])

/-- What the last three octets look like, by the size of `D`. -/
theorem Win.cases {D : Bytes} {j : Nat} {a b c : UInt8} (h : Win D j a b c) (hj : 0 < j) :
    (D = [] ∧ a = 13 ∧ b = 10 ∧ c = 32) ∨ (D = [c] ∧ a = 10 ∧ b = 32) ∨ (D = [b, c] ∧ a = 32) ∨
    (∃ D', D = D' ++ [a, b, c]) := by
  obtain ⟨P, X, h1, h2⟩ := h.tail
  obtain ⟨P', rfl⟩ := h2 hj
  have key : ∀ (u v : Bytes), u.length = v.length → (∃ x y, x ++ u = y ++ v) → u = v := by
    rintro u v hl ⟨x, y, hxy⟩
    exact (List.append_inj' hxy hl).2
  rcases hD : D.reverse with _ | ⟨x, _ | ⟨y, _ | ⟨z, r⟩⟩⟩
  · have : D = [] := by simpa using hD
    subst this
    left
    have := key [13, 10, 32] [a, b, c] rfl ⟨P', X, by simpa using h1⟩
    simp at this
    exact ⟨rfl, this.1.symm, this.2.1.symm, this.2.2.symm⟩
  · have : D = [x] := by simpa using congrArg List.reverse hD
    subst this
    right; left
    have := key [10, 32, x] [a, b, c] rfl ⟨P' ++ [13], X, by simpa using h1⟩
    simp at this
    obtain ⟨rfl, rfl, rfl⟩ := this
    exact ⟨rfl, rfl, rfl⟩
  · have : D = [y, x] := by simpa using congrArg List.reverse hD
    subst this
    right; right; left
    have := key [32, y, x] [a, b, c] rfl ⟨P' ++ [13, 10], X, by simpa using h1⟩
    simp at this
    obtain ⟨rfl, rfl, rfl⟩ := this
    exact ⟨rfl, rfl⟩
  · have hD' : D = r.reverse ++ [z, y, x] := by simpa using congrArg List.reverse hD
    right; right; right
    have := key [z, y, x] [a, b, c] rfl ⟨P' ++ [13, 10, 32] ++ r.reverse, X, by
      rw [hD'] at h1; simpa using h1⟩
    exact ⟨r.reverse, by rw [hD', this]⟩

theorem findFold_Win_none {D : Bytes} {j : Nat} {a b c : UInt8} (h : Win D j a b c)
    (hrot : 0 < j → ¬ isRot [a, b, c]) (hD : findFold D = none) :
    findFold (D ++ stale j [a, b, c]) = none := by
  rcases Nat.eq_zero_or_pos j with rfl | hj
  · simpa [stale_zero] using hD
  have hr := hrot hj
  have hs := findFold_stale hr (j + 1)
  rw [stale_succ] at hs
  rcases h.cases hj with ⟨_, rfl, rfl, rfl⟩ | ⟨rfl, _, _⟩ | ⟨rfl, _⟩ | ⟨D', rfl⟩
  · exact absurd (Or.inl rfl) hr
  · exact findFold_cons_none (findFold_cons_none hs)
  · exact findFold_cons_none hs
  · have := findFold_cross (D' ++ [a]) [b, c] (stale j [a, b, c]) rfl (by simpa using hD)
      (findFold_cons_none hs)
    simpa using this

theorem last3_append (x : Bytes) (a b c : UInt8) :
    (x ++ [a, b, c]).drop ((x ++ [a, b, c]).length - 3) = [a, b, c] := by
  rw [show (x ++ [a, b, c]).length - 3 = x.length by simp]
  simp

/-- Number of markers removed by one leftmost pass. -/
def countFolds (w : Bytes) : Nat := (w.length - (removeFolds w).length) / 3

theorem removeFolds_length_le (w : Bytes) : (removeFolds w).length ≤ w.length := by
  induction hn : w.length using Nat.strongRecOn generalizing w with
  | _ n ih =>
    rcases w with _ | ⟨a, _ | ⟨b, _ | ⟨c, r⟩⟩⟩
    · simp [removeFolds]
    · simp [removeFolds] at hn ⊢; omega
    · simp [removeFolds] at hn ⊢; omega
    · rw [removeFolds]
      simp only [List.length_cons] at hn
      split
      · have := ih r.length (by omega) r rfl
        omega
      · have := ih (b :: c :: r).length (by simp; omega) (b :: c :: r) rfl
        simp only [List.length_cons] at this ⊢
        omega

/-- The last three octets of the window are those of the original slice. -/
theorem Win.last3 {D : Bytes} {j : Nat} {a b c : UInt8} (h : Win D j a b c) (hl : 0 < j ∨ 3 ≤ D.length) :
    ∃ x, D ++ stale j [a, b, c] = x ++ [a, b, c] := by
  rcases Nat.eq_zero_or_pos j with rfl | hj
  · obtain ⟨P, X, h1, _⟩ := h.tail
    have hl : 3 ≤ D.length := by omega
    refine ⟨D.take (D.length - 3), ?_⟩
    have e : P ++ D.take (D.length - 3) ++ D.drop (D.length - 3) = X ++ [a, b, c] := by
      rw [List.append_assoc, List.take_append_drop, h1]
    have := (List.append_inj' e (by simp; omega)).2
    rw [stale_zero, List.append_nil, ← this, List.take_append_drop]
  · obtain ⟨i, rfl⟩ : ∃ i, j = i + 1 := ⟨j - 1, by omega⟩
    exact ⟨D ++ stale i [a, b, c], by rw [stale_succ', List.append_assoc]⟩

/-- Window after removing the leftmost marker of `D`. -/
theorem Win.step {A r : Bytes} {j : Nat} {a b c : UInt8}
    (h : Win (A ++ 13 :: 10 :: 32 :: r) j a b c) : Win r (j + 1) a b c := by
  obtain ⟨P, X, h1, _⟩ := h.tail
  exact ⟨P ++ A ++ [13, 10, 32], X, by rw [← h1]; simp, fun _ => ⟨P ++ A, rfl⟩⟩

theorem squeeze_step {A r : Bytes} {j : Nat} {a b c : UInt8}
    (h : Win (A ++ 13 :: 10 :: 32 :: r) j a b c) (hA : findFold A = none) (fuel : Nat) (kept : Bytes)
    (n : Nat) :
    squeeze (fuel + 1) kept ((A ++ 13 :: 10 :: 32 :: r) ++ stale j [a, b, c]) n =
      squeeze fuel (kept ++ A) (r ++ stale (j + 1) [a, b, c]) (n + 3) := by
  have hf : findFold ((A ++ 13 :: 10 :: 32 :: r) ++ stale j [a, b, c]) = some A.length :=
    findFold_append_some (findFold_append_F3 A r hA) _
  rw [squeeze, hf]
  dsimp only
  have ht : ((A ++ 13 :: 10 :: 32 :: r) ++ stale j [a, b, c]).take A.length = A := by simp
  have hd : ((A ++ 13 :: 10 :: 32 :: r) ++ stale j [a, b, c]).drop A.length =
      13 :: 10 :: 32 :: (r ++ stale j [a, b, c]) := by simp
  rw [ht, hd]
  congr 1
  obtain ⟨x, hx⟩ := h.last3 (Or.inr (by simp; omega))
  -- the last three octets
  have h3 : ∃ y, 13 :: 10 :: 32 :: (r ++ stale j [a, b, c]) = y ++ [a, b, c] := by
    have e : A ++ (13 :: 10 :: 32 :: (r ++ stale j [a, b, c])) = x ++ [a, b, c] := by
      rw [← hx]; simp
    generalize hw : (13 :: 10 :: 32 :: (r ++ stale j [a, b, c])) = w at e ⊢
    have hwl : 3 ≤ w.length := by rw [← hw]; simp
    refine ⟨w.take (w.length - 3), ?_⟩
    have e' : A ++ w.take (w.length - 3) ++ w.drop (w.length - 3) = x ++ [a, b, c] := by
      rw [List.append_assoc, List.take_append_drop, e]
    have := (List.append_inj' e' (by simp; omega)).2
    rw [← this, List.take_append_drop]
  obtain ⟨y, hy⟩ := h3
  rw [show List.drop 3 (13 :: 10 :: 32 :: (r ++ stale j [a, b, c])) = r ++ stale j [a, b, c] from rfl]
  rw [hy, last3_append, stale_succ', List.append_assoc]

/-- If the slice does not end in one of the three bad ways the inner loop removes all markers, in one pass. -/
theorem squeeze_ok : ∀ (fuel : Nat) (D : Bytes) (j : Nat) (a b c : UInt8) (kept : Bytes),
    D.length < fuel → Win D j a b c → (0 < j ∨ hasFold D → ¬ isRot [a, b, c]) →
    squeeze fuel kept (D ++ stale j [a, b, c]) (3 * j) =
      .done (kept ++ removeFolds D, 3 * j + (D.length - (removeFolds D).length)) := by
  intro fuel
  induction fuel with
  | zero => intro D j a b c kept hl; omega
  | succ fuel ih =>
    intro D j a b c kept hl hw hrot
    cases hf : findFold D with
    | none =>
      have hn := findFold_Win_none hw (fun hj => hrot (Or.inl hj)) hf
      rw [squeeze, hn]
      dsimp only
      rw [if_neg (by rw [List.length_append, stale_length]; omega)]
      rw [removeFolds_of_none hf]
      congr 2
      · congr 1
        rw [List.length_append, stale_length, Nat.add_sub_cancel]
        simp
      · omega
    | some pos =>
      obtain ⟨r, h1, h2, h3⟩ := findFold_some hf
      generalize D.take pos = A at h1 h2 h3
      subst h1
      rw [squeeze_step hw h3]
      have hfold : hasFold (A ++ 13 :: 10 :: 32 :: r) := ⟨A, r, by simp⟩
      have := ih r (j + 1) a b c (kept ++ A) (by simp at hl; omega) hw.step
        (fun _ => hrot (Or.inr hfold))
      rw [show 3 * j + 3 = 3 * (j + 1) by omega, this, removeFolds_append_F3 A r h3]
      have hle := removeFolds_length_le r
      congr 2
      · simp
      · simp; omega

/-- A slice starting with a marker and repeating with period three is not changed by a removal: the loop never ends. -/
theorem squeeze_periodic (w : Bytes) (h1 : findFold w = some 0)
    (h2 : w.drop 3 ++ w.drop (w.length - 3) = w) : ∀ fuel kept n, squeeze fuel kept w n = .running := by
  intro fuel
  induction fuel with
  | zero => intros; rfl
  | succ fuel ih =>
    intro kept n
    rw [squeeze, h1]
    simp only [List.drop_zero, List.take_zero, h2]
    exact ih _ _

theorem stale_shift (j : Nat) (a b c : UInt8) :
    stale j [a, b, c] ++ [a] = a :: stale j [b, c, a] := by
  induction j with
  | zero => rfl
  | succ j ih => rw [stale_succ, List.append_assoc, ih, stale_succ]; rfl

theorem squeeze_at (A w : Bytes) (h1 : findFold A = none) (h0 : ∃ r, w = 13 :: 10 :: 32 :: r)
    (h2 : w.drop 3 ++ w.drop (w.length - 3) = w) : ∀ fuel kept n, squeeze fuel kept (A ++ w) n = .running := by
  intro fuel kept n
  obtain ⟨r, hr⟩ := h0
  cases fuel with
  | zero => rfl
  | succ fuel =>
    have hf : findFold (A ++ w) = some A.length := by rw [hr]; exact findFold_append_F3 A r h1
    rw [squeeze, hf]
    simp only [List.drop_left, h2]
    refine squeeze_periodic w ?_ h2 _ _ _
    rw [hr]; exact findFold_F3 r

theorem findFold_prefix {a b : Bytes} (h : findFold (a ++ b) = none) : findFold a = none := by
  cases hf : findFold a with
  | none => rfl
  | some p => rw [findFold_append_some hf] at h; cases h

/-- If the slice holds a marker and ends in one of the three bad ways, the inner loop never ends. -/
theorem squeeze_loops : ∀ (fuel : Nat) (D : Bytes) (j : Nat) (a b c : UInt8) (kept : Bytes) (n : Nat),
    Win D j a b c → isRot [a, b, c] → (0 < j ∨ hasFold D) →
    squeeze fuel kept (D ++ stale j [a, b, c]) n = .running := by
  intro fuel
  induction fuel with
  | zero => intros; rfl
  | succ fuel ih =>
    intro D j a b c kept n hw hrot hj
    cases hf : findFold D with
    | some pos =>
      obtain ⟨r, h1, h2, h3⟩ := findFold_some hf
      generalize D.take pos = A at h1 h2 h3
      subst h1
      rw [squeeze_step hw h3]
      exact ih _ _ _ _ _ _ _ hw.step hrot (Or.inl (by omega))
    | none =>
      have hj : 0 < j := by
        rcases hj with hj | hj
        · exact hj
        · exact absurd hj ((findFold_none_iff D).1 hf)
      have hcase := hw.cases hj
      obtain ⟨i, rfl⟩ : ∃ i, j = i + 1 := ⟨j - 1, by omega⟩
      rcases hrot with ht | ht | ht
      · simp only [List.cons.injEq, and_true] at ht
        obtain ⟨rfl, rfl, rfl⟩ := ht
        rcases hcase with ⟨rfl, _⟩ | ⟨_, h, _⟩ | ⟨_, h⟩ | ⟨D', rfl⟩
        · refine squeeze_at [] _ rfl ⟨stale i [13, 10, 32], by rw [stale_succ]; rfl⟩ ?_ _ _ _
          rw [show (stale (i + 1) [13, 10, 32]).length - 3 = (stale i [13, 10, 32]).length by
            rw [stale_length, stale_length]; omega]
          conv => lhs; rw [stale_succ]
          rw [show List.drop 3 ([13, 10, 32] ++ stale i [13, 10, 32]) = stale i [13, 10, 32] from rfl]
          rw [← stale_succ, stale_succ', List.drop_left]
        · cases h
        · cases h
        · rw [findFold_append_F3 _ _ (findFold_prefix hf)] at hf; cases hf
      · simp only [List.cons.injEq, and_true] at ht
        obtain ⟨rfl, rfl, rfl⟩ := ht
        have hD : ∃ D0, D = D0 ++ [13, 10] := by
          rcases hcase with ⟨_, h, _⟩ | ⟨_, h, _⟩ | ⟨rfl, h⟩ | ⟨D', rfl⟩
          · cases h
          · cases h
          · exact ⟨[], rfl⟩
          · exact ⟨D' ++ [32], by simp⟩
        obtain ⟨D0, rfl⟩ := hD
        have hfl : ∀ k, [13, 10] ++ stale k [32, 13, 10] = stale k [13, 10, 32] ++ [13, 10] := by
          intro k
          induction k with
          | zero => rfl
          | succ k ihk =>
            rw [stale_succ, stale_succ, List.append_assoc, ← ihk]; rfl
        rw [List.append_assoc]
        refine squeeze_at D0 _ (findFold_prefix hf) ⟨stale i [13, 10, 32] ++ [13, 10], by
          rw [hfl, stale_succ]; rfl⟩ ?_ _ _ _
        rw [show List.drop 3 ([13, 10] ++ stale (i + 1) [32, 13, 10]) =
          [13, 10] ++ stale i [32, 13, 10] by rw [stale_succ]; rfl]
        conv => lhs; rhs; rw [stale_succ', ← List.append_assoc, last3_append]
        rw [stale_succ', List.append_assoc]
      · simp only [List.cons.injEq, and_true] at ht
        obtain ⟨rfl, rfl, rfl⟩ := ht
        have hD : ∃ D0, D = D0 ++ [13] := by
          rcases hcase with ⟨_, h, _⟩ | ⟨rfl, _, _⟩ | ⟨rfl, h⟩ | ⟨D', rfl⟩
          · cases h
          · exact ⟨[], rfl⟩
          · cases h
          · exact ⟨D' ++ [10, 32], by simp⟩
        obtain ⟨D0, rfl⟩ := hD
        rw [List.append_assoc]
        refine squeeze_at D0 _ (findFold_prefix hf) ⟨13 :: stale i [10, 32, 13], by
          rw [stale_succ]; rfl⟩ ?_ _ _ _
        rw [show List.drop 3 ([13] ++ stale (i + 1) [10, 32, 13]) =
          [13] ++ stale i [10, 32, 13] by rw [stale_succ]; rfl]
        conv => lhs; rhs; rw [stale_succ', ← List.append_assoc, last3_append]
        rw [stale_succ', List.append_assoc]

/-- `b` ends in one of the three bad ways. -/
def badEnd (b : Bytes) : Prop := ∃ X t, b = X ++ t ∧ isRot t

theorem hasFold_length {b : Bytes} (h : hasFold b) : 3 ≤ b.length := by
  obtain ⟨x, y, rfl⟩ := h
  simp; omega

theorem split_last3 {b : Bytes} (h : 3 ≤ b.length) : ∃ X x y z, b = X ++ [x, y, z] := by
  rcases hD : b.reverse with _ | ⟨x, _ | ⟨y, _ | ⟨z, r⟩⟩⟩
  · have := congrArg List.length hD; simp at this; subst this; simp at h
  · have := congrArg List.length hD; simp at this; omega
  · have := congrArg List.length hD; simp at this; omega
  · exact ⟨r.reverse, z, y, x, by simpa using congrArg List.reverse hD⟩

/-- The inner loop, positive case. -/
theorem squeeze_good (fuel : Nat) (b : Bytes) (hl : b.length < fuel) (h : hasFold b → ¬ badEnd b) :
    squeeze fuel [] b 0 = .done (removeFolds b, b.length - (removeFolds b).length) := by
  by_cases hb : hasFold b
  · obtain ⟨X, x, y, z, rfl⟩ := split_last3 (hasFold_length hb)
    have := squeeze_ok fuel (X ++ [x, y, z]) 0 x y z [] hl ⟨[], X, by simp, fun h => by omega⟩
      (fun _ hr => h hb ⟨X, _, rfl, hr⟩)
    simpa [stale_zero] using this
  · have hf := (findFold_none_iff b).2 hb
    cases fuel with
    | zero => omega
    | succ fuel =>
      rw [squeeze, hf, removeFolds_of_none hf]
      simp

/-- The inner loop, negative case. -/
theorem squeeze_bad (fuel : Nat) (b kept : Bytes) (n : Nat) (hb : hasFold b) (h : badEnd b) :
    squeeze fuel kept b n = .running := by
  obtain ⟨X, t, rfl, hr⟩ := h
  have ht : ∃ x y z, t = [x, y, z] := by
    rcases hr with rfl | rfl | rfl <;> exact ⟨_, _, _, rfl⟩
  obtain ⟨x, y, z, rfl⟩ := ht
  have := squeeze_loops fuel (X ++ [x, y, z]) 0 x y z kept n ⟨[], X, by simp, fun h => by omega⟩ hr
    (Or.inr hb)
  simpa [stale_zero] using this

end Ics
