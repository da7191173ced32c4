import Verif.FolderOctets
/-!
# Runs of octets without CR and LF in what the folder writes
-/

namespace Ics

open Spec

/-- The length of the longest run of octets without CR and LF, when `cur` of them have just been seen. -/
def longRun (cur : Nat) : Bytes → Nat
  | [] => cur
  | b :: r => if b = 13 ∨ b = 10 then max cur (longRun 0 r) else longRun (cur + 1) r

theorem longRun_mono {m n : Nat} (h : m ≤ n) : ∀ x : Bytes, longRun m x ≤ longRun n x := by
  intro x
  induction x generalizing m n with
  | nil => exact h
  | cons b r ih =>
    simp only [longRun]
    split
    · omega
    · exact ih (by omega)

theorem le_longRun (n : Nat) (x : Bytes) : n ≤ longRun n x := by
  induction x generalizing n with
  | nil => exact Nat.le_refl _
  | cons b r ih =>
    simp only [longRun]
    split
    · omega
    · have := ih (n + 1); omega

theorem longRun_free {u : Bytes} (h : ∀ b ∈ u, b ≠ 13 ∧ b ≠ 10) (n : Nat) (x : Bytes) : longRun n (u ++ x) = longRun (n + u.length) x := by
  induction u generalizing n with
  | nil => rfl
  | cons b r ih =>
    have hb := h b (.head _)
    rw [List.cons_append, longRun, if_neg (by simp [hb]), ih (fun b hb => h b (.tail _ hb)), List.length_cons]
    congr 1
    omega

theorem longRun_infix {x y : Bytes} (hi : x <:+: y) (h : ∀ b ∈ x, b ≠ 13 ∧ b ≠ 10) : x.length ≤ longRun 0 y := by
  obtain ⟨a, b, rfl⟩ := hi
  rw [List.append_assoc]
  generalize 0 = n
  induction a generalizing n with
  | nil =>
    rw [List.nil_append, longRun_free h]
    have := le_longRun (n + x.length) b
    omega
  | cons c a ih =>
    rw [List.cons_append, longRun]
    split
    · have := ih 0; omega
    · exact ih (n + 1)

/-- The runs in what is written, when the last `cur` octets of the line are one: with the column in an octet, it may be that up to four octets are not counted. -/
theorem longRun_foldU (us : List Bytes) (hp : ∀ u ∈ us, IsPiece u) : ∀ (col : UInt8) (cur : Nat), cur = 0 ∨ (cur ≤ col.toNat + 4 ∧ col.toNat ≤ 75) → longRun cur (foldU col us) ≤ 79 := by
  induction us with
  | nil => intro col cur h; simp only [foldU, longRun]; omega
  | cons u us ih =>
    intro col cur h
    have hu := hp u (.head _)
    have hl := hu.length
    have ih := ih fun u hu => hp u (.tail _ hu)
    have hw : (UInt8.ofNat u.length).toNat = u.length := by rw [UInt8.toNat_ofNat']; omega
    have hcol := col.toNat_lt
    rw [foldU]
    by_cases h1 : u = [10]
    · subst h1
      have := ih (stepU col [10]).1 0 (.inl rfl)
      have e : (stepU col [10]).2 = [10] := rfl
      rw [e, List.singleton_append, longRun, if_pos (Or.inr rfl)]
      omega
    · by_cases h2 : u = [13]
      · subst h2
        have := ih (stepU col [13]).1 0 (.inl rfl)
        have e : (stepU col [13]).2 = [13] := rfl
        rw [e, List.singleton_append, longRun, if_pos (Or.inl rfl)]
        omega
      · have hfree : ∀ b ∈ u, b ≠ 13 ∧ b ≠ 10 := fun b hb => ⟨hu.no 13 (by omega) h2 b hb, hu.no 10 (by omega) h1 b hb⟩
        have hadd : (col + UInt8.ofNat u.length).toNat = (col.toNat + u.length) % 256 := by rw [UInt8.toNat_add, hw]
        by_cases h3 : col + UInt8.ofNat u.length > maxLineLength
        · have e : stepU col u = (UInt8.ofNat u.length + 1, eol ++ u) := by unfold stepU; simp only [if_neg h1, if_neg h2, if_pos h3]
          have hw1 : (UInt8.ofNat u.length + 1).toNat = u.length + 1 := by
            rw [UInt8.toNat_add, hw]
            have : (1 : UInt8).toNat = 1 := rfl
            omega
          have := ih (UInt8.ofNat u.length + 1) (0 + 1 + u.length) (.inr ⟨by omega, by omega⟩)
          rw [e, List.append_assoc]
          show longRun cur (13 :: 10 :: 32 :: (u ++ foldU (UInt8.ofNat u.length + 1) us)) ≤ 79
          rw [longRun, if_pos (Or.inl rfl), longRun, if_pos (Or.inr rfl), longRun, if_neg (by decide), longRun_free hfree]
          omega
        · have e : stepU col u = (col + UInt8.ofNat u.length, u) := by unfold stepU; simp only [if_neg h1, if_neg h2, if_neg h3]
          have h4 : (col + UInt8.ofNat u.length).toNat ≤ 75 := by
            have : ¬ (75 : UInt8) < col + UInt8.ofNat u.length := h3
            rw [UInt8.lt_iff_toNat_lt] at this
            exact Nat.le_of_not_lt this
          rw [e, longRun_free hfree]
          refine ih _ _ (.inr ⟨?_, h4⟩)
          rw [hadd] at h4 ⊢
          omega

/-- They have at most 75 octets if there are not 177 carriage returns in a row; `k` of them have just been seen. -/
theorem longRun_foldU_few (us : List Bytes) (hp : ∀ u ∈ us, IsPiece u) : ∀ (col : UInt8) (cur k : Nat), cur ≤ 75 → cur ≤ col.toNat → col.toNat ≤ 75 + k → k ≤ 176 →
    ¬ List.replicate 177 13 <:+: List.replicate k 13 ++ us.flatten → longRun cur (foldU col us) ≤ 75 := by
  induction us with
  | nil => intro col cur k h _ _ _ _; exact h
  | cons u us ih =>
    intro col cur k h0 h01 h02 hk hno
    have hu := hp u (.head _)
    have hl := hu.length
    have ih := ih fun u hu => hp u (.tail _ hu)
    have hw : (UInt8.ofNat u.length).toNat = u.length := by rw [UInt8.toNat_ofNat']; omega
    have hno' : ¬ List.replicate 177 13 <:+: List.replicate 0 13 ++ us.flatten := by
      intro hi
      apply hno
      rw [List.flatten_cons, ← List.append_assoc]
      exact hi.trans (List.suffix_append _ _).isInfix
    rw [foldU]
    by_cases h1 : u = [10]
    · subst h1
      have := ih (stepU col [10]).1 0 0 (by omega) (Nat.zero_le _) (Nat.zero_le _) (by omega) hno'
      have e : (stepU col [10]).2 = [10] := rfl
      rw [e, List.singleton_append, longRun, if_pos (Or.inr rfl)]
      omega
    · by_cases h2 : u = [13]
      · subst h2
        have hno2 : ¬ List.replicate 177 13 <:+: List.replicate (k + 1) 13 ++ us.flatten := by
          have : List.replicate (k + 1) (13 : UInt8) = List.replicate k 13 ++ [13] := List.replicate_succ'
          rw [this, List.append_assoc]
          exact hno
        have hk2 : k + 1 ≤ 176 := by
          refine Nat.le_of_not_lt fun hlt => hno2 ?_
          have : k + 1 = 177 := by omega
          rw [this]
          exact (List.prefix_append _ _).isInfix
        have e1 : (stepU col [13]).1 = col + 1 := rfl
        have e2 : (col + 1).toNat = col.toNat + 1 := by
          rw [UInt8.toNat_add]
          have : (1 : UInt8).toNat = 1 := rfl
          omega
        have := ih (stepU col [13]).1 0 (k + 1) (by omega) (by omega) (by rw [e1, e2]; omega) hk2 hno2
        have e : (stepU col [13]).2 = [13] := rfl
        rw [e, List.singleton_append, longRun, if_pos (Or.inl rfl)]
        omega
      · have hfree : ∀ b ∈ u, b ≠ 13 ∧ b ≠ 10 := fun b hb => ⟨hu.no 13 (by omega) h2 b hb, hu.no 10 (by omega) h1 b hb⟩
        have hadd : (col + UInt8.ofNat u.length).toNat = col.toNat + u.length := by rw [UInt8.toNat_add, hw]; omega
        by_cases h3 : col + UInt8.ofNat u.length > maxLineLength
        · have e : stepU col u = (UInt8.ofNat u.length + 1, eol ++ u) := by unfold stepU; simp only [if_neg h1, if_neg h2, if_pos h3]
          have hw1 : (UInt8.ofNat u.length + 1).toNat = u.length + 1 := by
            rw [UInt8.toNat_add, hw]
            have : (1 : UInt8).toNat = 1 := rfl
            omega
          have := ih (UInt8.ofNat u.length + 1) (0 + 1 + u.length) 0 (by omega) (by omega) (by omega) (by omega) hno'
          rw [e, List.append_assoc]
          show longRun cur (13 :: 10 :: 32 :: (u ++ foldU (UInt8.ofNat u.length + 1) us)) ≤ 75
          rw [longRun, if_pos (Or.inl rfl), longRun, if_pos (Or.inr rfl), longRun, if_neg (by decide), longRun_free hfree]
          omega
        · have e : stepU col u = (col + UInt8.ofNat u.length, u) := by unfold stepU; simp only [if_neg h1, if_neg h2, if_neg h3]
          have h4 : (col + UInt8.ofNat u.length).toNat ≤ 75 := by
            have : ¬ (75 : UInt8) < col + UInt8.ofNat u.length := h3
            rw [UInt8.lt_iff_toNat_lt] at this
            exact Nat.le_of_not_lt this
          rw [e, longRun_free hfree]
          exact ih (col + UInt8.ofNat u.length) _ 0 (by omega) (by omega) (by omega) (by omega) hno'

theorem physLinesAux_infix : ∀ (n : Nat) (x : Bytes), x.length ≤ n → ∀ (cur l : Bytes), l ∈ physLinesAux cur x → l <:+: cur ++ x := by
  intro n
  induction n with
  | zero =>
    intro x hx cur l hl
    obtain rfl := List.length_eq_zero_iff.1 (Nat.le_zero.1 hx)
    simp only [physLinesAux, List.mem_singleton] at hl
    subst hl
    exact (List.prefix_append _ _).isInfix
  | succ n ih =>
    intro x hx cur l hl
    match x with
    | [] =>
      simp only [physLinesAux, List.mem_singleton] at hl
      subst hl
      exact (List.prefix_append _ _).isInfix
    | [b] =>
      simp only [physLinesAux, List.mem_singleton] at hl
      subst hl
      exact List.infix_refl _
    | b :: b' :: r =>
      simp only [List.length_cons] at hx
      rw [physLinesAux] at hl
      split at hl
      · rcases List.mem_cons.1 hl with rfl | hl
        · exact (List.prefix_append _ _).isInfix
        · have : r <:+ cur ++ b :: b' :: r := ⟨cur ++ [b, b'], by simp⟩
          exact (ih r (by omega) [] l hl).trans this.isInfix
      · have := ih (b' :: r) (by simp only [List.length_cons]; omega) (cur ++ [b]) l hl
        rwa [List.append_assoc, List.singleton_append] at this

theorem physLines_infix {x l : Bytes} (h : l ∈ physLines x) : l <:+: x := physLinesAux_infix x.length x (Nat.le_refl _) [] l h

end Ics
