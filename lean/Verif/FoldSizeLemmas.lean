import Verif.FoldingProofs
/-!
# Lemmas: how many octets folding adds
-/

namespace Ics

theorem ucol_le (col : UInt8) (n : Nat) (h : n ≤ 4) : (col + UInt8.ofNat n).toNat ≤ col.toNat + n := by
  rw [UInt8.toNat_add, UInt8.toNat_ofNat']
  omega

/-- One fold, of three octets, in 71 octets. -/
theorem foldStr_size (s : Str) : ∀ col : UInt8, 71 * (utf8 (foldStr col s)).length ≤ 74 * (utf8 s).length + 3 * col.toNat := by
  induction s with
  | nil => intro col; simp [foldStr, utf8]
  | cons c s ih =>
    intro col
    have hc := encodeChar_length c
    unfold foldStr
    unfold stepCol
    dsimp only
    split
    · have := ih 0
      simp only [List.cons_append, List.nil_append, utf8_cons, List.length_append] at *
      have h0 : (0 : UInt8).toNat = 0 := rfl
      omega
    · split
      · have := ih (col + UInt8.ofNat (encodeChar c).length)
        have := ucol_le col _ hc.2
        simp only [List.cons_append, List.nil_append, utf8_cons, List.length_append] at *
        omega
      · split
        · next h =>
          have h1 := ih (UInt8.ofNat (encodeChar c).length + 1)
          have h2 : (UInt8.ofNat (encodeChar c).length + 1).toNat ≤ (encodeChar c).length + 1 := by
            rw [UInt8.toNat_add, UInt8.toNat_ofNat']
            have : (1 : UInt8).toNat = 1 := rfl
            omega
          have h3 := ucol_le col _ hc.2
          have h4 : 75 < (col + UInt8.ofNat (encodeChar c).length).toNat := UInt8.lt_iff_toNat_lt.1 h
          have e : ∀ t, utf8 (['\r', '\n', ' ', c] ++ t) = 13 :: 10 :: 32 :: (encodeChar c ++ utf8 t) := fun _ => rfl
          rw [e]
          simp only [utf8_cons, List.length_append, List.length_cons] at *
          omega
        · have := ih (col + UInt8.ofNat (encodeChar c).length)
          have := ucol_le col _ hc.2
          simp only [List.cons_append, List.nil_append, utf8_cons, List.length_append] at *
          omega

theorem utf8_length (s : Str) : (utf8 s).length ≤ 4 * s.length := by
  induction s with
  | nil => simp [utf8]
  | cons c s ih =>
    have := encodeChar_length c
    simp only [utf8_cons, List.length_append, List.length_cons] at *
    omega

end Ics
