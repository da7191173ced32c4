import Verif.Basic
/-!
# UTF-8, as `unicode/utf8` implements it

`folder.go:29` calls `utf8.DecodeRune`; everything else only needs the encoding of a rune.
-/

namespace Ics

/-- `[]byte`, e.g. folder.go:18, types.go:20. -/
abbrev Bytes := List UInt8

/-- Octet from a natural number (`byte(n)`).  Go library, not in /repo; in package unicode/utf8. -/
def byte (n : Nat) : UInt8 := UInt8.ofNat n

/-- `utf8.EncodeRune` / the UTF-8 representation of a rune in a Go string.  Go library, not in /repo; called at params.go:1209, types.go:1275, 1309. -/
def encodeChar (c : Char) : Bytes :=
  let v := c.toNat
  if v < 0x80 then [byte v]
  else if v < 0x800 then [byte (0xC0 + v / 64), byte (0x80 + v % 64)]
  else if v < 0x10000 then
    [byte (0xE0 + v / 4096), byte (0x80 + v / 64 % 64), byte (0x80 + v % 64)]
  else
    [byte (0xF0 + v / 262144), byte (0x80 + v / 4096 % 64), byte (0x80 + v / 64 % 64),
      byte (0x80 + v % 64)]

/-- The octets of a string.  The conversion at folder.go:65. -/
def utf8 (s : Str) : Bytes := s.flatMap encodeChar

/-- `accept` ranges of `utf8.DecodeRune`.  Go library, not in /repo; called by `utf8.DecodeRune`, folder.go:29. -/
def inRange (b : UInt8) (lo hi : Nat) : Bool := lo ≤ b.toNat && b.toNat ≤ hi

/-- `(RuneError, 1)`.  Go library, not in /repo; result of `utf8.DecodeRune`, folder.go:29. -/
def badRune : Nat × Nat := (0xFFFD, 1)

/-- `utf8.DecodeRune`: the first rune and its width; `(RuneError, 1)` on invalid encodings,
`(RuneError, 0)` on empty input.  Go library, not in /repo; called at folder.go:29. -/
def decodeRune : Bytes → Nat × Nat
  | [] => (0xFFFD, 0)
  | b0 :: r =>
    let x := b0.toNat
    if x < 0x80 then (x, 1)
    else if x < 0xC2 then badRune
    else if x < 0xE0 then
      match r with
      | b1 :: _ =>
        if inRange b1 0x80 0xBF then ((x - 0xC0) * 64 + (b1.toNat - 0x80), 2) else badRune
      | [] => badRune
    else if x < 0xF0 then
      match r with
      | b1 :: b2 :: _ =>
        if inRange b1 (if x = 0xE0 then 0xA0 else 0x80) (if x = 0xED then 0x9F else 0xBF)
            && inRange b2 0x80 0xBF then
          ((x - 0xE0) * 4096 + (b1.toNat - 0x80) * 64 + (b2.toNat - 0x80), 3)
        else badRune
      | _ => badRune
    else if x < 0xF5 then
      match r with
      | b1 :: b2 :: b3 :: _ =>
        if inRange b1 (if x = 0xF0 then 0x90 else 0x80) (if x = 0xF4 then 0x8F else 0xBF)
            && inRange b2 0x80 0xBF && inRange b3 0x80 0xBF then
          ((x - 0xF0) * 262144 + (b1.toNat - 0x80) * 4096 + (b2.toNat - 0x80) * 64
            + (b3.toNat - 0x80), 4)
        else badRune
      | _ => badRune
    else badRune

/-! ## Lemmas -/

theorem byte_toNat {n : Nat} (h : n < 256) : (byte n).toNat = n := by
  simp [byte, UInt8.toNat_ofNat']; omega

theorem encodeChar_length (c : Char) : 1 ≤ (encodeChar c).length ∧ (encodeChar c).length ≤ 4 := by
  unfold encodeChar
  dsimp only
  split
  · simp
  split
  · simp
  split <;> simp

theorem encodeChar_ne_nil (c : Char) : encodeChar c ≠ [] := by
  intro h
  have := (encodeChar_length c).1
  rw [h] at this
  simp at this

theorem char_range (c : Char) : c.toNat < 0xD800 ∨ (0xDFFF < c.toNat ∧ c.toNat < 0x110000) := by
  have := c.valid
  simp [UInt32.isValidChar, Nat.isValidChar] at this
  exact this

theorem decodeRune_encodeChar (c : Char) (rest : Bytes) :
    decodeRune (encodeChar c ++ rest) = (c.toNat, (encodeChar c).length) := by
  have hv := char_range c
  unfold encodeChar
  dsimp only
  generalize c.toNat = v at hv
  split
  · next h => simp [decodeRune, byte_toNat (show v < 256 by omega), h]
  split
  · next h1 h2 =>
    have e0 := byte_toNat (show 0xC0 + v / 64 < 256 by omega)
    have e1 := byte_toNat (show 0x80 + v % 64 < 256 by omega)
    simp only [List.cons_append, List.nil_append, decodeRune, inRange, e0, e1]
    rw [if_neg (by omega), if_neg (by omega), if_pos (by omega), if_pos (by simp; omega)]
    simp; omega
  split
  · next h1 h2 h3 =>
    have e0 := byte_toNat (show 0xE0 + v / 4096 < 256 by omega)
    have e1 := byte_toNat (show 0x80 + v / 64 % 64 < 256 by omega)
    have e2 := byte_toNat (show 0x80 + v % 64 < 256 by omega)
    simp only [List.cons_append, List.nil_append, decodeRune, inRange, e0, e1, e2]
    rw [if_neg (by omega), if_neg (by omega), if_neg (by omega), if_pos (by omega), if_pos]
    · simp; omega
    · simp only [Bool.and_eq_true, decide_eq_true_eq]
      refine ⟨⟨?_, ?_⟩, ?_, ?_⟩
      · split <;> omega
      · split <;> omega
      · omega
      · omega
  · next h1 h2 h3 =>
    have e0 := byte_toNat (show 0xF0 + v / 262144 < 256 by omega)
    have e1 := byte_toNat (show 0x80 + v / 4096 % 64 < 256 by omega)
    have e2 := byte_toNat (show 0x80 + v / 64 % 64 < 256 by omega)
    have e3 := byte_toNat (show 0x80 + v % 64 < 256 by omega)
    simp only [List.cons_append, List.nil_append, decodeRune, inRange, e0, e1, e2, e3]
    rw [if_neg (by omega), if_neg (by omega), if_neg (by omega), if_neg (by omega),
      if_pos (by omega), if_pos]
    · simp; omega
    · simp only [Bool.and_eq_true, decide_eq_true_eq]
      refine ⟨⟨⟨?_, ?_⟩, ?_, ?_⟩, ?_, ?_⟩
      · split <;> omega
      · split <;> omega
      all_goals omega

/-- The width `utf8.DecodeRune` reports is between 1 and 4 and within the data. -/
theorem decodeRune_size (b : UInt8) (r : Bytes) :
    1 ≤ (decodeRune (b :: r)).2 ∧ (decodeRune (b :: r)).2 ≤ 4 ∧
      (decodeRune (b :: r)).2 ≤ (b :: r).length := by
  unfold decodeRune
  dsimp only
  split
  · simp
  split
  · simp [badRune]
  split
  · rcases r with _ | ⟨b1, r⟩
    · simp [badRune]
    · dsimp only; split <;> simp [badRune]
  split
  · rcases r with _ | ⟨b1, _ | ⟨b2, r⟩⟩
    · simp [badRune]
    · simp [badRune]
    · dsimp only
      generalize (inRange b1 _ _ && inRange b2 _ _) = g
      cases g <;> simp [badRune]
  split
  · rcases r with _ | ⟨b1, _ | ⟨b2, _ | ⟨b3, r⟩⟩⟩
    · simp [badRune]
    · simp [badRune]
    · simp [badRune]
    · dsimp only
      generalize (inRange b1 _ _ && inRange b2 _ _ && inRange b3 _ _) = g
      cases g <;> simp [badRune]
  · simp [badRune]

theorem utf8_nil : utf8 [] = [] := rfl
theorem utf8_cons (c : Char) (s : Str) : utf8 (c :: s) = encodeChar c ++ utf8 s := rfl
theorem utf8_append (s t : Str) : utf8 (s ++ t) = utf8 s ++ utf8 t := by
  simp [utf8]

/-- Reading runes from octets until the end; invalid octets become U+FFFD.  Go library, not in /repo; what the parser reads, tokeniser.go:39. -/
def runesF : Nat → Bytes → Str
  | 0, _ => []
  | _ + 1, [] => []
  | f + 1, b :: r =>
    let (v, s) := decodeRune (b :: r)
    Char.ofNat v :: runesF f ((b :: r).drop s)

/-- All runes of an octet string. Simplified: octets that are not valid UTF-8 are replaced
by U+FFFD here, whereas Go strings keep them; statements using this function are about valid UTF-8.  Go library, not in /repo; what the parser reads, tokeniser.go:39. -/
def runes (b : Bytes) : Str := runesF b.length b

theorem Char_ofNat_toNat (c : Char) : Char.ofNat c.toNat = c := by
  simp

theorem runesF_utf8 (s : Str) (f : Nat) (h : (utf8 s).length ≤ f) : runesF f (utf8 s) = s := by
  induction s generalizing f with
  | nil => cases f <;> rfl
  | cons c cs ih =>
    rw [utf8_cons] at h ⊢
    have hl := encodeChar_length c
    rw [List.length_append] at h
    rcases f with _ | f
    · omega
    rcases he : encodeChar c with _ | ⟨b, r⟩
    · exact absurd he (encodeChar_ne_nil c)
    have hd := decodeRune_encodeChar c (utf8 cs)
    rw [he] at hd
    simp only [List.cons_append] at hd ⊢
    simp only [runesF, hd]
    rw [Char_ofNat_toNat]
    congr 1
    have : (b :: (r ++ utf8 cs)).drop (b :: r).length = utf8 cs := by
      rw [← List.cons_append, List.drop_left]
    rw [this]
    apply ih
    omega

/-- Reading back the runes of a string's octets gives the string. -/
theorem runes_utf8 (s : Str) : runes (utf8 s) = s := runesF_utf8 s _ (Nat.le_refl _)

theorem utf8_injective {s t : Str} (h : utf8 s = utf8 t) : s = t := by
  rw [← runes_utf8 s, ← runes_utf8 t, h]

end Ics
