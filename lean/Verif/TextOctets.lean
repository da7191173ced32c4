import Verif.Text
import Verif.Utf8
/-!
# Model of Text and MText on octets (types.go:1293-1371)

A Go string is a sequence of octets that need not be UTF-8.  `Text` of the module `Verif.Text` has runes; here are the same functions with the octets, for
all Go strings.  Only writing and validation: reading goes through the parser library, which is not in the sandbox.
-/

namespace Ics

/-- The switch of `Text.encode` (types.go:1298-1311) for the value of one rune; `utf8.EncodeRune` in the last case. -/
def escapeB (v : Nat) : Bytes :=
  if v = 0x5c then [0x5c, 0x5c]
  else if v = 0x0a then [0x5c, 0x6e]
  else if v = 0x3b then [0x5c, 0x3b]
  else if v = 0x2c then [0x5c, 0x2c]
  else encodeChar (Char.ofNat v)

/-- The loop `for _, c := range t` of `Text.encode` (types.go:1297-1312): the runes of a Go string, with U+FFFD for each octet that is not part of the encoding of
a rune.  The fuel is the number of octets. -/
def Text.encodeBF : Nat → Bytes → Bytes
  | 0, _ => []
  | _ + 1, [] => []
  | f + 1, b :: r =>
    let (v, s) := decodeRune (b :: r)
    escapeB v ++ Text.encodeBF f ((b :: r).drop s)

/-- `Text.encode` (types.go:1293-1315) for any Go string. -/
def Text.encodeB (t : Bytes) : Bytes := Text.encodeBF t.length t

/-- The octets of `nonsafeChars[:31]` (tokeniser.go:22). -/
def isCtl31B (b : UInt8) : Bool := b.toNat ≤ 0x08 || (0x0b ≤ b.toNat && b.toNat ≤ 0x1f) || b.toNat == 0x7f

/-- `Text.valid` (types.go:1317-1323) for any Go string; `strings.ContainsAny` with ASCII characters looks at octets. -/
def Text.validB (t : Bytes) : Res Unit := Res.guard .invalidText (!t.any isCtl31B)

/-- `MText.encode` (types.go:1353-1361) for any Go strings. -/
def MText.encodeB : List Bytes → Bytes
  | [] => []
  | [t] => Text.encodeB t
  | t :: ts => Text.encodeB t ++ 0x2c :: MText.encodeB ts

/-- `MText.valid` (types.go:1363-1371) for any Go strings. -/
def MText.validB : List Bytes → Res Unit
  | [] => .ok ()
  | t :: ts => do
    Text.validB t
    MText.validB ts

/-! ## Lemmas -/

/-- `utf8.DecodeRune` gives a rune whose encoding the octets start with, or U+FFFD for an octet that is not ASCII. -/
theorem decodeRune_step (b : UInt8) (r : Bytes) :
    (decodeRune (b :: r) = (0xFFFD, 1) ∧ 128 ≤ b.toNat) ∨
    ∃ c : Char, decodeRune (b :: r) = (c.toNat, (encodeChar c).length) ∧ ∃ rest, b :: r = encodeChar c ++ rest := by
  have mk : ∀ v : Nat, (v < 0xD800 ∨ (0xDFFF < v ∧ v < 0x110000)) → ∃ c : Char, c.toNat = v := by
    intro v hv
    have h : v.isValidChar := by simpa [Nat.isValidChar] using hv
    exact ⟨Char.ofNat v, by simp [Char.ofNat, h, Char.ofNatAux, Char.toNat]⟩
  have good : ∀ (v s : Nat), (v < 0xD800 ∨ (0xDFFF < v ∧ v < 0x110000)) → decodeRune (b :: r) = (v, s) →
      (∀ c : Char, c.toNat = v → (encodeChar c).length = s ∧ ∃ rest, b :: r = encodeChar c ++ rest) →
      ∃ c : Char, decodeRune (b :: r) = (c.toNat, (encodeChar c).length) ∧ ∃ rest, b :: r = encodeChar c ++ rest := by
    intro v s hv hd h
    obtain ⟨c, hc⟩ := mk v hv
    obtain ⟨h1, h2⟩ := h c hc
    exact ⟨c, by rw [hd, hc, h1], h2⟩
  have eb : ∀ (x : UInt8) (n : Nat), x.toNat = n → byte n = x := by
    intro x n h
    rw [← h]
    simp [byte]
  have hb := b.toNat_lt
  by_cases h1 : b.toNat < 0x80
  · right
    refine good b.toNat 1 (by omega) (by simp [decodeRune, h1]) fun c hc => ?_
    simp [encodeChar, hc, h1, eb b _ rfl]
  have h80 : 128 ≤ b.toNat := by omega
  by_cases h2 : b.toNat < 0xC2
  · exact .inl ⟨by simp [decodeRune, h1, h2, badRune], h80⟩
  by_cases h3 : b.toNat < 0xE0
  · match r with
    | [] => exact .inl ⟨by simp [decodeRune, h1, h2, h3, badRune], h80⟩
    | b1 :: r =>
      by_cases h4 : inRange b1 0x80 0xBF = true
      · right
        have h5 := h4
        simp only [inRange, Bool.and_eq_true, decide_eq_true_eq] at h5
        refine good ((b.toNat - 0xC0) * 64 + (b1.toNat - 0x80)) 2 (by omega) (by simp [decodeRune, h1, h2, h3, h4]) fun c hc => ?_
        unfold encodeChar
        simp only [hc]
        rw [if_neg (by omega), if_pos (by omega), eb b _ (by omega), eb b1 _ (by omega)]
        exact ⟨rfl, r, rfl⟩
      · exact .inl ⟨by simp [decodeRune, h1, h2, h3, h4, badRune], h80⟩
  by_cases h3' : b.toNat < 0xF0
  · match r with
    | [] => exact .inl ⟨by simp [decodeRune, h1, h2, h3, h3', badRune], h80⟩
    | [_] => exact .inl ⟨by simp [decodeRune, h1, h2, h3, h3', badRune], h80⟩
    | b1 :: b2 :: r =>
      by_cases h4 : (inRange b1 (if b.toNat = 0xE0 then 0xA0 else 0x80) (if b.toNat = 0xED then 0x9F else 0xBF) && inRange b2 0x80 0xBF) = true
      · right
        have h5 := h4
        simp only [inRange, Bool.and_eq_true, decide_eq_true_eq] at h5
        obtain ⟨⟨g1, g2⟩, g3, g4⟩ := h5
        have g1' : 0x80 ≤ b1.toNat ∧ (b.toNat = 0xE0 → 0xA0 ≤ b1.toNat) := by split at g1 <;> omega
        have g2' : b1.toNat ≤ 0xBF ∧ (b.toNat = 0xED → b1.toNat ≤ 0x9F) := by split at g2 <;> omega
        refine good ((b.toNat - 0xE0) * 4096 + (b1.toNat - 0x80) * 64 + (b2.toNat - 0x80)) 3 (by omega)
          (by simp only [decodeRune, if_neg h1, if_neg h2, if_neg h3, if_pos h3', if_pos h4]) fun c hc => ?_
        unfold encodeChar
        simp only [hc]
        rw [if_neg (by omega), if_neg (by omega), if_pos (by omega), eb b _ (by omega), eb b1 _ (by omega), eb b2 _ (by omega)]
        exact ⟨rfl, r, rfl⟩
      · exact .inl ⟨by simp only [decodeRune, if_neg h1, if_neg h2, if_neg h3, if_pos h3', if_neg h4, badRune], h80⟩
  by_cases h4' : b.toNat < 0xF5
  · match r with
    | [] => exact .inl ⟨by simp [decodeRune, h1, h2, h3, h3', h4', badRune], h80⟩
    | [_] => exact .inl ⟨by simp [decodeRune, h1, h2, h3, h3', h4', badRune], h80⟩
    | [_, _] => exact .inl ⟨by simp [decodeRune, h1, h2, h3, h3', h4', badRune], h80⟩
    | b1 :: b2 :: b3 :: r =>
      by_cases h4 : (inRange b1 (if b.toNat = 0xF0 then 0x90 else 0x80) (if b.toNat = 0xF4 then 0x8F else 0xBF) && inRange b2 0x80 0xBF &&
          inRange b3 0x80 0xBF) = true
      · right
        have h5 := h4
        simp only [inRange, Bool.and_eq_true, decide_eq_true_eq] at h5
        obtain ⟨⟨⟨g1, g2⟩, g3, g4⟩, g5, g6⟩ := h5
        have g1' : 0x80 ≤ b1.toNat ∧ (b.toNat = 0xF0 → 0x90 ≤ b1.toNat) := by split at g1 <;> omega
        have g2' : b1.toNat ≤ 0xBF ∧ (b.toNat = 0xF4 → b1.toNat ≤ 0x8F) := by split at g2 <;> omega
        refine good ((b.toNat - 0xF0) * 262144 + (b1.toNat - 0x80) * 4096 + (b2.toNat - 0x80) * 64 + (b3.toNat - 0x80)) 4 (by omega)
          (by simp only [decodeRune, if_neg h1, if_neg h2, if_neg h3, if_neg h3', if_pos h4', if_pos h4]) fun c hc => ?_
        unfold encodeChar
        simp only [hc]
        rw [if_neg (by omega), if_neg (by omega), if_neg (by omega), eb b _ (by omega), eb b1 _ (by omega), eb b2 _ (by omega), eb b3 _ (by omega)]
        exact ⟨rfl, r, rfl⟩
      · exact .inl ⟨by simp only [decodeRune, if_neg h1, if_neg h2, if_neg h3, if_neg h3', if_pos h4', if_neg h4, badRune], h80⟩
  · exact .inl ⟨by simp [decodeRune, h1, h2, h3, h3', h4', badRune], h80⟩

/-- The runes of a Go string: one step. -/
theorem runesF_fuel : ∀ (f : Nat) (t : Bytes), t.length ≤ f → runesF f t = runes t := by
  have key : ∀ (f g : Nat) (t : Bytes), t.length ≤ f → t.length ≤ g → runesF f t = runesF g t := by
    intro f
    induction f with
    | zero =>
      intro g t h _
      cases List.length_eq_zero_iff.1 (Nat.le_zero.1 h)
      cases g <;> rfl
    | succ f ih =>
      intro g t h1 h2
      cases t with
      | nil => cases g <;> rfl
      | cons b r =>
        cases g with
        | zero => simp at h2
        | succ g =>
          have hs := decodeRune_size b r
          simp only [runesF]
          rw [ih g]
          · rw [List.length_drop]; simp only [List.length_cons] at h1 hs ⊢; omega
          · rw [List.length_drop]; simp only [List.length_cons] at h2 hs ⊢; omega
  intro f t h
  exact key f _ t h (Nat.le_refl _)

theorem runes_cons (b : UInt8) (r : Bytes) :
    runes (b :: r) = Char.ofNat (decodeRune (b :: r)).1 :: runes ((b :: r).drop (decodeRune (b :: r)).2) := by
  have hs := decodeRune_size b r
  show runesF (r.length + 1) (b :: r) = _
  simp only [runesF]
  rw [runesF_fuel]
  rw [List.length_drop]; simp only [List.length_cons] at hs ⊢; omega

/-- Induction over the runes of a Go string. -/
theorem runes_induction {P : Bytes → Prop} (nil : P []) (bad : ∀ b r, 128 ≤ b.toNat → decodeRune (b :: r) = (0xFFFD, 1) → P r → P (b :: r))
    (good : ∀ c r, P r → P (encodeChar c ++ r)) (t : Bytes) : P t := by
  generalize hn : t.length = n
  induction n using Nat.strongRecOn generalizing t with
  | _ n ih =>
    cases t with
    | nil => exact nil
    | cons b r =>
      rcases decodeRune_step b r with ⟨h1, h2⟩ | ⟨c, h1, rest, h2⟩
      · exact bad b r h2 h1 (ih r.length (by rw [← hn]; simp) r rfl)
      · rw [h2]
        refine good c rest (ih rest.length ?_ rest rfl)
        rw [← hn, h2, List.length_append]
        have := (encodeChar_length c).1
        omega

theorem runes_bad {b : UInt8} {r : Bytes} (h : decodeRune (b :: r) = (0xFFFD, 1)) : runes (b :: r) = '\uFFFD' :: runes r := by
  rw [runes_cons, h]
  rfl

theorem runes_good (c : Char) (r : Bytes) : runes (encodeChar c ++ r) = c :: runes r := by
  have h := decodeRune_encodeChar c r
  rcases he : encodeChar c with _ | ⟨b, q⟩
  · exact absurd he (encodeChar_ne_nil c)
  rw [he] at h
  rw [List.cons_append] at h ⊢
  rw [runes_cons, h, Char_ofNat_toNat, ← List.cons_append, List.drop_left]

/-- A prefix that is UTF-8 is read as it is. -/
theorem runes_append (s : Str) (t : Bytes) : runes (utf8 s ++ t) = s ++ runes t := by
  induction s with
  | nil => rfl
  | cons c s ih => rw [utf8_cons, List.append_assoc, runes_good, ih]; rfl

theorem escapeB_utf8 (c : Char) : escapeB c.toNat = utf8 (escapeC c) := by
  have e : ∀ d : Char, c.toNat = d.toNat ↔ c = d := by
    intro d
    refine ⟨fun h => ?_, fun h => by rw [h]⟩
    rw [← Char_ofNat_toNat c, ← Char_ofNat_toNat d, h]
  unfold escapeB escapeC
  rw [show (0x5c : Nat) = '\\'.toNat from rfl, show (0x0a : Nat) = '\n'.toNat from rfl, show (0x3b : Nat) = ';'.toNat from rfl,
    show (0x2c : Nat) = ','.toNat from rfl]
  simp only [e, Char_ofNat_toNat]
  repeat' split
  all_goals first | rfl | (simp [utf8])

theorem Text.encodeBF_eq : ∀ (f : Nat) (t : Bytes), Text.encodeBF f t = utf8 (Text.encode (runesF f t)) := by
  intro f
  induction f with
  | zero => intro t; rfl
  | succ f ih =>
    intro t
    cases t with
    | nil => rfl
    | cons b r =>
      simp only [Text.encodeBF, runesF, ih]
      unfold Text.encode
      rw [List.flatMap_cons, utf8_append]
      congr 1
      rcases decodeRune_step b r with ⟨h1, _⟩ | ⟨c, h1, _⟩
      · rw [h1]; decide
      · rw [h1, Char_ofNat_toNat, escapeB_utf8]

theorem Text.encodeB_eq (t : Bytes) : Text.encodeB t = utf8 (Text.encode (runes t)) := Text.encodeBF_eq _ t

theorem any_ctl (t : Bytes) : t.any isCtl31B = (runes t).any isCtl31 := by
  induction t using runes_induction with
  | nil => rfl
  | bad b r h1 h2 ih =>
    rw [runes_bad h2, List.any_cons, List.any_cons, ih, show isCtl31 '\uFFFD' = false by decide]
    congr 1
    have : ¬ b.toNat ≤ 8 ∧ ¬ b.toNat ≤ 0x1f ∧ b.toNat ≠ 0x7f := by omega
    simp [isCtl31B, this.1, this.2.1, this.2.2]
  | good c r ih =>
    rw [runes_good, List.any_append, List.any_cons, ih]
    congr 1
    have hr := char_range c
    have hb : ∀ n : Nat, 0x80 ≤ n → n < 256 → isCtl31B (byte n) = false := by
      intro n h1 h2
      have : ¬ n ≤ 8 ∧ ¬ n ≤ 0x1f ∧ n ≠ 0x7f := by omega
      simp [isCtl31B, byte_toNat h2, this.1, this.2.1, this.2.2]
    have hc : ¬ c.toNat < 0x80 → isCtl31 c = false := by
      intro h
      have : ¬ c.toNat ≤ 8 ∧ ¬ c.toNat ≤ 0x1f ∧ c.toNat ≠ 0x7f := by omega
      simp [isCtl31, this.1, this.2.1, this.2.2]
    unfold encodeChar
    dsimp only
    split
    · next h => simp [isCtl31B, isCtl31, byte_toNat (show c.toNat < 256 by omega)]
    next h =>
    rw [hc h]
    split
    · simp [hb _ (show 0x80 ≤ 0xC0 + c.toNat / 64 by omega) (by omega), hb _ (show 0x80 ≤ 0x80 + c.toNat % 64 by omega) (by omega)]
    split
    · simp [hb _ (show 0x80 ≤ 0xE0 + c.toNat / 4096 by omega) (by omega), hb _ (show 0x80 ≤ 0x80 + c.toNat / 64 % 64 by omega) (by omega),
        hb _ (show 0x80 ≤ 0x80 + c.toNat % 64 by omega) (by omega)]
    · simp [hb _ (show 0x80 ≤ 0xF0 + c.toNat / 262144 by omega) (by omega), hb _ (show 0x80 ≤ 0x80 + c.toNat / 4096 % 64 by omega) (by omega),
        hb _ (show 0x80 ≤ 0x80 + c.toNat / 64 % 64 by omega) (by omega), hb _ (show 0x80 ≤ 0x80 + c.toNat % 64 by omega) (by omega)]

theorem Text.validB_eq (t : Bytes) : Text.validB t = Text.valid (runes t) := by
  unfold Text.validB Text.valid containsAny
  rw [any_ctl]

theorem MText.encodeB_eq (ts : List Bytes) : MText.encodeB ts = utf8 (MText.encode (ts.map runes)) := by
  induction ts with
  | nil => rfl
  | cons t ts ih =>
    cases ts with
    | nil =>
      simp only [MText.encodeB, MText.encode, List.map_cons, List.map_nil, join]
      exact Text.encodeB_eq t
    | cons u ts =>
      simp only [MText.encodeB, Text.encodeB_eq, ih, MText.encode, List.map_cons, join, utf8_append]
      simp
      rfl

theorem MText.validB_eq (ts : List Bytes) : MText.validB ts = MText.valid (ts.map runes) := by
  induction ts with
  | nil => rfl
  | cons t ts ih => simp only [MText.validB, MText.valid, List.map_cons, Text.validB_eq, ih]

end Ics
