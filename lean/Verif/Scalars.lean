import Verif.DurationLemmas
import Verif.Utf8
/-!
# Model of Boolean, Integer, UTCOffset and Binary (types.go:20-87, 480-504, 1469-1566)
-/

namespace Ics

/-! ## Boolean (types.go:54-87) -/

/-- `Boolean.decode` (types.go:56-65) with `strconv.ParseBool`. -/
def Boolean.decode (s : Str) : Res Bool :=
  if s ∈ [c!"1", c!"t", c!"T", c!"TRUE", c!"true", c!"True"] then .ok true
  else if s ∈ [c!"0", c!"f", c!"F", c!"FALSE", c!"false", c!"False"] then .ok false
  else .err .invalidBoolean

/-- `Boolean.encode` (types.go:77-83). -/
def Boolean.encode (b : Bool) : Str := if b then c!"TRUE" else c!"FALSE"

/-! ## Integer (types.go:480-504) -/

/-- `Integer.decode` (types.go:482-491). -/
def Integer.decode (s : Str) : Res Int := Res.ofOption .ext (parseInt 32 s)

/-- `Integer.encode` (types.go:498-500). -/
def Integer.encode (i : Int) : Str := fmtInt i

/-! ## UTCOffset (types.go:1469-1566) -/

/-- Two digits: `t.Accept(digits)` twice, and their value.  types.go:1484-1510. -/
def twoDigits (s : Str) : Option (Nat × Str) :=
  match s with
  | a :: b :: r => if isDigit a ∧ isDigit b then some (digitVal a * 10 + digitVal b, r) else none
  | _ => none

/-- `UTCOffset.decode` behind the sign (types.go:1483-1515): the seconds without sign. -/
def UTCOffset.body (s : Str) : Option Nat :=
  match twoDigits s with
  | none => none
  | some (h, r) =>
    match twoDigits r with
    | none => none
    | some (m, r) =>
      if m ≥ 60 then none
      else
        match r with
        | [] => some (3600 * h + 60 * m)
        | r =>
          match twoDigits r with
          | some (sec, []) => if sec ≥ 60 then none else some (3600 * h + 60 * m + sec)
          | _ => none

/-- `UTCOffset.decode` (types.go:1471-1526). -/
def UTCOffset.decode (s : Str) : Res Int :=
  let neg := s.head? = some '-'
  let r := if s.head? = some '-' ∨ s.head? = some '+' then s.tail else s
  match UTCOffset.body r with
  | none => .err .invalidOffset
  | some v =>
    if neg then (if v = 0 then .err .invalidOffset else .ok (-(v : Int)))
    else .ok v

/-- `'0'+n/10, '0'+n%10` for a byte value.  types.go:1551-1559. -/
def dd (n : Nat) : Str := [Char.ofNat (48 + n / 10), Char.ofNat (48 + n % 10)]

/-- `byte(x)`: the low eight bits.  types.go:1542-1545. -/
def lowByte (x : Int) : Nat := (x % 256).toNat

/-- `-o` for an `int64`: the least one is its own negation.  types.go:1537-1540. -/
def neg64 (o : Int) : Int := if o = -(2 ^ 63) then o else -o

/-- `UTCOffset.encode` (types.go:1533-1562).  `/` and `%` round towards zero. -/
def UTCOffset.encode (u : Int) : Str :=
  let o := if u < 0 then neg64 u else u
  let s := lowByte (o.tmod 60)
  let o := o.tdiv 60
  let m := lowByte (o.tmod 60)
  let h := lowByte (o.tdiv 60)
  let h := if h > 99 then 0 else h
  (if u < 0 then ['-'] else []) ++ dd h ++ dd m ++ (if s > 0 then dd s else [])

/-- For all offsets but the least one. -/
theorem UTCOffset.encode_of {u : Int} (hu : u ≠ -(2 ^ 63)) : UTCOffset.encode u =
    (if u < 0 then ['-'] else []) ++ dd (if u.natAbs / 60 / 60 % 256 > 99 then 0 else u.natAbs / 60 / 60 % 256) ++ dd (u.natAbs / 60 % 60) ++
      (if u.natAbs % 60 > 0 then dd (u.natAbs % 60) else []) := by
  unfold UTCOffset.encode
  have ho : (if u < 0 then neg64 u else u) = (u.natAbs : Int) := by
    unfold neg64
    rw [if_neg hu]
    split <;> omega
  simp only [ho]
  have h1 : lowByte (Int.tmod u.natAbs 60) = u.natAbs % 60 := by
    unfold lowByte
    rw [Int.tmod_eq_emod_of_nonneg (by omega)]
    omega
  have h2 : (Int.tdiv u.natAbs 60) = ((u.natAbs / 60 : Nat) : Int) := by
    rw [Int.tdiv_eq_ediv_of_nonneg (by omega)]
    omega
  have h3 : lowByte (Int.tmod (u.natAbs / 60 : Nat) 60) = u.natAbs / 60 % 60 := by
    unfold lowByte
    rw [Int.tmod_eq_emod_of_nonneg (by omega)]
    omega
  have h4 : lowByte (Int.tdiv (u.natAbs / 60 : Nat) 60) = u.natAbs / 60 / 60 % 256 := by
    unfold lowByte
    rw [Int.tdiv_eq_ediv_of_nonneg (by omega)]
    omega
  rw [h1, h2, h3, h4]

/-- The least one. -/
theorem UTCOffset.encode_least : UTCOffset.encode (-(2 ^ 63)) = c!"-00F6H8" := by decide +kernel

/-! ## Binary (types.go:20-51) -/

/-- The standard base64 alphabet.  Go library, not in /repo; used at types.go:27, 43. -/
def b64Alphabet : Str := c!"ABCDEFGHIJKLMNOPQRSTUVWXYZabcdefghijklmnopqrstuvwxyz0123456789+/"

/-- The character of a value. Go library, not in /repo; used at types.go:43. -/
def b64Char (n : Nat) : Char := b64Alphabet.getD n 'A'

/-- Position in the alphabet.  Go library, not in /repo; used at types.go:27. -/
def b64Val (c : Char) : Option Nat := b64Alphabet.findIdx? (· == c)

/-- `base64.StdEncoding` encoding.  Go library, not in /repo; used at types.go:43. -/
def b64Encode : Bytes → Str
  | [] => []
  | [a] =>
    let v := a.toNat * 16
    [b64Char (v / 64), b64Char (v % 64), '=', '=']
  | [a, b] =>
    let v := (a.toNat * 256 + b.toNat) * 4
    [b64Char (v / 4096), b64Char (v / 64 % 64), b64Char (v % 64), '=']
  | a :: b :: c :: r =>
    let v := a.toNat * 65536 + b.toNat * 256 + c.toNat
    b64Char (v / 262144) :: b64Char (v / 4096 % 64) :: b64Char (v / 64 % 64) :: b64Char (v % 64) :: b64Encode r

/-- `base64.StdEncoding.DecodeString` after CR and LF are dropped: groups of four, padding only at the end, unused low bits ignored (the encoding
is not strict).  Go library, not in /repo; used at types.go:27. -/
def b64Groups : Str → Option Bytes
  | [] => some []
  | [a, b, '=', '='] => do
    let x ← b64Val a
    let y ← b64Val b
    some [UInt8.ofNat ((x * 64 + y) / 16)]
  | [a, b, c, '='] => do
    let x ← b64Val a
    let y ← b64Val b
    let z ← b64Val c
    let v := (x * 64 + y) * 64 + z
    some [UInt8.ofNat (v / 1024), UInt8.ofNat (v / 4 % 256)]
  | a :: b :: c :: d :: r => do
    let x ← b64Val a
    let y ← b64Val b
    let z ← b64Val c
    let w ← b64Val d
    let v := ((x * 64 + y) * 64 + z) * 64 + w
    let bs ← b64Groups r
    some (UInt8.ofNat (v / 65536) :: UInt8.ofNat (v / 256 % 256) :: UInt8.ofNat (v % 256) :: bs)
  | _ => none

/-- `base64.StdEncoding.DecodeString`.  Go library, not in /repo; called at types.go:27. -/
def b64Decode (s : Str) : Option Bytes := b64Groups (s.filter (fun c => c ≠ '\r' && c ≠ '\n'))

/-- `Binary.decode` (types.go:22-35); `enc` is `params["ENCODING"]` ("" if absent). -/
def Binary.decode (enc : Str) (s : Str) : Res Bytes :=
  if enc ≠ c!"BASE64" then .err .invalidEncoding
  else Res.ofOption .ext (b64Decode s)

/-- `Binary.encode` (types.go:42-47). -/
def Binary.encode (b : Bytes) : Str := b64Encode b

/-! ## Lemmas -/

theorem Boolean.decode_encode (b : Bool) : Boolean.decode (Boolean.encode b) = .ok b := by
  cases b <;> rfl

theorem Integer.decode_encode (i : Int) (h1 : -(2 ^ 31 : Int) ≤ i) (h2 : i < 2 ^ 31) :
    Integer.decode (Integer.encode i) = .ok i := by
  rw [Integer.decode, Integer.encode, parseInt_fmtInt (by simpa using h1) (by simpa using h2)]
  rfl

theorem twoDigits_dd (n : Nat) (h : n < 100) (r : Str) : twoDigits (dd n ++ r) = some (n, r) := by
  have h1 := digitChar_isDigit (n := n / 10) (by omega)
  have h2 := digitChar_isDigit (n := n % 10) (by omega)
  have h3 := digitVal_digitChar (n := n / 10) (by omega)
  have h4 := digitVal_digitChar (n := n % 10) (by omega)
  rw [digitChar] at h1 h2 h3 h4
  simp only [dd, List.cons_append, List.nil_append, twoDigits, h1, h2, and_self, if_true, h3, h4]
  congr 2
  omega

theorem UTCOffset.body_encode (h m s : Nat) (hh : h < 100) (hm : m < 60) (hs : s < 60) :
    UTCOffset.body (dd h ++ dd m ++ (if s > 0 then dd s else [])) = some (3600 * h + 60 * m + s) := by
  unfold UTCOffset.body
  rw [List.append_assoc, twoDigits_dd h hh]
  simp only
  rw [twoDigits_dd m (by omega)]
  simp only
  rw [if_neg (by omega)]
  by_cases h0 : s > 0
  · rw [if_pos h0]
    have := twoDigits_dd s (by omega) []
    rw [List.append_nil] at this
    split
    · next h => simp [dd] at h
    · rw [this]
      simp only
      rw [if_neg (by omega)]
  · rw [if_neg h0]
    simp only
    congr 1
    omega

theorem UTCOffset.encode_head (h : Nat) (hh : h < 100) (r : Str) :
    (dd h ++ r).head? ≠ some '-' ∧ (dd h ++ r).head? ≠ some '+' := by
  have h1 := digitChar_isDigit (n := h / 10) (by omega)
  rw [digitChar] at h1
  have := isDigit_not h1
  simp only [dd, List.cons_append, List.head?_cons, ne_eq, Option.some.injEq]
  exact ⟨this.2.2.2.1, this.2.2.2.2.1⟩

theorem UTCOffset.decode_encode (u : Int) (h : u.natAbs < 360000) :
    UTCOffset.decode (UTCOffset.encode u) = .ok u := by
  rw [UTCOffset.encode_of (by omega)]
  have e : u.natAbs / 60 / 60 % 256 = u.natAbs / 60 / 60 := by omega
  rw [e, if_neg (show ¬ (u.natAbs / 60 / 60 > 99) by omega)]
  have hb := UTCOffset.body_encode (u.natAbs / 60 / 60) (u.natAbs / 60 % 60) (u.natAbs % 60) (by omega) (by omega) (by omega)
  have hv : 3600 * (u.natAbs / 60 / 60) + 60 * (u.natAbs / 60 % 60) + u.natAbs % 60 = u.natAbs := by omega
  rw [hv] at hb
  unfold UTCOffset.decode
  by_cases hn : u < 0
  · rw [if_pos hn]
    simp only [List.append_assoc, List.cons_append, List.nil_append, List.head?_cons, if_true, true_or, List.tail_cons]
    rw [List.append_assoc] at hb
    rw [hb]
    simp only
    rw [if_neg (by omega)]
    congr 1
    omega
  · rw [if_neg hn, List.nil_append]
    rw [List.append_assoc] at hb ⊢
    obtain ⟨h1, h2⟩ := UTCOffset.encode_head (u.natAbs / 60 / 60) (by omega)
      (dd (u.natAbs / 60 % 60) ++ if u.natAbs % 60 > 0 then dd (u.natAbs % 60) else [])
    simp only [h1, h2, false_or, if_false, hb]
    congr 1
    omega

/-! Base64 -/

theorem b64Val_b64Char {n : Nat} (h : n < 64) : b64Val (b64Char n) = some n := by
  have : ∀ m : Fin 64, b64Val (b64Char m.1) = some m.1 := by decide +kernel
  exact this ⟨n, h⟩

theorem b64Char_ne {n : Nat} (h : n < 64) : b64Char n ≠ '=' ∧ b64Char n ≠ '\r' ∧ b64Char n ≠ '\n' := by
  have : ∀ m : Fin 64, b64Char m.1 ≠ '=' ∧ b64Char m.1 ≠ '\r' ∧ b64Char m.1 ≠ '\n' := by decide +kernel
  exact this ⟨n, h⟩

theorem ofNat_toNat8 (a : UInt8) (n : Nat) (h : n = a.toNat) : UInt8.ofNat n = a := by
  subst h; simp

theorem b64Groups_encode : ∀ (k : Nat) (bs : Bytes), bs.length ≤ k → b64Groups (b64Encode bs) = some bs := by
  intro k
  induction k with
  | zero =>
    intro bs h
    have : bs = [] := List.length_eq_zero_iff.1 (by omega)
    subst this; rfl
  | succ k ih =>
    intro bs h
    match bs with
    | [] => rfl
    | [a] =>
      have ha := a.toNat_lt
      simp only [b64Encode, b64Groups]
      rw [b64Val_b64Char (by omega), b64Val_b64Char (by omega)]
      simp only [bind, Option.bind]
      congr 2
      exact ofNat_toNat8 _ _ (by omega)
    | [a, b] =>
      have ha := a.toNat_lt
      have hb := b.toNat_lt
      have hn := (b64Char_ne (n := ((a.toNat * 256 + b.toNat) * 4) % 64) (by omega)).1
      simp only [b64Encode]
      rw [b64Groups.eq_def]
      split
      · next h => cases h
      · next h => simp only [List.cons.injEq] at h; exact absurd h.2.2.1 hn
      · next h =>
        simp only [List.cons.injEq] at h
        obtain ⟨h1, h2, h3, _⟩ := h
        subst h1; subst h2; subst h3
        rw [b64Val_b64Char (by omega), b64Val_b64Char (by omega), b64Val_b64Char (by omega)]
        simp only [bind, Option.bind]
        congr 2
        · exact ofNat_toNat8 _ _ (by omega)
        · congr 1; exact ofNat_toNat8 _ _ (by omega)
      · next h1 h2 => 
        next h =>
        simp only [List.cons.injEq] at h2
        exact absurd ‹_› (by grind)
      · next h => exact absurd rfl (h _ _ _ _ _)
    | a :: b :: c :: r =>
      have ha := a.toNat_lt
      have hb := b.toNat_lt
      have hc := c.toNat_lt
      have hn := (b64Char_ne (n := (a.toNat * 65536 + b.toNat * 256 + c.toNat) % 64) (by omega)).1
      simp only [b64Encode]
      rw [b64Groups.eq_def]
      split
      · next h => cases h
      · next h => simp only [List.cons.injEq] at h; exact absurd h.2.2.2.1 hn
      · next h => simp only [List.cons.injEq] at h; exact absurd h.2.2.2.1 hn
      · next h =>
        simp only [List.cons.injEq] at h
        obtain ⟨h1, h2, h3, h4, h5⟩ := h
        subst h1; subst h2; subst h3; subst h4; subst h5
        rw [b64Val_b64Char (by omega), b64Val_b64Char (by omega), b64Val_b64Char (by omega), b64Val_b64Char (by omega),
          ih r (by simp at h; omega)]
        simp only [bind, Option.bind]
        congr 2
        · exact ofNat_toNat8 _ _ (by omega)
        · congr 1
          · exact ofNat_toNat8 _ _ (by omega)
          · congr 1; exact ofNat_toNat8 _ _ (by omega)
      · next h => exact absurd rfl (h _ _ _ _ _)

theorem b64Encode_mem : ∀ (k : Nat) (bs : Bytes), bs.length ≤ k → ∀ c ∈ b64Encode bs,
    c = '=' ∨ ∃ n, n < 64 ∧ c = b64Char n := by
  intro k
  induction k with
  | zero =>
    intro bs h
    have : bs = [] := List.length_eq_zero_iff.1 (by omega)
    subst this; simp [b64Encode]
  | succ k ih =>
    intro bs h x hx
    match bs with
    | [] => simp [b64Encode] at hx
    | [a] =>
      have ha := a.toNat_lt
      simp only [b64Encode, List.mem_cons, List.not_mem_nil, or_false] at hx
      rcases hx with rfl | rfl | rfl | rfl
      · exact Or.inr ⟨_, by omega, rfl⟩
      · exact Or.inr ⟨_, by omega, rfl⟩
      · exact Or.inl rfl
      · exact Or.inl rfl
    | [a, b] =>
      have ha := a.toNat_lt
      have hb := b.toNat_lt
      simp only [b64Encode, List.mem_cons, List.not_mem_nil, or_false] at hx
      rcases hx with rfl | rfl | rfl | rfl
      · exact Or.inr ⟨_, by omega, rfl⟩
      · exact Or.inr ⟨_, by omega, rfl⟩
      · exact Or.inr ⟨_, by omega, rfl⟩
      · exact Or.inl rfl
    | a :: b :: c :: r =>
      have ha := a.toNat_lt
      have hb := b.toNat_lt
      have hc := c.toNat_lt
      simp only [b64Encode, List.mem_cons] at hx
      rcases hx with rfl | rfl | rfl | rfl | hx
      · exact Or.inr ⟨_, by omega, rfl⟩
      · exact Or.inr ⟨_, by omega, rfl⟩
      · exact Or.inr ⟨_, by omega, rfl⟩
      · exact Or.inr ⟨_, by omega, rfl⟩
      · exact ih r (by simp at h; omega) x hx

theorem b64Decode_encode (bs : Bytes) : b64Decode (b64Encode bs) = some bs := by
  unfold b64Decode
  rw [List.filter_eq_self.2]
  · exact b64Groups_encode _ bs (Nat.le_refl _)
  · intro c hc
    rcases b64Encode_mem _ bs (Nat.le_refl _) c hc with rfl | ⟨n, hn, rfl⟩
    · rfl
    · have := b64Char_ne hn
      simp [this.2.1, this.2.2]

theorem Binary.decode_encode (bs : Bytes) : Binary.decode c!"BASE64" (Binary.encode bs) = .ok bs := by
  rw [Binary.decode, if_neg (by simp), Binary.encode, b64Decode_encode]
  rfl

end Ics
