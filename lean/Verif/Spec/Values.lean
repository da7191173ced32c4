import Verif.Spec.Duration
import Verif.Utf8
/-!
# Specifications of the scalar value types, from RFC 5545 section 3.3
-/

namespace Ics.Spec

open Ics

/-- `Escaped s t`: `s` is an RFC 5545 TEXT (section 3.3.11) denoting `t`.  Backslash, semicolon, comma and newline occur only escaped. -/
inductive Escaped : Str → Str → Prop
  | nil : Escaped [] []
  | plain {s t} (c : Char) : c ≠ '\\' → c ≠ ';' → c ≠ ',' → c ≠ '\n' → Escaped s t → Escaped (c :: s) (c :: t)
  | backslash {s t} : Escaped s t → Escaped ('\\' :: '\\' :: s) ('\\' :: t)
  | semicolon {s t} : Escaped s t → Escaped ('\\' :: ';' :: s) (';' :: t)
  | comma {s t} : Escaped s t → Escaped ('\\' :: ',' :: s) (',' :: t)
  | newline {s t} (c : Char) : c = 'n' ∨ c = 'N' → Escaped s t → Escaped ('\\' :: c :: s) ('\n' :: t)

/-- A comma separated list of TEXTs. -/
inductive EscapedList : Str → List Str → Prop
  | one {s t} : Escaped s t → EscapedList s [t]
  | cons {s t s' ts} : Escaped s t → EscapedList s' ts → EscapedList (s ++ ',' :: s') (t :: ts)

/-- What the decoder makes of texts that are not well escaped: a backslash before another character stands for itself. -/
inductive Loose : Str → Str → Prop
  | nil : Loose [] []
  | plain {s t} (c : Char) : c ≠ '\\' → c ≠ ';' → c ≠ ',' → Loose s t → Loose (c :: s) (c :: t)
  | escape {s t} (c : Char) : c = '\\' ∨ c = ';' ∨ c = ',' → Loose s t → Loose ('\\' :: c :: s) (c :: t)
  | newline {s t} (c : Char) : c = 'n' ∨ c = 'N' → Loose s t → Loose ('\\' :: c :: s) ('\n' :: t)
  | other {s t} (c : Char) : c ∉ ['\\', ';', ',', 'n', 'N'] → Loose s t → Loose ('\\' :: c :: s) ('\\' :: c :: t)

/-- A backslash at the very end becomes a backslash and U+FFFD. -/
def LooseText (s t : Str) : Prop := Loose s t ∨ ∃ a b, Loose a b ∧ s = a ++ ['\\'] ∧ t = b ++ ['\\', '�']

/-- A comma separated list of them. -/
inductive LooseList : Str → List Str → Prop
  | one {s t} : LooseText s t → LooseList s [t]
  | cons {s t s' ts} : Loose s t → LooseList s' ts → LooseList (s ++ ',' :: s') (t :: ts)

/-- An optionally signed decimal integer. -/
inductive IntLit : Str → Int → Prop
  | plain {s n} : Dec s n → IntLit s n
  | plus {s n} : Dec s n → IntLit ('+' :: s) n
  | minus {s n} : Dec s n → IntLit ('-' :: s) (-(n : Int))

/-- Two decimal digits. -/
def Two (s : Str) (n : Nat) : Prop := Dec s n ∧ s.length = 2

/-- hour minute [second] with the value in seconds; `maxHour` bounds the hour. -/
inductive HourMinute (maxHour : Nat) : Str → Nat → Prop
  | hm {a b h m} : Two a h → Two b m → h ≤ maxHour → m < 60 → HourMinute maxHour (a ++ b) (3600 * h + 60 * m)
  | hms {a b c h m s} : Two a h → Two b m → Two c s → h ≤ maxHour → m < 60 → s < 60 →
      HourMinute maxHour (a ++ b ++ c) (3600 * h + 60 * m + s)

/-- utc-offset = ("+" / "-") hour minute [second] (section 3.3.14); "-0000" and "-000000" are not allowed. -/
def RfcOffset (s : Str) (u : Int) : Prop :=
  ∃ t v, HourMinute 23 t v ∧ ((s = '+' :: t ∧ u = v) ∨ (s = '-' :: t ∧ u = -(v : Int) ∧ v ≠ 0))

/-- What the decoder accepts: the sign may be missing and the hour may go up to 99. -/
def LooseOffset (s : Str) (u : Int) : Prop :=
  ∃ t v, HourMinute 99 t v ∧ (((s = t ∨ s = '+' :: t) ∧ u = v) ∨ (s = '-' :: t ∧ u = -(v : Int) ∧ v ≠ 0))

/-- The alphabet of RFC 4648 section 4: A-Z, a-z, 0-9, plus and slash. -/
def sextet (c : Char) : Option Nat :=
  let n := c.toNat
  if 65 ≤ n ∧ n ≤ 90 then some (n - 65)
  else if 97 ≤ n ∧ n ≤ 122 then some (n - 97 + 26)
  else if 48 ≤ n ∧ n ≤ 57 then some (n - 48 + 52)
  else if n = 43 then some 62
  else if n = 47 then some 63
  else none

/-- Base 64: three octets are four groups of six bits, most significant first; at the end one octet with four bits more is two groups and `==`, two octets
with two bits more are three groups and `=`.  The bits added are `pad`; they should be zero. -/
inductive Base64 : (pad : Nat) → Str → Bytes → Prop
  | nil : Base64 0 [] []
  | one {a b : Char} {x y : Nat} {o : UInt8} {pad : Nat} : sextet a = some x → sextet b = some y → pad < 16 → o.toNat * 16 + pad = x * 64 + y →
      Base64 pad [a, b, '=', '='] [o]
  | two {a b c : Char} {x y z : Nat} {o o' : UInt8} {pad : Nat} : sextet a = some x → sextet b = some y → sextet c = some z → pad < 4 →
      (o.toNat * 256 + o'.toNat) * 4 + pad = x * 4096 + y * 64 + z → Base64 pad [a, b, c, '='] [o, o']
  | three {a b c d : Char} {x y z w : Nat} {o o' o'' : UInt8} {pad : Nat} {s : Str} {bs : Bytes} : sextet a = some x → sextet b = some y →
      sextet c = some z → sextet d = some w → o.toNat * 65536 + o'.toNat * 256 + o''.toNat = x * 262144 + y * 4096 + z * 64 + w → Base64 pad s bs →
      Base64 pad (a :: b :: c :: d :: s) (o :: o' :: o'' :: bs)

end Ics.Spec
