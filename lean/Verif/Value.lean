import Verif.Recur
import Verif.Text
import Verif.Duration
/-!
# Model of Period, Float, TFloat, URI and CalendarAddress (types.go:90-116, 399-477, 510-562, 1440-1466) and the type of all values
-/

namespace Ics

/-! ## Periods -/

/-- `Period` (types.go:510-513). -/
structure Period where
  start : GoTime := {}
  stop : GoTime := {}
  dur : Duration := {}
  deriving DecidableEq, Repr

/-- `Period.decode` (types.go:515-531).  Start and End are decoded by calls of their own, so each loads its location anew: pointers
`ptr` and `ptr + 1`. -/
def Period.decode (E : Env) (ptr : Nat) (tzid : Option Str) (data : Str) : Res Period :=
  match split2 '/' data with
  | (_, none) => .err .invalidPeriod
  | (_, some []) => .err .invalidPeriod
  | (a, some (c :: b)) => do
    let start ← DateTime.decode E ptr tzid a
    if c = 'P' ∨ c = '+' then do
      let d ← Duration.decode (c :: b)
      return { start := start, dur := d }
    else do
      let stop ← DateTime.decode E (ptr + 1) tzid (c :: b)
      return { start := start, stop := stop }

/-- `Period.encode` (types.go:539-548). -/
def Period.encode (E : Env) (p : Period) : Str :=
  DateTime.encode E p.start ++ '/' :: (if p.stop.isZero then Duration.encode p.dur else DateTime.encode E p.stop)

/-- `Period.valid` (types.go:550-562): locations are compared as pointers. -/
def Period.valid (p : Period) : Res Unit :=
  if p.start.isZero then .err .invalidPeriodStart
  else if p.stop.isZero then Res.guard .invalidPeriodDuration (!p.dur.neg)
  else Res.guard .invalidPeriodEnd (p.stop.after p.start && p.start.loc = p.stop.loc)

/-! ## Floats, as IEEE 754 bit patterns -/

/-- `math.IsNaN(d) || math.IsInf(d, 0)`: all exponent bits are set.  Go library, not in /repo; called at types.go:424, 466, 472. -/
def floatSpecial (b : UInt64) : Bool := (b >>> 52) &&& 0x7ff == 0x7ff

/-- `Float.decode` (types.go:401-410). -/
def Float.decode (E : Env) (s : Str) : Res UInt64 := Res.ofOption .ext (E.floatParse s)

/-- `Float.encode` (types.go:417-419). -/
def Float.encode (E : Env) (f : UInt64) : Str := E.floatFormat f

/-- `Float.valid` (types.go:421-429): an error unless NaN or infinite. -/
def Float.valid (f : UInt64) : Res Unit := Res.guard .invalidFloat (floatSpecial f)

/-- `TFloat.decode` (types.go:434-450). -/
def TFloat.decode (E : Env) (s : Str) : Res (UInt64 × UInt64) :=
  match split2 ';' s with
  | (_, none) => .err .invalidTFloat
  | (a, some b) => do
    let x ← Res.ofOption .ext (E.floatParse a)
    let y ← Res.ofOption .ext (E.floatParse b)
    return (x, y)

/-- `TFloat.encode` (types.go:457-461). -/
def TFloat.encode (E : Env) (t : UInt64 × UInt64) : Str := E.floatFormat t.1 ++ ';' :: E.floatFormat t.2

/-- `TFloat.valid` (types.go:463-477). -/
def TFloat.valid (t : UInt64 × UInt64) : Res Unit := do
  Res.guard .invalidFloat (floatSpecial t.1)
  Res.guard .invalidFloat (floatSpecial t.2)

/-! ## URIs -/

/-- `URI.decode` and `CalendarAddress.decode` (types.go:94-103, 1444-1453). -/
def URI.decode (E : Env) (s : Str) : Res Url := Res.ofOption .ext (E.urlParse s)

/-- `URI.encode` and `CalendarAddress.encode` (types.go:110-112, 1460-1462). -/
def URI.encode (E : Env) (u : Url) : Str := E.urlString u

/-! ## All values -/

/-- The value types of properties.  `Float` and `Time` are used by no property.  types.go:20, 54, 90, 119, 154, 220, 432, 480, 510, 621, 1238, 1326, 1440, 1469. -/
inductive Kind where
  | binary | boolean | calAddress | date | dateTime | duration | integer | mtext | period | recur | text | tfloat
  | uri | utcOffset
  deriving DecidableEq, Repr

/-- A value of one of these types.  types.go:20, 54, 90, 119, 154, 220, 432, 480, 510, 621, 1238, 1326, 1440, 1469. -/
inductive Val where
  | binary (b : Bytes)
  | boolean (b : Bool)
  | calAddress (u : Url)
  | date (t : GoTime)
  | dateTime (t : GoTime)
  | duration (d : Duration)
  | integer (i : Int)
  | mtext (ts : List Str)
  | period (p : Period)
  | recur (r : Recur)
  | text (t : Str)
  | tfloat (t : UInt64 × UInt64)
  | uri (u : Url)
  | utcOffset (o : Int)
  deriving DecidableEq, Repr

/-- The type of a value (the same lines of types.go:20-1469). -/
def Val.kind : Val → Kind
  | .binary _ => .binary
  | .boolean _ => .boolean
  | .calAddress _ => .calAddress
  | .date _ => .date
  | .dateTime _ => .dateTime
  | .duration _ => .duration
  | .integer _ => .integer
  | .mtext _ => .mtext
  | .period _ => .period
  | .recur _ => .recur
  | .text _ => .text
  | .tfloat _ => .tfloat
  | .uri _ => .uri
  | .utcOffset _ => .utcOffset

/-- The `decode` methods of types.go, by type.  `op` is the map of the parameters that the property does not know. -/
def Val.decode (E : Env) (op : Str → Option Str) (k : Kind) (s : Str) : Res Val :=
  match k with
  | .binary => .binary <$> Binary.decode ((op c!"ENCODING").getD []) s
  | .boolean => .boolean <$> Boolean.decode s
  | .calAddress => .calAddress <$> URI.decode E s
  | .date => .date <$> Date.decode s
  | .dateTime => .dateTime <$> DateTime.decode E 0 (op c!"TZID") s
  | .duration => .duration <$> Duration.decode s
  | .integer => .integer <$> Integer.decode s
  | .mtext => .mtext <$> MText.decode s
  | .period => .period <$> Period.decode E 0 (op c!"TZID") s
  | .recur => .recur <$> Recur.decode E 0 (op c!"TZID") s
  | .text => .text <$> Text.decode s
  | .tfloat => .tfloat <$> TFloat.decode E s
  | .uri => .uri <$> URI.decode E s
  | .utcOffset => .utcOffset <$> UTCOffset.decode s

/-- The `encode` methods of types.go. -/
def Val.text_ (E : Env) : Val → Str
  | .binary b => Binary.encode b
  | .boolean b => Boolean.encode b
  | .calAddress u => URI.encode E u
  | .date t => Date.encode E t
  | .dateTime t => DateTime.encode E t
  | .duration d => Duration.encode d
  | .integer i => Integer.encode i
  | .mtext ts => MText.encode ts
  | .period p => Period.encode E p
  | .recur r => Recur.encode E r
  | .text t => Text.encode t
  | .tfloat t => TFloat.encode E t
  | .uri u => URI.encode E u
  | .utcOffset o => UTCOffset.encode o

/-- What the `aencode` methods of types.go write before the colon. -/
def Val.head_ : Val → Str
  | .binary _ => c!";ENCODING=BASE64"
  | .dateTime t => writeTimezone t
  | .period p => writeTimezone p.start
  | .recur r => writeTimezone r.until_
  | _ => []

/-- The `aencode` methods of types.go. -/
def Val.aencode (E : Env) (v : Val) : Str := v.head_ ++ ':' :: v.text_ E

/-- The `valid` methods of types.go. -/
def Val.valid : Val → Res Unit
  | .date t => t.valid
  | .dateTime t => t.valid
  | .mtext ts => MText.valid ts
  | .period p => p.valid
  | .recur r => r.valid
  | .text t => Text.valid t
  | .tfloat t => TFloat.valid t
  | .binary _ | .boolean _ | .calAddress _ | .duration _ | .integer _ | .uri _ | .utcOffset _ => .ok ()

end Ics
