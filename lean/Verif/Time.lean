import Verif.Calendar
/-!
# Model of Date, DateTime and Time (types.go:119-217, 1374-1437) with the parts of package time they use
-/

namespace Ics

/-- A `*time.Location`: `time.UTC`, `time.Local`, or another one with its name, its pointer identity and its rules (looked up in
`Env.zoneOff`).  Go library, not in /repo; used at types.go:160-179, 196-209, 557. -/
inductive Loc where
  | utc
  | local
  | zone (name : Str) (ptr : Nat) (rules : Nat)
  deriving DecidableEq, Repr

/-- A `time.Time`: seconds since 1 January of year 1, 00:00 UTC, nanoseconds, location.  Go library; what the types of types.go:120, 155, 1375 embed. -/
structure GoTime where
  sec : Int := 0
  nsec : Nat := 0
  loc : Loc := .utc
  deriving DecidableEq, Repr

/-- `Time.IsZero`.  Go library, not in /repo; called at types.go:146, 212, 543, 551-553, 694, 998, 1432. -/
def GoTime.isZero (t : GoTime) : Bool := t.sec == 0 && t.nsec == 0

/-- `Time.After`.  Go library, not in /repo; called at types.go:557. -/
def GoTime.after (t u : GoTime) : Bool := u.sec < t.sec || (u.sec == t.sec && u.nsec < t.nsec)

/-- Offset in seconds east of UTC of a location at an instant.  Go library, not in /repo; used by what types.go:142, 165-179, 201-205 call. -/
def locOff (E : Env) : Loc → Int → Int
  | .utc, _ => 0
  | .local, t => E.localOff t
  | .zone _ _ r, t => E.zoneOff r t

/-- Seconds of the clock on the wall in the time's location.  Go library, not in /repo; used by what types.go:142, 201-205, 1421-1425 call. -/
def GoTime.wall (E : Env) (t : GoTime) : Int := t.sec + locOff E t.loc t.sec

/-- `time.Date`: the instant of a wall clock reading.  The offset is looked up at the reading itself and, unless it is 0,
again at the instant this offset gives.  Go library, not in /repo; part of what types.go:124, 165-179, 1385-1399 call. -/
def instant (E : Env) (l : Loc) (wall : Int) : Int :=
  let off := locOff E l wall
  if off = 0 then wall else wall - locOff E l (wall - off)

/-- `time.LoadLocation`; `ptr` is the identity of the location it allocates.  Go library, not in /repo; called at types.go:160, 1380. -/
def loadLocation (E : Env) (ptr : Nat) (name : Str) : Option Loc :=
  if name = [] ∨ name = c!"UTC" then some .utc
  else if name = c!"Local" then some .local
  else (E.loadZone name).map (fun r => .zone name ptr r)

/-! ## Parsing -/

/-- The first `n` characters as a decimal number.  Go library, not in /repo; part of what types.go:124, 165-179, 1385-1399 call. -/
def takeNum (n : Nat) (s : Str) : Option (Nat × Str) :=
  if (s.take n).length = n ∧ (s.take n).all isDigit then some (digitsVal 0 (s.take n), s.drop n) else none

/-- Layout "20060102": four digits year, two digits month, two digits day, and the day must exist.  Gives the day number.
Go library, not in /repo; part of what types.go:124, 165-179, 1385-1399 call. -/
def parseDate8 (s : Str) : Option (Int × Str) := do
  let (y, s) ← takeNum 4 s
  let (m, s) ← takeNum 2 s
  let (d, s) ← takeNum 2 s
  if 1 ≤ m ∧ m ≤ 12 ∧ 1 ≤ d ∧ d ≤ daysIn (isLeap y) m then some (dayNumber y m d, s) else none

/-- Fractional seconds, which `time.Parse` accepts behind the seconds although the layouts have none: '.' or ',' and digits,
of which nine count.  Go library, not in /repo; part of what types.go:124, 165-179, 1385-1399 call. -/
def parseFrac (s : Str) : Nat × Str :=
  match s with
  | c :: d :: r =>
    if (c = '.' ∨ c = ',') ∧ isDigit d then
      let ds := ((d :: r).takeWhile isDigit).take 9
      (digitsVal 0 ds * 10 ^ (9 - ds.length), (d :: r).dropWhile isDigit)
    else (0, s)
  | _ => (0, s)

/-- Layout "150405": hour, minute, second, fractional seconds.  Gives seconds of the day and nanoseconds.
Go library, not in /repo; part of what types.go:124, 165-179, 1385-1399 call. -/
def parseClock (s : Str) : Option (Nat × Nat × Str) := do
  let (h, s) ← takeNum 2 s
  let (m, s) ← takeNum 2 s
  let (sec, s) ← takeNum 2 s
  if h < 24 ∧ m < 60 ∧ sec < 60 then
    let (ns, s) := parseFrac s
    some (3600 * h + 60 * m + sec, ns, s)
  else none

/-- `time.Parse("20060102", s)`.  Go library, not in /repo; called at types.go:124. -/
def parseDate (s : Str) : Option GoTime :=
  match parseDate8 s with
  | some (n, []) => some { sec := n * 86400 }
  | _ => none

/-- `time.ParseInLocation` with layout "20060102T150405" (`z = false`) or "20060102T150405Z" (`z = true`).  Go library, not in /repo; called at types.go:165, 172, 179. -/
def parseDateTime (E : Env) (z : Bool) (l : Loc) (s : Str) : Option GoTime :=
  match parseDate8 s with
  | some (n, 'T' :: s) =>
    match parseClock s with
    | some (c, ns, r) =>
      if r = (if z then ['Z'] else []) then some ⟨instant E l (n * 86400 + c), ns, l⟩ else none
    | none => none
  | _ => none

/-- `time.ParseInLocation` with layout "150405" or "150405Z": the date is 1 January of year 0.  Go library, not in /repo; called at types.go:1385, 1392, 1399. -/
def parseTime (E : Env) (z : Bool) (l : Loc) (s : Str) : Option GoTime :=
  match parseClock s with
  | some (c, ns, r) =>
    if r = (if z then ['Z'] else []) then some ⟨instant E l (dayNumber 0 1 1 * 86400 + c), ns, l⟩ else none
  | none => none

/-- `Date.decode` (types.go:123-132). -/
def Date.decode (s : Str) : Res GoTime := Res.ofOption .ext (parseDate s)

/-- `DateTime.decode` (types.go:158-188); `tzid` is `params["TZID"]`. -/
def DateTime.decode (E : Env) (ptr : Nat) (tzid : Option Str) (s : Str) : Res GoTime :=
  match tzid with
  | some name => do
    let l ← Res.ofOption .ext (loadLocation E ptr name)
    Res.ofOption .ext (parseDateTime E false l s)
  | none =>
    if s.getLast? = some 'Z' then Res.ofOption .ext (parseDateTime E true .utc s)
    else Res.ofOption .ext (parseDateTime E false .local s)

/-- `Time.decode` (types.go:1378-1408). -/
def Time.decode (E : Env) (ptr : Nat) (tzid : Option Str) (s : Str) : Res GoTime :=
  match tzid with
  | some name => do
    let l ← Res.ofOption .ext (loadLocation E ptr name)
    Res.ofOption .ext (parseTime E false l s)
  | none =>
    if s.getLast? = some 'Z' then Res.ofOption .ext (parseTime E true .utc s)
    else Res.ofOption .ext (parseTime E false .local s)

/-! ## Formatting -/

/-- `appendInt(b, n, 4)` of package time: zero padded to four digits, longer if needed.  Go library, not in /repo; part of what types.go:142, 201-205, 1421-1425 call. -/
def pad4 (n : Nat) : Str := if n < 10000 then dd (n / 100) ++ dd (n % 100) else fmtNat n

/-- The year of a layout: a minus sign for negative years.  Go library, not in /repo; part of what types.go:142, 201-205, 1421-1425 call. -/
def fmtYear (y : Int) : Str := (if y < 0 then ['-'] else []) ++ pad4 y.natAbs

/-- Layout "20060102" for the day with this number.  Go library, not in /repo; part of what types.go:142, 201-205, 1421-1425 call. -/
def fmtDate8 (n : Int) : Str :=
  let (y, m, d) := civil n
  fmtYear y ++ dd m ++ dd d

/-- Layout "150405" for this second of the day.  Go library, not in /repo; part of what types.go:142, 201-205, 1421-1425 call. -/
def fmtClock (c : Nat) : Str := dd (c / 3600) ++ dd (c / 60 % 60) ++ dd (c % 60)

/-- `Date.encode` (types.go:139-143). -/
def Date.encode (E : Env) (t : GoTime) : Str := fmtDate8 (t.wall E / 86400)

/-- `DateTime.encode` (types.go:196-209). -/
def DateTime.encode (E : Env) (t : GoTime) : Str :=
  fmtDate8 (t.wall E / 86400) ++ 'T' :: fmtClock (t.wall E % 86400).toNat ++ (if t.loc = .utc then ['Z'] else [])

/-- `Time.encode` (types.go:1416-1429). -/
def Time.encode (E : Env) (t : GoTime) : Str :=
  fmtClock (t.wall E % 86400).toNat ++ (if t.loc = .utc then ['Z'] else [])

/-- `writeTimezone` (types.go:1568-1575). -/
def writeTimezone (t : GoTime) : Str :=
  match t.loc with
  | .utc | .local => []
  | .zone name _ _ => c!";TZID=" ++ name

/-- `Date.valid`, `DateTime.valid`, `Time.valid` (types.go:145-151, 211-217, 1431-1437). -/
def GoTime.valid (t : GoTime) : Res Unit := Res.guard .invalidTime (!t.isZero)

end Ics
