import Verif.Time
import Verif.Scalars
/-!
# Model of Recur (types.go:564-1235)
-/

namespace Ics

/-- `DayRecur` (types.go:612-617).  `day`: 0 is `UnknownDay`, 1 to 7 are Sunday to Saturday (types.go:579-591); both are
unconstrained numbers here, as the Go types (uint8, int8) admit more than the constants. -/
structure DayRecur where
  day : Nat
  occ : Int
  deriving DecidableEq, Repr

/-- `Recur` (types.go:619-637).  Nil and empty slices are both `[]`; unsigned fields are `Nat`, signed fields `Int`. -/
structure Recur where
  freq : Nat := 0
  weekStart : Nat := 0
  untilTime : Bool := false
  until_ : GoTime := {}
  count : Nat := 0
  interval : Nat := 0
  bySecond : List Nat := []
  byMinute : List Nat := []
  byHour : List Nat := []
  byDay : List DayRecur := []
  byMonthDay : List Int := []
  byYearDay : List Int := []
  byWeekNum : List Int := []
  byMonth : List Nat := []
  bySetPos : List Int := []
  deriving DecidableEq, Repr

/-- The static types of the fields (uint8, uint64, int8, int16).  types.go:565, 579, 594, 615-637. -/
structure Recur.WF (r : Recur) : Prop where
  freq : r.freq < 256
  weekStart : r.weekStart < 256
  count : r.count < 2 ^ 64
  interval : r.interval < 2 ^ 64
  bySecond : ∀ x ∈ r.bySecond, x < 256
  byMinute : ∀ x ∈ r.byMinute, x < 256
  byHour : ∀ x ∈ r.byHour, x < 256
  byDay : ∀ x ∈ r.byDay, x.day < 256 ∧ -128 ≤ x.occ ∧ x.occ < 128
  byMonthDay : ∀ x ∈ r.byMonthDay, -128 ≤ x ∧ x < 128
  byYearDay : ∀ x ∈ r.byYearDay, -32768 ≤ x ∧ x < 32768
  byWeekNum : ∀ x ∈ r.byWeekNum, -128 ≤ x ∧ x < 128
  byMonth : ∀ x ∈ r.byMonth, x < 256
  bySetPos : ∀ x ∈ r.bySetPos, -32768 ≤ x ∧ x < 32768

/-- Names of the frequencies (types.go:568-576, 652-666, 976-993). -/
def freqNames : List Str :=
  [c!"SECONDLY", c!"MINUTELY", c!"HOURLY", c!"DAILY", c!"WEEKLY", c!"MONTHLY", c!"YEARLY"]

/-- Names of the days, Sunday (1) first (types.go:821-838, 932-949). -/
def dayNames : List Str := [c!"SU", c!"MO", c!"TU", c!"WE", c!"TH", c!"FR", c!"SA"]

/-- Position of a string in a list of names.  The switch statements over names, e.g. types.go:652-666, properties.go:30-39. -/
def indexOf (s : Str) : List Str → Option Nat
  | [] => none
  | n :: ns => if s = n then some 0 else (indexOf s ns).map (· + 1)

/-- The loops that decode the comma separated lists: the first failing element ends them.  types.go:720-935, params.go:166-182. -/
def mapRes {α β : Type} (f : α → Res β) : List α → Res (List β)
  | [] => .ok []
  | a :: as => do
    let b ← f a
    let bs ← mapRes f as
    return b :: bs

/-- A number of an unsigned list: `strconv.ParseUint(s, 10, 8)` and the range check (types.go:724-727, 742-745, 760-763, 905-908). -/
def decU (lo hi : Nat) (s : Str) : Res Nat :=
  match parseUint 8 s with
  | some n => if lo ≤ n ∧ n ≤ hi then .ok n else .err .invalidRecur
  | none => .err .invalidRecur

/-- A number of a signed list: `strconv.ParseInt(s, 10, bits)` and the range check (types.go:851-854, 869-872, 887-890, 923-926). -/
def decI (bits : Nat) (bound : Int) (s : Str) : Res Int :=
  match parseInt bits s with
  | some i => if i ≠ 0 ∧ i ≤ bound ∧ -bound ≤ i then .ok i else .err .invalidRecur
  | none => .err .invalidRecur

/-- The name of the day at the end of a BYDAY element (types.go:817-841); the test of the length is implied by the names. -/
def decDayName (num : Int) (day : Str) : Res DayRecur :=
  match indexOf day dayNames with
  | some i => .ok ⟨i + 1, num⟩
  | none => .err .invalidRecur

/-- A BYDAY element behind its sign (types.go:799-841).  `day[0]` of an empty string panics. -/
def decDayNum (neg numCheck : Bool) : Str → Res DayRecur
  | [] => .panic
  | c :: rest =>
    if isDigit c then
      match rest with
      | [] => .panic
      | c2 :: rest2 =>
        let (num, day) := if isDigit c2 then (digitVal c * 10 + digitVal c2, rest2) else (digitVal c, rest)
        if num = 0 ∨ num > 53 then .err .invalidRecur
        else decDayName (if neg then -(num : Int) else num) day
    else if numCheck then decDayName 0 (c :: rest)
    else .err .invalidRecur

/-- A BYDAY element (types.go:780-844). Simplified: lengths are in characters, not octets; both count less than two only for
strings that the code rejects either way. -/
def decDay (day : Str) : Res DayRecur :=
  if day.length < 2 then .err .invalidRecur
  else match day with
    | '+' :: rest => decDayNum false true rest
    | '-' :: rest => if rest.length < 2 then .err .invalidRecur else decDayNum true false rest
    | _ => decDayNum false true day

/-- The rule parts that `Recur.decode` knows (types.go:650-955). -/
inductive RKey where
  | freq | «until» | count | interval | bySecond | byMinute | byHour | byDay | byMonthDay | byYearDay | byWeekNum | byMonth
  | bySetPos | weekStart
  deriving DecidableEq, Repr

/-- Their names.  types.go:650-955. -/
def rkeys : List (Str × RKey) :=
  [(c!"FREQ", .freq), (c!"UNTIL", .until), (c!"COUNT", .count), (c!"INTERVAL", .interval), (c!"BYSECOND", .bySecond),
   (c!"BYMINUTE", .byMinute), (c!"BYHOUR", .byHour), (c!"BYDAY", .byDay), (c!"BYMONTHDAY", .byMonthDay),
   (c!"BYYEARDAY", .byYearDay), (c!"BYWEEKNO", .byWeekNum), (c!"BYMONTH", .byMonth), (c!"BYSETPOS", .bySetPos),
   (c!"WKST", .weekStart)]

/-- The state of the loop of `Recur.decode`: the rule so far and whether FREQ was seen.  types.go:639-641. -/
abbrev RState := Recur × Bool

/-- `if r.X != nil` of the list parts.  types.go:715-922. -/
def once {α β : Type} (l : List α) (x : Res β) : Res β :=
  match l with
  | [] => x
  | _ :: _ => .err .invalidRecur

/-- One rule part (types.go:650-955), by its name and the text behind '='. -/
def Recur.part (E : Env) (ptr : Nat) (tzid : Option Str) (st : RState) (v : Str) : RKey → Res RState
  | .freq =>
    match indexOf v freqNames with
    | some f => .ok ({ st.1 with freq := f }, true)
    | none => .err .invalidRecur
  | .until =>
    if st.1.count > 0 then .err .invalidRecur
    else if v.length > 10 then
      match DateTime.decode E ptr tzid v with
      | .ok t => .ok ({ st.1 with until_ := t, untilTime := true }, st.2)
      | .err _ => .err .invalidRecur
      | .panic => .panic
    else
      match Date.decode v with
      | .ok t => .ok ({ st.1 with until_ := t, untilTime := false }, st.2)
      | .err _ => .err .invalidRecur
      | .panic => .panic
  | .count =>
    if !st.1.until_.isZero then .err .invalidRecur
    else match parseUint 64 v with
      | some n => .ok ({ st.1 with count := n }, st.2)
      | none => .err .invalidRecur
  | .interval =>
    if st.1.interval > 0 then .err .invalidRecur
    else match parseUint 64 v with
      | some n => .ok ({ st.1 with interval := n }, st.2)
      | none => .err .invalidRecur
  | .bySecond => once st.1.bySecond do
    let l ← mapRes (decU 0 60) (splitOn ',' v)
    return ({ st.1 with bySecond := l }, st.2)
  | .byMinute => once st.1.byMinute do
    let l ← mapRes (decU 0 59) (splitOn ',' v)
    return ({ st.1 with byMinute := l }, st.2)
  | .byHour => once st.1.byHour do
    let l ← mapRes (decU 0 23) (splitOn ',' v)
    return ({ st.1 with byHour := l }, st.2)
  | .byDay => once st.1.byDay do
    let l ← mapRes decDay (splitOn ',' v)
    return ({ st.1 with byDay := l }, st.2)
  | .byMonthDay => once st.1.byMonthDay do
    let l ← mapRes (decI 8 31) (splitOn ',' v)
    return ({ st.1 with byMonthDay := l }, st.2)
  | .byYearDay => once st.1.byYearDay do
    let l ← mapRes (decI 16 366) (splitOn ',' v)
    return ({ st.1 with byYearDay := l }, st.2)
  | .byWeekNum => once st.1.byWeekNum do
    let l ← mapRes (decI 8 53) (splitOn ',' v)
    return ({ st.1 with byWeekNum := l }, st.2)
  | .byMonth => once st.1.byMonth do
    let l ← mapRes (decU 1 12) (splitOn ',' v)
    return ({ st.1 with byMonth := l }, st.2)
  | .bySetPos => once st.1.bySetPos do
    let l ← mapRes (decI 16 366) (splitOn ',' v)
    return ({ st.1 with bySetPos := l }, st.2)
  | .weekStart =>
    if st.1.weekStart ≠ 0 then .err .invalidRecur
    else match indexOf v dayNames with
      | some i => .ok ({ st.1 with weekStart := i + 1 }, st.2)
      | none => .err .invalidRecur

/-- The loop over the rule parts (types.go:642-956). -/
def Recur.loop (E : Env) (ptr : Nat) (tzid : Option Str) : RState → List Str → Res RState
  | st, [] => .ok st
  | st, p :: ps =>
    match split2 '=' p with
    | (_, none) => .err .invalidRecur
    | (name, some v) =>
      match rkeys.lookup name with
      | none => .err .invalidRecur
      | some k => do
        let st' ← Recur.part E ptr tzid st v k
        Recur.loop E ptr tzid st' ps

/-- `Recur.decode` (types.go:639-965). -/
def Recur.decode (E : Env) (ptr : Nat) (tzid : Option Str) (data : Str) : Res Recur := do
  let (r, freq) ← Recur.loop E ptr tzid ({}, false) (splitOn ';' data)
  if freq then .ok r else .err .invalidRecur

/-- Name of a frequency, SECONDLY if it is none (types.go:976-993). -/
def fmtFreq (f : Nat) : Str := (freqNames[f]?).getD c!"SECONDLY"

/-- Name of a day, nothing if it is none (types.go:1062-1077, 1144-1159). -/
def fmtDay (d : Nat) : Str := if d = 0 then [] else (dayNames[d - 1]?).getD []

/-- A BYDAY element (types.go:1058-1077). -/
def fmtDayRecur (d : DayRecur) : Str := (if d.occ ≠ 0 then fmtInt d.occ else []) ++ fmtDay d.day

/-- A list part, nothing if the list is empty (e.g. types.go:1014-1024). -/
def encList {α : Type} (name : Str) (f : α → Str) (l : List α) : List Str :=
  match l with
  | [] => []
  | _ :: _ => [name ++ '=' :: join [','] (l.map f)]

/-- The rule parts in the order of `Recur.encode`.  types.go:973-1161. -/
def Recur.parts (E : Env) (r : Recur) : List Str :=
  [c!"FREQ=" ++ fmtFreq r.freq] ++
  (if r.count ≠ 0 then [c!"COUNT=" ++ fmtNat r.count]
   else if !r.until_.isZero then [c!"UNTIL=" ++ (if r.untilTime then DateTime.encode E r.until_ else Date.encode E r.until_)]
   else []) ++
  (if r.interval ≠ 0 then [c!"INTERVAL=" ++ fmtNat r.interval] else []) ++
  encList c!"BYSECOND" fmtNat r.bySecond ++
  encList c!"BYMINUTE" fmtNat r.byMinute ++
  encList c!"BYHOUR" fmtNat r.byHour ++
  encList c!"BYDAY" fmtDayRecur r.byDay ++
  encList c!"BYMONTHDAY" fmtInt r.byMonthDay ++
  encList c!"BYYEARDAY" fmtInt r.byYearDay ++
  encList c!"BYWEEKNO" fmtInt r.byWeekNum ++
  encList c!"BYMONTH" fmtNat r.byMonth ++
  encList c!"BYSETPOS" fmtInt r.bySetPos ++
  (if r.weekStart ≠ 0 then [c!"WKST=" ++ fmtDay r.weekStart] else [])

/-- `Recur.encode` (types.go:973-1161). -/
def Recur.encode (E : Env) (r : Recur) : Str := join [';'] (r.parts E)

/-- A check of all elements of a list.  types.go:1170-1228, params.go:543-551. -/
def checkAll {α : Type} (e : Err) (p : α → Bool) (l : List α) : Res Unit := Res.guard e (l.all p)

/-- types.go:1198-1226. -/
def inBound (b : Int) (x : Int) : Bool := !(x == 0 || x > b || x < -b)

/-- `Recur.valid` (types.go:1163-1235). -/
def Recur.valid (r : Recur) : Res Unit := do
  Res.guard .invalidRecurFrequency (r.freq ≤ 6)
  checkAll .invalidRecurBySecond (fun x : Nat => !(x > 60)) r.bySecond
  checkAll .invalidRecurByMinute (fun x : Nat => !(x > 59)) r.byMinute
  checkAll .invalidRecurByHour (fun x : Nat => !(x > 23)) r.byHour
  checkAll .invalidRecurByDay (fun x : DayRecur => 1 ≤ x.day && x.day ≤ 7) r.byDay
  checkAll .invalidRecurByMonthDay (inBound 31) r.byMonthDay
  checkAll .invalidRecurByYearDay (inBound 366) r.byYearDay
  checkAll .invalidRecurByWeekNum (inBound 53) r.byWeekNum
  checkAll .invalidRecurByMonth (fun x : Nat => !(x == 0 || x > 12)) r.byMonth
  checkAll .invalidRecurBySetPos (inBound 366) r.bySetPos
  Res.guard .invalidRecurWeekStart (r.weekStart ≤ 7)

end Ics
