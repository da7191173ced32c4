import Verif.Writer
/-!
# Model of the `encode` methods, one call of `Write` or `WriteString` at a time

Codec.lean has the text that the `encode` methods write, as one piece, and nothing of what was written when they never return.  Here is every call they make of the
folder's `Write` and `WriteString`, in order, up to the point where they return or go on for ever.
-/

namespace Ics

/-- What a piece of code hands to `Write` and `WriteString`, call by call, and whether it comes to its end.  Only `encode6868` (params.go:1217-1236) may not, and it
calls neither.  The results of the calls are looked at nowhere, so that nothing here depends on the writer. -/
structure Said where
  calls : List Str := []
  ends : Bool := true
  deriving DecidableEq, Repr

/-- These calls, no more.  E.g. types.go:458-460. -/
def Said.of (l : List Str) : Said := ⟨l, true⟩

/-- One after the other: two statements.  E.g. params.go:83-90. -/
def Said.andThen (a b : Said) : Said := if a.ends then ⟨a.calls ++ b.calls, b.ends⟩ else a

/-- A sequence of statements.  E.g. sections.go:124-150. -/
def Said.seq : List Said → Said
  | [] => .of []
  | x :: xs => x.andThen (Said.seq xs)

/-- A loop that writes a comma before each round but the first.  E.g. params.go:191-199. -/
def Said.commas : List Said → Said
  | [] => .of []
  | [x] => x
  | x :: xs => x.andThen ((Said.of [[',']]).andThen (Said.commas xs))

/-! ## Values -/

/-- The same loop where each round makes these calls and ends.  E.g. types.go:1017-1023, 1354-1360. -/
def commaCalls : List (List Str) → List Str
  | [] => []
  | [x] => x
  | x :: xs => x ++ [','] :: commaCalls xs

/-- `e.Write(b)` and `e.Close()` of the encoder of `encoding/base64`: calls for 768 octets at most, and one for what is left of them behind the last whole group of three.
Go library, not in /repo; called at types.go:43-46. -/
def b64Calls (b : Bytes) : List Str :=
  if b.length < 3 then (if b = [] then [] else [b64Encode b])
  else
    let n := min 768 (b.length - b.length % 3)
    b64Encode (b.take n) :: b64Calls (b.drop n)
termination_by b.length
decreasing_by simp only [List.length_drop]; omega

/-- `Period.encode` (types.go:539-548). -/
def Period.calls (E : Env) (p : Period) : List Str :=
  [DateTime.encode E p.start, ['/'], if p.stop.isZero then Duration.encode p.dur else DateTime.encode E p.stop]

/-- A list part of a rule (e.g. types.go:1013-1023); `f` has the calls of one round. -/
def listCalls {α : Type} (name : Str) (f : α → List Str) (l : List α) : List Str :=
  match l with
  | [] => []
  | _ :: _ => (';' :: name ++ ['=']) :: commaCalls (l.map f)

/-- The name of a day; no call if it is none (types.go:1062-1077, 1144-1159). -/
def dayCalls (d : Nat) : List Str := if d = 0 then [] else (dayNames[d - 1]?).toList

/-- A round of the BYDAY loop (types.go:1058-1077). -/
def dayRecurCalls (d : DayRecur) : List Str := (if d.occ ≠ 0 then [fmtInt d.occ] else []) ++ dayCalls d.day

/-- `Recur.encode` (types.go:973-1161). -/
def Recur.calls (E : Env) (r : Recur) : List Str :=
  [c!"FREQ=" ++ fmtFreq r.freq] ++
  (if r.count ≠ 0 then [c!";COUNT=", fmtNat r.count]
   else if !r.until_.isZero then [c!";UNTIL=", if r.untilTime then DateTime.encode E r.until_ else Date.encode E r.until_]
   else []) ++
  (if r.interval ≠ 0 then [c!";INTERVAL=", fmtNat r.interval] else []) ++
  listCalls c!"BYSECOND" (fun x => [fmtNat x]) r.bySecond ++
  listCalls c!"BYMINUTE" (fun x => [fmtNat x]) r.byMinute ++
  listCalls c!"BYHOUR" (fun x => [fmtNat x]) r.byHour ++
  listCalls c!"BYDAY" dayRecurCalls r.byDay ++
  listCalls c!"BYMONTHDAY" (fun x => [fmtInt x]) r.byMonthDay ++
  listCalls c!"BYYEARDAY" (fun x => [fmtInt x]) r.byYearDay ++
  listCalls c!"BYWEEKNO" (fun x => [fmtInt x]) r.byWeekNum ++
  listCalls c!"BYMONTH" (fun x => [fmtNat x]) r.byMonth ++
  listCalls c!"BYSETPOS" (fun x => [fmtInt x]) r.bySetPos ++
  (if r.weekStart ≠ 0 then c!";WKST=" :: dayCalls r.weekStart else [])

/-- `MText.encode` (types.go:1353-1361). -/
def MText.calls (ts : List Str) : List Str := commaCalls (ts.map fun t => [Text.encode t])

/-- `TFloat.encode` (types.go:457-461). -/
def TFloat.calls (E : Env) (t : UInt64 × UInt64) : List Str := [E.floatFormat t.1, [';'], E.floatFormat t.2]

/-- The `encode` methods of types.go (lines 42-47, 77-83, 110-112, 139-143, 196-209, 343-391, 457-461, 498-500, 539-548, 973-1161, 1293-1316, 1353-1361, 1460-1462, 1533-1566). -/
def Val.calls (E : Env) : Val → List Str
  | .binary b => b64Calls b
  | .boolean b => [Boolean.encode b]
  | .calAddress u => [URI.encode E u]
  | .date t => [Date.encode E t]
  | .dateTime t => [DateTime.encode E t]
  | .duration d => [Duration.encode d]
  | .integer i => [Integer.encode i]
  | .mtext ts => MText.calls ts
  | .period p => p.calls E
  | .recur r => r.calls E
  | .text t => [Text.encode t]
  | .tfloat t => TFloat.calls E t
  | .uri u => [URI.encode E u]
  | .utcOffset o => [UTCOffset.encode o]

/-- `writeTimezone` (types.go:1568-1575). -/
def timezoneCalls (t : GoTime) : List Str :=
  match t.loc with
  | .utc | .local => []
  | .zone name _ _ => [c!";TZID=", name]

/-- What the `aencode` methods of types.go write before the value, with the colon (lines 37-40, 72-75, 105-108, 134-137, 190-194, 338-341, 452-455, 493-496, 533-537, 967-971, 1288-1291,
1348-1351, 1455-1458, 1528-1531). -/
def Val.headCalls : Val → List Str
  | .binary _ => [c!";ENCODING=BASE64:"]
  | .dateTime t => timezoneCalls t ++ [[':']]
  | .period p => timezoneCalls p.start ++ [[':']]
  | .recur r => timezoneCalls r.until_ ++ [[':']]
  | _ => [[':']]

/-- The `aencode` methods of types.go. -/
def Val.acalls (E : Env) (v : Val) : List Str := v.headCalls ++ v.calls E

/-! ## Parameters -/

/-- `w.Write(encode6868(string(t)))` (e.g. params.go:90): no call if `encode6868` never returns. -/
def said6868 (s : Str) : Said :=
  match encode6868 s with
  | some e => .of [e]
  | none => ⟨[], false⟩

/-- The same between quotes (e.g. params.go:86-88). -/
def saidQuoted (s : Str) : Said := (Said.of [['"']]).andThen ((said6868 s).andThen (.of [['"']]))

/-- The `encode` methods of params.go (lines 38-48, 78-92, 141-156, 184-199, 233-248, 283-292, 380-394, 443-457, 482-496, 526-541,
603-622, 644-648, 744-755, 801-815, 847-855, 884-893, 1079-1089, 1123-1132, 1165-1174). -/
def PKind.said (E : Env) (name : Str) (k : PKind) (v : ParamVal) : Said :=
  let pre := Said.of [';' :: name ++ ['=']]
  match k, v with
  | .url, .url u => if E.urlString u = [] then .of [] else pre.andThen (.of [E.urlString u])
  | .urls, .urls us => if us = [] then .of [] else pre.andThen (Said.commas (us.map fun u => .of [E.urlString u]))
  | .str q, .str s =>
    if s = [] then .of []
    else pre.andThen (if q || containsAny isSpecial s then saidQuoted s else said6868 s)
  | .fmt, .str s =>
    if s = [] then .of []
    else pre.andThen (if containsAny isSpecial s then saidQuoted s else said6868 s)
  | .enum names, .enum n => pre.andThen (.of [if n = 0 then c!"UNKNOWN" else names.getD (n - 1) c!"UNKNOWN"])
  | .strs, .strs ss => if ss = [] then .of [] else pre.andThen (Said.commas (ss.map saidQuoted))
  | .range, _ => pre.andThen (.of [c!"THISANDFUTURE"])
  | .bool, .bool b => if b then pre.andThen (.of [Boolean.encode b]) else .of []
  | _, _ => .of []

/-! ## Properties -/

/-- The parameters (e.g. properties.go:362-404). -/
def saidParams (E : Env) : List PDef → List (Option ParamVal) → List Said
  | d :: ds, p :: ps => (match p with
    | some v => d.kind.said E d.name v
    | none => .of []) :: saidParams E ds ps
  | _, _ => []

/-- The alternatives (e.g. properties.go:2386-2398). -/
def valsCalls (E : Env) : Bool → List (Str × Kind) → List (Option Val) → List Str
  | first, (n, _) :: ks, v :: vs => (match v with
    | some v => (if first then [] else [c!";VALUE=" ++ n]) ++ v.acalls E
    | none => []) ++ valsCalls E false ks vs
  | _, _, _ => []

/-- The `encode` methods of properties.go.  For an enumeration the colon is handed over with the name, and there is no call for a value that is none (e.g. properties.go:44-57). -/
def PSpec.said (E : Env) (sp : PSpec) (v : PropVal) : Said :=
  match sp.shape, v with
  | .enum names, .enum n => .of ([sp.name ++ [':']] ++ names[n]?.toList ++ [crlf])
  | .fields params vals, .fields ps vs =>
    (Said.of [sp.name]).andThen ((Said.seq (saidParams E params ps)).andThen (.of (valsCalls E true vals vs ++ [crlf])))
  | _, _ => .of []

/-! ## Sections -/

/-- The properties of each field in order (e.g. sections.go:560-677). -/
def saidFields (E : Env) : List SField → List (List PropVal) → List Said
  | f :: fs, v :: vs => v.map (f.spec.said E) ++ saidFields E fs vs
  | _, _ => []

/-- The subsections of each kind in order (e.g. sections.go:677-679). -/
def saidSubs {κ σ : Type} (enc : κ → σ → Said) : List (Str × κ) → List (List σ) → List Said
  | (_, k) :: ks, v :: vs => v.map (enc k) ++ saidSubs enc ks vs
  | _, _ => []

/-- All between the BEGIN and END lines.  E.g. sections.go:561-680. -/
def Tab.saidBody {κ σ : Type} (E : Env) (T : Tab κ) (enc : κ → σ → Said) (s : Sect σ) : List Said :=
  saidFields E T.fields s.fields ++ saidSubs enc T.subs s.subs

/-- The `encode` methods of sections.go (not alarms): a BEGIN or END line is one call, with its line end. -/
def Tab.said {κ σ : Type} (E : Env) (T : Tab κ) (enc : κ → σ → Said) (s : Sect σ) : Said :=
  Said.seq ([.of [lineOf kBEGIN T.name]] ++ T.saidBody E enc s ++ [.of [lineOf kEND T.name]])

/-- Sections without subsections (sections.go:2610-2633, 2789-2812, 3036-4169). -/
def noSaid (k : Empty) (_ : Empty) : Said := nomatch k

/-- `Alarm.encode` (sections_alarm.go:82-100); an alarm without type cannot be reached here, validation rejects it. -/
def alarmSaid (E : Env) (a : Option (AKind × Leaf)) : Said :=
  match a with
  | none => .of []
  | some (k, s) =>
    Said.seq ([.of [lineOf kBEGIN kVALARM], .of [lineOf kACTION k.action]] ++ k.tab.saidBody E noSaid s ++ [.of [lineOf kEND kVALARM]])

/-- `Alarm.encode`, `Standard.encode`, `Daylight.encode` (sections_alarm.go:82-100, sections.go:2610-2633, 2789-2812). -/
def subSaid (E : Env) (k : SubKind) (s : Sub) : Said :=
  match k, s with
  | .alarm, .alarm a => alarmSaid E a
  | .leaf T, .leaf s => T.said E noSaid s
  | _, _ => .of []

/-- `cal.encode` (sections.go:124-150). -/
def Cal.said (E : Env) (c : Cal) : Said := tabCalendar.said E (fun T s => T.said E (subSaid E) s) c

/-! ## Encode -/

/-- What `Encode` comes to: a panic, a return with this error, or no return; with what happened at the caller's writer.  encoder.go:15-25. -/
inductive Encoding where
  | panic
  | returned (err : Option EncErr) (f : WFolder)
  | never (f : WFolder)

/-- `Encode(w, cal)` (encoder.go:15-25), as `encodeTo`, with the calls of the folder as the `encode` methods make them. -/
def encodeCalls (E : Env) (w : Writer) (c : Cal) : Encoding :=
  match c.valid with
  | .err e => .returned (some (.validation e)) {}
  | .panic => .panic
  | .ok () =>
    let f := ({} : WFolder).writes w ((c.said E).calls.map utf8)
    if (c.said E).ends then .returned (f.err.map .write) f else .never f

end Ics
