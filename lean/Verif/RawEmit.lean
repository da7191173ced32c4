import Verif.Raw
import Verif.Emit
/-!
# Model of the `encode` methods for any Go strings, one call of `Write` or `WriteString` at a time

As Emit.lean, where a string may hold any octets (Raw.lean).
-/

namespace Ics

/-- As `Said`, with the octets handed over.  E.g. params.go:83-90. -/
structure SaidB where
  calls : List Bytes := []
  ends : Bool := true
  deriving DecidableEq, Repr

/-- These calls, no more.  E.g. types.go:458-460. -/
def SaidB.of (l : List Bytes) : SaidB := ⟨l, true⟩

/-- One after the other: two statements.  E.g. params.go:83-90. -/
def SaidB.andThen (a b : SaidB) : SaidB := if a.ends then ⟨a.calls ++ b.calls, b.ends⟩ else a

/-- A sequence of statements.  E.g. sections.go:124-150. -/
def SaidB.seq : List SaidB → SaidB
  | [] => .of []
  | x :: xs => x.andThen (SaidB.seq xs)

/-- A loop that writes a comma before each round but the first.  E.g. params.go:191-199. -/
def SaidB.commas : List SaidB → SaidB
  | [] => .of []
  | [x] => x
  | x :: xs => x.andThen ((SaidB.of [[0x2c]]).andThen (SaidB.commas xs))

/-- What has no strings is written as in Emit.lean.  Not in /repo. -/
def Said.octets (x : Said) : SaidB := ⟨x.calls.map utf8, x.ends⟩

/-! ## Values -/

/-- `MText.encode` (types.go:1353-1361). -/
def mtextCallsB : List Bytes → List Bytes
  | [] => []
  | [t] => [Text.encodeB t]
  | t :: ts => Text.encodeB t :: [0x2c] :: mtextCallsB ts

/-- The `encode` methods of types.go (lines 42-47, 77-83, 110-112, 139-143, 196-209, 343-391, 457-461, 498-500, 539-548, 973-1161, 1293-1316, 1353-1361, 1460-1462, 1533-1566). -/
def RawVal.calls (E : Env) (O : Octets) : RawVal → List Bytes
  | .text t => [Text.encodeB t]
  | .mtext ts => mtextCallsB ts
  | .other (.calAddress u) => [O.url u]
  | .other (.uri u) => [O.url u]
  | .other v => (v.calls E).map utf8

/-- `writeTimezone` (types.go:1568-1575). -/
def timezoneCallsB (O : Octets) (t : GoTime) : List Bytes :=
  match t.loc with
  | .utc | .local => []
  | .zone _ _ _ => [utf8 c!";TZID=", O.zone t.loc]

/-- What the `aencode` methods of types.go write before the value, with the colon (lines 37-40, 72-75, 105-108, 134-137, 190-194, 338-341, 452-455, 493-496, 533-537, 967-971, 1288-1291,
1348-1351, 1455-1458, 1528-1531). -/
def RawVal.headCalls (O : Octets) : RawVal → List Bytes
  | .other (.binary _) => [utf8 c!";ENCODING=BASE64:"]
  | .other (.dateTime t) => timezoneCallsB O t ++ [[0x3a]]
  | .other (.period p) => timezoneCallsB O p.start ++ [[0x3a]]
  | .other (.recur r) => timezoneCallsB O r.until_ ++ [[0x3a]]
  | _ => [[0x3a]]

/-- The `aencode` methods of types.go. -/
def RawVal.acalls (E : Env) (O : Octets) (v : RawVal) : List Bytes := v.headCalls O ++ v.calls E O

/-! ## Parameters -/

/-- `w.Write(encode6868(string(t)))` (e.g. params.go:90): no call if `encode6868` never returns. -/
def said6868B (s : Bytes) : SaidB :=
  match encode6868B s with
  | some e => .of [e]
  | none => ⟨[], false⟩

/-- The same between quotes (e.g. params.go:86-88). -/
def saidQuotedB (s : Bytes) : SaidB := (SaidB.of [[0x22]]).andThen ((said6868B s).andThen (.of [[0x22]]))

/-- The `encode` methods of params.go (lines 38-48, 78-92, 141-156, 184-199, 233-248, 283-292, 380-394, 443-457, 482-496, 526-541,
603-622, 644-648, 744-755, 801-815, 847-855, 884-893, 1079-1089, 1123-1132, 1165-1174). -/
def PKind.saidB (E : Env) (O : Octets) (name : Str) (k : PKind) (v : RawParam) : SaidB :=
  let pre := SaidB.of [utf8 (';' :: name ++ ['='])]
  match k, v with
  | .str q, .str s =>
    if s = [] then .of []
    else pre.andThen (if q || s.any isSpecialB then saidQuotedB s else said6868B s)
  | .fmt, .str s =>
    if s = [] then .of []
    else pre.andThen (if s.any isSpecialB then saidQuotedB s else said6868B s)
  | .strs, .strs ss => if ss = [] then .of [] else pre.andThen (SaidB.commas (ss.map saidQuotedB))
  | .url, .other (.url u) => if O.url u = [] then .of [] else pre.andThen (.of [O.url u])
  | .urls, .other (.urls us) => if us = [] then .of [] else pre.andThen (SaidB.commas (us.map fun u => .of [O.url u]))
  | .range, _ => pre.andThen (.of [utf8 c!"THISANDFUTURE"])
  | k, .other v => (k.said E name v).octets
  | _, _ => .of []

/-! ## Properties -/

/-- The parameters (e.g. properties.go:362-404). -/
def saidParamsB (E : Env) (O : Octets) : List PDef → List (Option RawParam) → List SaidB
  | d :: ds, p :: ps => (match p with
    | some v => d.kind.saidB E O d.name v
    | none => .of []) :: saidParamsB E O ds ps
  | _, _ => []

/-- The alternatives (e.g. properties.go:2386-2398). -/
def valsCallsB (E : Env) (O : Octets) : Bool → List (Str × Kind) → List (Option RawVal) → List Bytes
  | first, (n, _) :: ks, v :: vs => (match v with
    | some v => (if first then [] else [utf8 (c!";VALUE=" ++ n)]) ++ v.acalls E O
    | none => []) ++ valsCallsB E O false ks vs
  | _, _, _ => []

/-- The `encode` methods of properties.go.  For an enumeration the colon is handed over with the name, and there is no call for a value that is none (e.g. properties.go:44-57). -/
def PSpec.saidB (E : Env) (O : Octets) (sp : PSpec) (v : RawProp) : SaidB :=
  match sp.shape, v with
  | .enum names, .enum n => .of ([utf8 (sp.name ++ [':'])] ++ names[n]?.toList.map utf8 ++ [utf8 crlf])
  | .fields params vals, .fields ps vs =>
    (SaidB.of [utf8 sp.name]).andThen ((SaidB.seq (saidParamsB E O params ps)).andThen (.of (valsCallsB E O true vals vs ++ [utf8 crlf])))
  | _, _ => .of []

/-! ## Sections -/

/-- The properties of each field in order (e.g. sections.go:560-677). -/
def saidFieldsB (E : Env) (O : Octets) : List SField → List (List RawProp) → List SaidB
  | f :: fs, v :: vs => v.map (f.spec.saidB E O) ++ saidFieldsB E O fs vs
  | _, _ => []

/-- The subsections of each kind in order (e.g. sections.go:677-679). -/
def saidSubsB {κ σ : Type} (enc : κ → σ → SaidB) : List (Str × κ) → List (List σ) → List SaidB
  | (_, k) :: ks, v :: vs => v.map (enc k) ++ saidSubsB enc ks vs
  | _, _ => []

/-- All between the BEGIN and END lines.  E.g. sections.go:561-680. -/
def Tab.saidBodyB {κ σ : Type} (E : Env) (O : Octets) (T : Tab κ) (enc : κ → σ → SaidB) (s : RawSect σ) : List SaidB :=
  saidFieldsB E O T.fields s.fields ++ saidSubsB enc T.subs s.subs

/-- The `encode` methods of sections.go (not alarms): a BEGIN or END line is one call, with its line end. -/
def Tab.saidB {κ σ : Type} (E : Env) (O : Octets) (T : Tab κ) (enc : κ → σ → SaidB) (s : RawSect σ) : SaidB :=
  SaidB.seq ([.of [utf8 (lineOf kBEGIN T.name)]] ++ T.saidBodyB E O enc s ++ [.of [utf8 (lineOf kEND T.name)]])

/-- Sections without subsections (sections.go:2610-2633, 2789-2812, 3036-4169). -/
def noSaidB (k : Empty) (_ : Empty) : SaidB := nomatch k

/-- `Alarm.encode` (sections_alarm.go:82-100); an alarm without type cannot be reached here, validation rejects it. -/
def alarmSaidB (E : Env) (O : Octets) (a : Option (AKind × RawLeaf)) : SaidB :=
  match a with
  | none => .of []
  | some (k, s) =>
    SaidB.seq ([.of [utf8 (lineOf kBEGIN kVALARM)], .of [utf8 (lineOf kACTION k.action)]] ++ k.tab.saidBodyB E O noSaidB s ++ [.of [utf8 (lineOf kEND kVALARM)]])

/-- `Alarm.encode`, `Standard.encode`, `Daylight.encode` (sections_alarm.go:82-100, sections.go:2610-2633, 2789-2812). -/
def subSaidB (E : Env) (O : Octets) (k : SubKind) (s : RawSub) : SaidB :=
  match k, s with
  | .alarm, .alarm a => alarmSaidB E O a
  | .leaf T, .leaf s => T.saidB E O noSaidB s
  | _, _ => .of []

/-- `cal.encode` (sections.go:124-150). -/
def RawCal.saidB (E : Env) (O : Octets) (c : RawCal) : SaidB := tabCalendar.saidB E O (fun T s => T.saidB E O (subSaidB E O) s) c

/-! ## Encode -/

/-- `Encode(w, cal)` (encoder.go:15-25), as `encodeCalls`, for any Go strings. -/
def encodeCallsB (E : Env) (O : Octets) (w : Writer) (c : RawCal) : Encoding :=
  match c.valid with
  | .err e => .returned (some (.validation e)) {}
  | .panic => .panic
  | .ok () =>
    let f := ({} : WFolder).writes w (RawCal.saidB E O c).calls
    if (RawCal.saidB E O c).ends then .returned (f.err.map .write) f else .never f

end Ics
