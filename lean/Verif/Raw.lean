import Verif.TextOctets
import Verif.Codec
/-!
# Model of Encode for calendars whose strings are not UTF-8

A Go string may hold any octets.  The other modules have strings of runes, as `Decode` gives them.  Here are the `valid` and `encode` methods for calendars as a caller may put
them together, with any octets in the texts and parameters, in the names of the time zones, and in what `(*url.URL).String` gives.  Texts are written rune by rune; all else is
written octet by octet, as it is.
-/

namespace Ics

/-- What the Go library gives as octets: `(*url.URL).String` and `(*time.Location).String`.  Go library, not in /repo; called at types.go:111, 1461, params.go:39, types.go:1573. -/
structure Octets where
  url : Url → Bytes
  zone : Loc → Bytes

/-! ## The Go types -/

/-- A value: a `Text` or an `MText` (types.go:1238, 1326), or one of another type, which has no strings but in URLs and locations. -/
inductive RawVal where
  | text (t : Bytes)
  | mtext (ts : List Bytes)
  | other (v : Val)
  deriving DecidableEq, Repr

/-- A parameter: a string or strings (params.go:61, 261, 356, 464, 506, 862, 1101, 1143), or one of another type. -/
inductive RawParam where
  | str (t : Bytes)
  | strs (ts : List Bytes)
  | other (v : ParamVal)
  deriving DecidableEq, Repr

/-- As `PropVal`.  E.g. properties.go:14, 71-75. -/
inductive RawProp where
  | enum (n : Nat)
  | fields (ps : List (Option RawParam)) (vs : List (Option RawVal))
  deriving DecidableEq, Repr

/-- As `Sect`.  E.g. sections.go:15-23, 195-227. -/
structure RawSect (σ : Type) where
  fields : List (List RawProp)
  subs : List (List σ)
  deriving DecidableEq, Repr

/-- As `Leaf`.  sections.go:2497-2505, 2676-2684, 2855-2869. -/
abbrev RawLeaf := RawSect Empty

/-- As `Sub`.  sections_alarm.go:33-36, sections.go:2497-2505, 2676-2684. -/
inductive RawSub where
  | leaf (s : RawLeaf)
  | alarm (a : Option (AKind × RawLeaf))
  deriving DecidableEq, Repr

/-- As `Comp`.  sections.go:195-227, 871-903, 1551-1576, 2078-2090, 2344-2350. -/
abbrev RawComp := RawSect RawSub
/-- As `Cal`.  sections.go:15-23. -/
abbrev RawCal := RawSect RawComp

/-! ## Parameters -/

/-- State of the loop of `encode6868` (params.go:1217-1236): running with the octets not yet consumed and the output, or returned. -/
inductive Enc6868B where
  | run (rest out : Bytes)
  | ret (out : Bytes)
  deriving DecidableEq, Repr

/-- The octets `encode6868` stops at.  params.go:1222. -/
def isEsc6868B (b : UInt8) : Bool := b.toNat == 0x0a || b.toNat == 0x5e || b.toNat == 0x22

/-- One round of the loop of `encode6868` (params.go:1221-1234).  The tokeniser takes an octet that is not part of a rune for U+FFFD, and `Get` gives the octets it has passed. -/
def Enc6868B.step : Enc6868B → Enc6868B
  | .ret d => .ret d
  | .run s d =>
    let d := d ++ s.takeWhile (fun c => !isEsc6868B c)
    let s := s.dropWhile (fun c => !isEsc6868B c)
    match s with
    | [] => .ret d
    | b :: _ => .run s (d ++ (if b.toNat = 0x0a then [0x5e, 0x6e] else if b.toNat = 0x5e then [0x5e, 0x5e] else [0x5e, 0x27]))

/-- The state after `n` rounds.  params.go:1221-1234. -/
def Enc6868B.rounds : Nat → Enc6868B → Enc6868B
  | 0, x => x
  | n + 1, x => Enc6868B.rounds n x.step

/-- `encode6868` (params.go:1217-1236) for any Go string; `none` if it never returns.  The first round decides (proved in RawLemmas: `encode6868B_rounds`). -/
def encode6868B (s : Bytes) : Option Bytes :=
  match (Enc6868B.run s []).step with
  | .ret d => some d
  | .run _ _ => none

/-- The octets of `nonsafeChars[32:]` (tokeniser.go:22). -/
def isSpecialB (b : UInt8) : Bool := b.toNat == 0x22 || b.toNat == 0x3b || b.toNat == 0x3a || b.toNat == 0x2c

/-- The octets of the character class of `regexFormatType` (params.go:1239). -/
def isFmtByte (b : UInt8) : Bool :=
  (0x61 ≤ b.toNat && b.toNat ≤ 0x7a) || (0x2b ≤ b.toNat && b.toNat ≤ 0x5e) || b.toNat == 0x21 || b.toNat == 0x23 || b.toNat == 0x24 || b.toNat == 0x26 || b.toNat == 0x5f

/-- `regexFormatType.Match` (params.go:1239, 397). -/
def fmtMatchB : Bytes → Bool
  | a :: s :: b :: r => (s.toNat == 0x2f && isFmtByte a && isFmtByte b) || fmtMatchB (s :: b :: r)
  | _ => false

/-- Concatenation of outputs; `none` if one of them never ends.  Not in /repo: the calls of `w.Write` and `w.WriteString` one after the other, e.g. params.go:83-91. -/
def catB : List (Option Bytes) → Option Bytes
  | [] => some []
  | x :: xs => do
    let a ← x
    let b ← catB xs
    return a ++ b

/-- A comma separated list of outputs.  E.g. params.go:191-199. -/
def commasB : List (Option Bytes) → Option Bytes
  | [] => some []
  | [x] => x
  | x :: xs => do
    let a ← x
    let b ← commasB xs
    return a ++ 0x2c :: b

/-- E.g. params.go:86-88. -/
def quoteB (s : Bytes) : Bytes := 0x22 :: s ++ [0x22]

/-- The `encode` methods of params.go (lines 38-48, 78-92, 141-156, 184-199, 233-248, 283-292, 380-394, 443-457, 482-496, 526-541,
603-622, 644-648, 744-755, 801-815, 847-855, 884-893, 1079-1089, 1123-1132, 1165-1174). -/
def PKind.encodeB (E : Env) (O : Octets) (name : Str) (k : PKind) (v : RawParam) : Option Bytes :=
  let pre := utf8 (';' :: name ++ ['='])
  match k, v with
  | .str q, .str s =>
    if s = [] then some []
    else (encode6868B s).map fun e => pre ++ (if q || s.any isSpecialB then quoteB e else e)
  | .fmt, .str s =>
    if s = [] then some []
    else (encode6868B s).map fun e => pre ++ (if s.any isSpecialB then quoteB e else e)
  | .strs, .strs ss => if ss = [] then some [] else (commasB (ss.map fun s => (encode6868B s).map quoteB)).map (pre ++ ·)
  | .url, .other (.url u) => if O.url u = [] then some [] else some (pre ++ O.url u)
  | .urls, .other (.urls us) => if us = [] then some [] else (commasB (us.map fun u => some (O.url u))).map (pre ++ ·)
  | .range, _ => some (pre ++ utf8 c!"THISANDFUTURE")
  | k, .other v => (k.encode E name v).map utf8
  | _, _ => some []

/-- The `valid` methods of params.go (lines 50-58, 94-100, 158-160, 201-209, 250-258, 294-300, 396-401, 459-461, 498-503, 543-551,
624-626, 649-651, 757-759, 817-819, 857-859, 895-901, 1091-1098, 1134-1140, 1176-1182). -/
def PKind.validB (k : PKind) (v : RawParam) : Res Unit :=
  match k, v with
  | .str _, .str s => Res.guard .invalidText (!s.any isCtl31B)
  | .fmt, .str s => Res.guard .invalidValue (fmtMatchB s)
  | .strs, .strs ss => checkAll .invalidText (fun s => !s.any isCtl31B) ss
  | k, .other v => k.valid v
  | _, _ => .ok ()

/-! ## Values -/

/-- `writeTimezone` (types.go:1568-1575). -/
def writeTimezoneB (O : Octets) (t : GoTime) : Bytes :=
  match t.loc with
  | .utc | .local => []
  | .zone _ _ _ => utf8 c!";TZID=" ++ O.zone t.loc

/-- The `encode` methods of types.go. -/
def RawVal.text_ (E : Env) (O : Octets) : RawVal → Bytes
  | .text t => Text.encodeB t
  | .mtext ts => MText.encodeB ts
  | .other (.calAddress u) => O.url u
  | .other (.uri u) => O.url u
  | .other v => utf8 (v.text_ E)

/-- What the `aencode` methods of types.go write before the colon. -/
def RawVal.head_ (O : Octets) : RawVal → Bytes
  | .other (.binary _) => utf8 c!";ENCODING=BASE64"
  | .other (.dateTime t) => writeTimezoneB O t
  | .other (.period p) => writeTimezoneB O p.start
  | .other (.recur r) => writeTimezoneB O r.until_
  | _ => []

/-- The `aencode` methods of types.go. -/
def RawVal.aencode (E : Env) (O : Octets) (v : RawVal) : Bytes := v.head_ O ++ 0x3a :: v.text_ E O

/-- The `valid` methods of types.go. -/
def RawVal.valid : RawVal → Res Unit
  | .text t => Text.validB t
  | .mtext ts => MText.validB ts
  | .other v => v.valid

/-! ## Properties -/

/-- The parameters as written by `encode` (e.g. properties.go:362-404). -/
def encParamsB (E : Env) (O : Octets) : List PDef → List (Option RawParam) → List (Option Bytes)
  | d :: ds, p :: ps => (match p with
    | some v => d.kind.encodeB E O d.name v
    | none => some []) :: encParamsB E O ds ps
  | _, _ => []

/-- The alternatives as written by `encode` (e.g. properties.go:2386-2398). -/
def encValsB (E : Env) (O : Octets) : Bool → List (Str × Kind) → List (Option RawVal) → Bytes
  | first, (n, _) :: ks, v :: vs => (match v with
    | some v => (if first then [] else utf8 (c!";VALUE=" ++ n)) ++ v.aencode E O
    | none => []) ++ encValsB E O false ks vs
  | _, _, _ => []

/-- The `encode` methods of properties.go. -/
def PSpec.encodeB (E : Env) (O : Octets) (sp : PSpec) (v : RawProp) : Option Bytes :=
  match sp.shape, v with
  | .enum names, .enum n => some (utf8 (sp.name ++ ':' :: names.getD n [] ++ crlf))
  | .fields params vals, .fields ps vs => (catB (encParamsB E O params ps)).map fun t => utf8 sp.name ++ t ++ encValsB E O true vals vs ++ utf8 crlf
  | _, _ => some []

/-- Validation of the parameters in order.  E.g. properties.go:174-178. -/
def validParamsB : List PDef → List (Option RawParam) → Res Unit
  | d :: ds, p :: ps => do
    match p with
    | some v => d.kind.validB v
    | none => .ok ()
    validParamsB ds ps
  | _, _ => .ok ()

/-- Validation of the values that are set, in order.  E.g. properties.go:182-196. -/
def validValsB : List (Option RawVal) → Res Unit
  | [] => .ok ()
  | v :: vs => do
    match v with
    | some v => v.valid
    | none => .ok ()
    validValsB vs

/-- The `valid` methods of properties.go. -/
def PSpec.validB (sp : PSpec) (v : RawProp) : Res Unit :=
  match sp.shape, v with
  | .enum names, .enum n => Res.guard .invalidValue (n < names.length)
  | .fields params vals, .fields ps vs => do
    validParamsB params ps
    validValsB vs
    if vals.length = 1 then .ok () else Res.guard .invalidValue ((vs.filter (·.isSome)).length = 1)
  | _, _ => .ok ()

/-! ## Sections -/

/-- The properties of each field in order (e.g. sections.go:560-677). -/
def encFieldsB (E : Env) (O : Octets) : List SField → List (List RawProp) → List (Option Bytes)
  | f :: fs, v :: vs => v.map (f.spec.encodeB E O) ++ encFieldsB E O fs vs
  | _, _ => []

/-- The subsections of each kind in order (e.g. sections.go:677-679). -/
def encSubsB {κ σ : Type} (enc : κ → σ → Option Bytes) : List (Str × κ) → List (List σ) → List (Option Bytes)
  | (_, k) :: ks, v :: vs => v.map (enc k) ++ encSubsB enc ks vs
  | _, _ => []

/-- All that `encode` writes between the BEGIN and END lines.  E.g. sections.go:561-680. -/
def Tab.bodyB {κ σ : Type} (E : Env) (O : Octets) (T : Tab κ) (enc : κ → σ → Option Bytes) (s : RawSect σ) : List (Option Bytes) :=
  encFieldsB E O T.fields s.fields ++ encSubsB enc T.subs s.subs

/-- The `encode` methods of sections.go (not alarms). -/
def Tab.encodeB {κ σ : Type} (E : Env) (O : Octets) (T : Tab κ) (enc : κ → σ → Option Bytes) (s : RawSect σ) : Option Bytes :=
  catB ([some (utf8 (lineOf kBEGIN T.name))] ++ T.bodyB E O enc s ++ [some (utf8 (lineOf kEND T.name))])

/-- Sections without subsections (sections.go:2610-2633, 2789-2812, 3036-4169). -/
def noEncB (k : Empty) (_ : Empty) : Option Bytes := nomatch k

/-- `Alarm.encode` (sections_alarm.go:82-100). -/
def alarmEncodeB (E : Env) (O : Octets) (a : Option (AKind × RawLeaf)) : Option Bytes :=
  match a with
  | none => some []
  | some (k, s) =>
    catB ([some (utf8 (lineOf kBEGIN kVALARM)), some (utf8 (lineOf kACTION k.action))] ++ k.tab.bodyB E O noEncB s ++
      [some (utf8 (lineOf kEND kVALARM))])

/-- `Alarm.encode`, `Standard.encode`, `Daylight.encode` (sections_alarm.go:82-100, sections.go:2610-2633, 2789-2812). -/
def subEncodeB (E : Env) (O : Octets) (k : SubKind) (s : RawSub) : Option Bytes :=
  match k, s with
  | .alarm, .alarm a => alarmEncodeB E O a
  | .leaf T, .leaf s => T.encodeB E O noEncB s
  | _, _ => some []

/-- The octets that `cal.encode` writes (sections.go:124-150), as one piece; `none` if it never stops writing. -/
def encodeOctets (E : Env) (O : Octets) (c : RawCal) : Option Bytes := tabCalendar.encodeB E O (fun T s => T.encodeB E O (subEncodeB E O) s) c

/-- The fields in order, e.g. sections.go:685-860. -/
def validFieldsB : List SField → List (List RawProp) → Res Unit
  | f :: fs, v :: vs => do
    checks f.spec.validB v
    validFieldsB fs vs
  | _, _ => .ok ()

/-- The `valid` methods of sections.go: the fields and subsections in order; nothing else. -/
def Tab.validB {κ σ : Type} (T : Tab κ) (val : κ → σ → Res Unit) (s : RawSect σ) : Res Unit := do
  validFieldsB T.fields s.fields
  validSubs val T.subs s.subs

/-- `Alarm.valid` (sections_alarm.go:102-109). -/
def subValidB (k : SubKind) (s : RawSub) : Res Unit :=
  match k, s with
  | .alarm, .alarm none => .err .invalidAlarm
  | .alarm, .alarm (some (a, s)) => a.tab.validB noVal s
  | .leaf T, .leaf s => T.validB noVal s
  | _, _ => .ok ()

/-- `Calendar.valid` (sections.go:152-192). -/
def RawCal.valid (c : RawCal) : Res Unit := tabCalendar.validB (fun T s => T.validB subValidB s) c

/-- `Encode(w, cal)` (encoder.go:15-25) with writer `W`, for any Go strings.  `cut` divides the octets into the pieces handed to the folder; the model leaves open how. -/
def encodeRaw (E : Env) (O : Octets) (W : Sink) (cut : Bytes → List Bytes) (c : RawCal) : Run EncOut :=
  match c.valid with
  | .err e => .done ⟨some (.validation e), {}⟩
  | .panic => .panic
  | .ok () =>
    match encodeOctets E O c with
    | none => .running
    | some b =>
      let f := ({} : Folder).writes W (cut b)
      .done ⟨f.err.map .write, f⟩

/-! ## What the Go types guarantee -/

/-- The value is of this type.  types.go:20-1469. -/
def RawVal.kind? : RawVal → Option Kind
  | .text _ => some .text
  | .mtext _ => some .mtext
  | .other v => if v.kind = .text ∨ v.kind = .mtext then none else some v.kind

/-- The value has the parameter's Go type.  E.g. params.go:61, 103. -/
def PKind.typedB : PKind → RawParam → Bool
  | .str _, .str _ => true
  | .fmt, .str _ => true
  | .strs, .strs _ => true
  | .str _, _ => false
  | .fmt, _ => false
  | .strs, _ => false
  | k, .other v => k.typed v
  | _, _ => false

/-- The values of the alternatives have their types.  E.g. properties.go:71-75. -/
def typedValsB : List (Str × Kind) → List (Option RawVal) → Bool
  | [], [] => true
  | (_, k) :: ks, v :: vs => v.all (fun v => v.kind? == some k) && typedValsB ks vs
  | _, _ => false

/-- The parameters have their types, e.g. properties.go:206-217. -/
def typedParamsB : List PDef → List (Option RawParam) → Bool
  | [], [] => true
  | d :: ds, p :: ps => p.all d.kind.typedB && typedParamsB ds ps
  | _, _ => false

/-- The property is a value of the Go type.  E.g. properties.go:14, 71-75, 206-219. -/
def PSpec.typedB (sp : PSpec) (v : RawProp) : Bool :=
  match sp.shape, v with
  | .enum _, .enum n => n < 256
  | .fields params vals, .fields ps vs =>
    typedParamsB params ps && typedValsB vals vs && (vals.length != 1 || vs.all (·.isSome))
  | _, _ => false

/-- A value, a pointer or a slice of the property's type, e.g. sections.go:195-227. -/
def typedFieldsB : List SField → List (List RawProp) → Bool
  | [], [] => true
  | f :: fs, v :: vs =>
    v.all f.spec.typedB &&
    (match f.mult with
      | .req => v.length == 1
      | .opt => v.length ≤ 1
      | .many => true) && typedFieldsB fs vs
  | _, _ => false

/-- The section is a value of its Go type, e.g. sections.go:15-23. -/
def Tab.typedB {κ σ : Type} (T : Tab κ) (typ : κ → σ → Bool) (s : RawSect σ) : Bool :=
  typedFieldsB T.fields s.fields && typedSubs typ T.subs s.subs

/-- A subsection is a value of the Go type `Alarm`, `Standard` or `Daylight` (sections_alarm.go:34-36, sections.go:2497-2505, 2676-2684). -/
def subTypedB (k : SubKind) (s : RawSub) : Bool :=
  match k, s with
  | .alarm, .alarm none => true
  | .alarm, .alarm (some (a, s)) => a.tab.typedB noTyp s
  | .leaf T, .leaf s => T.typedB noTyp s
  | _, _ => false

/-- The calendar is a value of the Go type `Calendar`.  sections.go:15-23. -/
def RawCal.typed (c : RawCal) : Bool := tabCalendar.typedB (fun T s => T.typedB subTypedB s) c

end Ics
