import Verif.Value
import Verif.Tokeniser
/-!
# Model of params.go: RFC 6868 escaping and the parameter types used by properties

`ParamEncoding`, `ParamRelated`, `ParamTimezoneID` and `ParamValue` are used by no property; they are in Unused.lean.
-/

namespace Ics

/-! ## RFC 6868 -/

/-- The loop of `decode6868` (params.go:1184-1215).  `pend` is what the tokeniser has consumed since the last `Get`: the escape
sequence, which the next round appends as well.  The fuel is the length of the text. -/
def decode6868F : Nat → Str → Str → Str
  | 0, _, _ => []
  | fuel + 1, pend, s =>
    pend ++ s.takeWhile (· ≠ '^') ++
    match s.dropWhile (· ≠ '^') with
    | [] => []
    | [_] => ['^']
    | _ :: 'n' :: r => '\n' :: decode6868F fuel c!"^n" r
    | _ :: '\'' :: r => '"' :: decode6868F fuel c!"^'" r
    | _ :: '^' :: r => '^' :: decode6868F fuel c!"^^" r
    | _ :: c :: r => '^' :: '^' :: decode6868F fuel ['^', c] r

/-- `decode6868` (params.go:1184-1215). -/
def decode6868 (s : Str) : Str := decode6868F (s.length + 1) [] s

/-- State of the loop of `encode6868` (params.go:1217-1236): running with the text not yet consumed and the output, or returned. -/
inductive Enc6868 where
  | run (rest out : Str)
  | ret (out : Str)
  deriving DecidableEq, Repr

/-- The characters `encode6868` stops at.  params.go:1222. -/
def isEsc6868 (c : Char) : Bool := c == '\n' || c == '^' || c == '"'

/-- One round of the loop of `encode6868` (params.go:1221-1234).  `ExceptRun` leaves the character it stops at unread. -/
def Enc6868.step : Enc6868 → Enc6868
  | .ret d => .ret d
  | .run s d =>
    let d := d ++ s.takeWhile (fun c => !isEsc6868 c)
    let s := s.dropWhile (fun c => !isEsc6868 c)
    match s with
    | [] => .ret d
    | '\n' :: _ => .run s (d ++ c!"^n")
    | '^' :: _ => .run s (d ++ c!"^^")
    | _ :: _ => .run s (d ++ c!"^'")

/-- The state after `n` rounds.  params.go:1221-1234. -/
def Enc6868.rounds : Nat → Enc6868 → Enc6868
  | 0, x => x
  | n + 1, x => Enc6868.rounds n x.step

/-- `encode6868` (params.go:1217-1236); `none` if it never returns.  The first round decides (proved in ParamLemmas:
`encode6868_spec`). -/
def encode6868 (s : Str) : Option Str :=
  match (Enc6868.run s []).step with
  | .ret d => some d
  | .run _ _ => none

/-! ## Parameters -/

/-- The shapes of parameter types.  The types of params.go:16, 61, 103, 163, 212, 261, 356, 404, 464, 506, 554, 629, 707, 762, 822, 862, 1056, 1101, 1143. -/
inductive PKind where
  /-- a URI, quoted on decode, not quoted on encode: ALTREP, URI -/
  | url
  /-- calendar addresses, quoted on decode, not quoted on encode: DELEGATED-FROM, DELEGATED-TO -/
  | urls
  /-- a string; `quoted`: quotes demanded on decode and always written -/
  | str (quoted : Bool)
  /-- FMTTYPE -/
  | fmt
  /-- one of the names, or unknown -/
  | enum (names : List Str)
  /-- quoted strings: MEMBER -/
  | strs
  /-- RANGE=THISANDFUTURE -/
  | range
  /-- RSVP -/
  | bool
  deriving DecidableEq, Repr

/-- A parameter: the name it is decoded and encoded by (e.g. properties.go:96, params.go:43) and its type. -/
structure PDef where
  name : Str
  kind : PKind
  deriving DecidableEq, Repr

/-- A parameter value.  `enum 0` is the unknown value, `enum (n + 1)` the `n`-th name.  The Go types behind the parameters, e.g. params.go:16, 61, 103, 163. -/
inductive ParamVal where
  | url (u : Url)
  | urls (us : List Url)
  | str (s : Str)
  | enum (n : Nat)
  | strs (ss : List Str)
  | unit
  | bool (b : Bool)
  deriving DecidableEq, Repr

/-- The value has the parameter's Go type (enumerations are `uint8`).  E.g. params.go:103. -/
def PKind.typed : PKind → ParamVal → Bool
  | .url, .url _ => true
  | .urls, .urls _ => true
  | .str _, .str _ => true
  | .fmt, .str _ => true
  | .enum _, .enum n => n < 256
  | .strs, .strs _ => true
  | .range, .unit => true
  | .bool, .bool _ => true
  | _, _ => false

/-- The character class of `regexFormatType` (params.go:1239); `+-^` is a range. -/
def isFmtChar (c : Char) : Bool :=
  ('a' ≤ c && c ≤ 'z') || ('+' ≤ c && c ≤ '^') || c == '!' || c == '#' || c == '$' || c == '&' || c == '_'

/-- `regexFormatType.MatchString` (params.go:1239): not anchored. -/
def fmtMatch : Str → Bool
  | a :: '/' :: b :: r => (isFmtChar a && isFmtChar b) || fmtMatch ('/' :: b :: r)
  | _ :: r => fmtMatch r
  | [] => false

/-- The single token of a parameter that takes one value.  E.g. params.go:19-21. -/
def oneVal (vs : List PVal) : Res PVal :=
  match vs with
  | [v] => .ok v
  | _ => .err .invalidParam

/-- The value must be in quotes, e.g. params.go:23-25. -/
def wantQuoted (v : PVal) : Res Unit := Res.guard .invalidParam v.quoted

/-- The `decode` methods of params.go (lines 18-36, 68-76, 120-139, 166-182, 215-231, 269-281, 366-378, 422-441, 472-480, 514-524,
576-601, 632-642, 725-742, 780-799, 830-845, 870-882, 1059-1077, 1109-1121, 1151-1163). -/
def PKind.decode (E : Env) (k : PKind) (vs : List PVal) : Res ParamVal :=
  match k with
  | .url => do
    let v ← oneVal vs
    wantQuoted v
    let u ← URI.decode E v.data
    return .url u
  | .urls => do
    let us ← mapRes (fun v => do wantQuoted v; URI.decode E v.data) vs
    return .urls us
  | .str q => do
    let v ← oneVal vs
    if q then wantQuoted v else .ok ()
    return .str (decode6868 v.data)
  | .fmt => do
    let v ← oneVal vs
    Res.guard .invalidParam (fmtMatch v.data)
    return .str v.data
  | .enum names => do
    let v ← oneVal vs
    match indexOf (upper v.data) names with
    | some n => return .enum (n + 1)
    | none => return .enum 0
  | .strs => do
    let ss ← mapRes (fun v => do wantQuoted v; return decode6868 v.data) vs
    return .strs ss
  | .range => do
    let v ← oneVal vs
    Res.guard .invalidParam (upper v.data = c!"THISANDFUTURE")
    return .unit
  | .bool => do
    let v ← oneVal vs
    let b ← Boolean.decode v.data
    return .bool b

/-- Concatenation of outputs; `none` if one of them never ends.  Not in /repo: the calls of `w.Write` and `w.WriteString` one after the other, e.g. params.go:83-91. -/
def cat : List (Option Str) → Option Str
  | [] => some []
  | x :: xs => do
    let a ← x
    let b ← cat xs
    return a ++ b

/-- E.g. params.go:86-88. -/
def quote (s : Str) : Str := '"' :: s ++ ['"']

/-- A comma separated list of outputs.  E.g. params.go:191-199. -/
def commas : List (Option Str) → Option Str
  | [] => some []
  | [x] => x
  | x :: xs => do
    let a ← x
    let b ← commas xs
    return a ++ ',' :: b

/-- The `encode` methods of params.go (lines 38-48, 78-92, 141-156, 184-199, 233-248, 283-292, 380-394, 443-457, 482-496, 526-541,
603-622, 644-648, 744-755, 801-815, 847-855, 884-893, 1079-1089, 1123-1132, 1165-1174). -/
def PKind.encode (E : Env) (name : Str) (k : PKind) (v : ParamVal) : Option Str :=
  let pre := ';' :: name ++ ['=']
  match k, v with
  | .url, .url u => if E.urlString u = [] then some [] else some (pre ++ E.urlString u)
  | .urls, .urls us => if us = [] then some [] else (commas (us.map fun u => some (E.urlString u))).map (pre ++ ·)
  | .str q, .str s =>
    if s = [] then some []
    else (encode6868 s).map fun e => pre ++ (if q || containsAny isSpecial s then quote e else e)
  | .fmt, .str s =>
    if s = [] then some []
    else (encode6868 s).map fun e => pre ++ (if containsAny isSpecial s then quote e else e)
  | .enum names, .enum n => some (pre ++ (if n = 0 then c!"UNKNOWN" else names.getD (n - 1) c!"UNKNOWN"))
  | .strs, .strs ss => if ss = [] then some [] else (commas (ss.map fun s => (encode6868 s).map quote)).map (pre ++ ·)
  | .range, _ => some (pre ++ c!"THISANDFUTURE")
  | .bool, .bool b => if b then some (pre ++ Boolean.encode b) else some []
  | _, _ => some []

/-- E.g. params.go:94-100. -/
def validText (s : Str) : Res Unit := Res.guard .invalidText (!containsAny isCtl31 s)

/-- The `valid` methods of params.go (lines 50-58, 94-100, 158-160, 201-209, 250-258, 294-300, 396-401, 459-461, 498-503, 543-551,
624-626, 649-651, 757-759, 817-819, 857-859, 895-901, 1091-1098, 1134-1140, 1176-1182). -/
def PKind.valid (k : PKind) (v : ParamVal) : Res Unit :=
  match k, v with
  | .str _, .str s => validText s
  | .fmt, .str s => Res.guard .invalidValue (fmtMatch s)
  | .strs, .strs ss => checkAll .invalidText (fun s => !containsAny isCtl31 s) ss
  | _, _ => .ok ()

end Ics
