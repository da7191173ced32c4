import Verif.Tokens
/-!
# Model of the string tokenisers in types.go and params.go, call by call

`Duration.decode`, `decodeText`, `MText.decode`, `UTCOffset.decode`, `decode6868` and `encode6868` each make a string tokeniser and call its methods.  Elsewhere in the model they are functions
on texts; here they are written as the code has them, with `Scan` of `Tokens.lean` for the tokeniser.  `ScannedLemmas.lean` shows that they agree.  `none` is where fuel runs out, except
that `encode6868` does run without end.
-/

namespace Ics

/-- `t.Next()`; -1 is `none`.  types.go:1264, params.go:1197. -/
def Scan.next (t : Scan) : Option Char × Scan :=
  match t.rest with
  | [] => (none, t)
  | c :: r => (some c, ⟨t.taken ++ [c], r⟩)

/-- "0123456789" (types.go:247, 1483, 1489, 1501, 1502). -/
def digits : Str := "0123456789".toList

/-- The loop of `Duration.decode`.  types.go:240-313. -/
def Duration.scanLoop : Nat → Nat → Duration → Scan → Option (Res Duration)
  | 0, _, _, _ => none
  | fuel + 1, level, d, t =>
    if t.peek = none then some (if level = 0 then .err .invalidDuration else .ok d)
    else
      let (ok, t) := t.accept ['T']
      let level := if ok then 1 else level
      let (_, t) := t.get
      let (mode, t) := t.acceptRun digits
      let (text, t) := t.get
      match parseUint 64 text with
      | none => some (.err .ext)
      | some num =>
        if mode = some 'W' then
          if level > 0 then some (.err .invalidDuration)
          else
            let (_, t) := t.accept ['W']
            if t.peek ≠ none then some (.err .invalidDuration) else some (.ok { d with weeks := num })
        else if mode = some 'D' then
          if level > 0 then some (.err .invalidDuration)
          else
            let (_, t) := t.accept ['D']
            Duration.scanLoop fuel 1 { d with days := num } t
        else if mode = some 'H' then
          if level > 1 then some (.err .invalidDuration)
          else
            let (_, t) := t.accept ['H']
            Duration.scanLoop fuel 2 { d with hours := num } t
        else if mode = some 'M' then
          if level > 2 then some (.err .invalidDuration)
          else
            let (_, t) := t.accept ['M']
            Duration.scanLoop fuel 3 { d with minutes := num } t
        else if mode = some 'S' then
          if level > 3 then some (.err .invalidDuration)
          else
            let (_, t) := t.accept ['S']
            if t.peek ≠ none then some (.err .invalidDuration)
            else Duration.scanLoop fuel level { d with seconds := num } t
        else some (.err .invalidDuration)

/-- `Duration.decode`.  types.go:225-319. -/
def Duration.scan (data : Str) : Option (Res Duration) :=
  let t : Scan := ⟨[], data⟩
  let (neg, t) := t.accept ['-']
  let (_, t) := if neg then (true, t) else t.accept ['+']
  let (ok, t) := t.accept ['P']
  if ok then Duration.scanLoop (data.length + 1) 0 { neg := neg } t else some (.err .invalidDuration)

/-- `utf8.EncodeRune` of a rune or of -1 (types.go:1275), as text. -/
def runeText : Option Char → Str
  | some c => [c]
  | none => ['�']

/-- `decodeText`: what it returns, and the tokeniser, which it shares with its caller.  types.go:1251-1286. -/
def scanText : Nat → Str → Scan → Option (Str × Scan)
  | 0, _, _ => none
  | fuel + 1, d, t =>
    let (c, t) := t.exceptRun ['\\', ',', ';']
    let (g, t) := t.get
    let d := d ++ g
    if c = some '\\' then
      let (_, t) := t.accept ['\\']
      let (c, t) := t.next
      let d :=
        if c = some '\\' then d ++ ['\\']
        else if c = some ';' then d ++ [';']
        else if c = some ',' then d ++ [',']
        else if c = some 'N' ∨ c = some 'n' then d ++ ['\n']
        else d ++ ['\\'] ++ runeText c
      let (_, t) := t.get
      scanText fuel d t
    else some (d, t)

/-- `Text.decode`.  types.go:1240-1249. -/
def Text.scan (data : Str) : Option (Res Str) :=
  match scanText (data.length + 1) [] ⟨[], data⟩ with
  | none => none
  | some (d, t) => some (if t.peek ≠ none then .err .invalidText else .ok d)

/-- The loop of `MText.decode`.  types.go:1330-1344. -/
def MText.scanLoop : Nat → List Str → Scan → Option (Res (List Str))
  | 0, _, _ => none
  | fuel + 1, ts, t =>
    match scanText (t.rest.length + 1) [] t with
    | none => none
    | some (d, t) =>
      let ts := ts ++ [d]
      match t.peek with
      | none => some (.ok ts)
      | some ',' =>
        let (_, t) := t.accept [',']
        let (_, t) := t.get
        MText.scanLoop fuel ts t
      | some _ => some (.err .invalidText)

/-- `MText.decode`.  types.go:1328-1346. -/
def MText.scan (data : Str) : Option (Res (List Str)) := MText.scanLoop (data.length + 1) [] ⟨[], data⟩

/-- `!t.Accept(digits) || !t.Accept(digits)` (types.go:1483, 1489): `none` where it holds. -/
def Scan.twoDigits (t : Scan) : Option Scan :=
  let (ok, t) := t.accept digits
  if ok then
    let (ok, t) := t.accept digits
    if ok then some t else none
  else none

/-- `strconv.ParseInt(t.Get(), 10, 32)` where the error is dropped (types.go:1487, 1493, 1506). -/
def getInt (s : Str) : Int := (parseInt 32 s).getD 0

/-- The end of `UTCOffset.decode`: the sum, and the sign.  types.go:1515-1525. -/
def UTCOffset.scanEnd (neg : Bool) (h m s : Int) : Res Int :=
  let u := 3600 * h + 60 * m + s
  if neg then if u = 0 then .err .invalidOffset else .ok (-u) else .ok u

/-- `UTCOffset.decode` behind the sign.  types.go:1483-1525. -/
def UTCOffset.scanBody (neg : Bool) (t : Scan) : Res Int :=
  match t.twoDigits with
  | none => .err .invalidOffset
  | some t =>
    let (text, t) := t.get
    let h := getInt text
    match t.twoDigits with
    | none => .err .invalidOffset
    | some t =>
      let (text, t) := t.get
      let m := getInt text
      if m ≥ 60 then .err .invalidOffset
      else
        let (ok, t) := t.accept digits
        if ok then
          let (ok, t) := t.accept digits
          if !ok || t.peek ≠ none then .err .invalidOffset
          else
            let s := getInt t.get.1
            if s ≥ 60 then .err .invalidOffset else UTCOffset.scanEnd neg h m s
        else if t.peek ≠ none then .err .invalidOffset
        else UTCOffset.scanEnd neg h m 0

/-- `UTCOffset.decode`.  types.go:1471-1526. -/
def UTCOffset.scan (data : Str) : Res Int :=
  let t : Scan := ⟨[], data⟩
  let (neg, t) := t.accept ['-']
  let (_, t) := if neg then (true, t) else t.accept ['+']
  let (_, t) := t.get
  UTCOffset.scanBody neg t

/-- `decode6868`.  params.go:1184-1215.  In the last case of the inner switch `c` is the rune before, a caret. -/
def scan6868 : Nat → Str → Scan → Option Str
  | 0, _, _ => none
  | fuel + 1, d, t =>
    let (c, t) := t.exceptRun ['^']
    let (g, t) := t.get
    let d := d ++ g
    match c with
    | none => some d
    | some c =>
      if c = '^' then
        let (_, t) := t.accept ['^']
        let (n, t) := t.next
        match n with
        | none => some (d ++ ['^'])
        | some 'n' => scan6868 fuel (d ++ ['\n']) t
        | some '\'' => scan6868 fuel (d ++ ['"']) t
        | some '^' => scan6868 fuel (d ++ ['^']) t
        | some _ => scan6868 fuel (d ++ ['^'] ++ runeText (some c)) t
      else scan6868 fuel d t

/-- One round of the loop of `encode6868`: the output and the tokeniser; `none` for the tokeniser where the loop ends.  params.go:1221-1234. -/
def round6868 (d : Str) (t : Scan) : Str × Option Scan :=
  let (c, t) := t.exceptRun ['\n', '^', '"']
  let (g, t) := t.get
  let d := d ++ g
  match c with
  | none => (d, none)
  | some '\n' => (d ++ ['^', 'n'], some t)
  | some '^' => (d ++ ['^', '^'], some t)
  | some '"' => (d ++ ['^', '\''], some t)
  | some _ => (d, some t)

/-- That many rounds of `encode6868` at most: what it returns.  params.go:1217-1236. -/
def rounds6868 : Nat → Str → Scan → Option Str
  | 0, _, _ => none
  | n + 1, d, t =>
    match round6868 d t with
    | (d, none) => some d
    | (d, some t) => rounds6868 n d t

end Ics
