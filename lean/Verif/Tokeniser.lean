import Verif.Basic
/-!
# Model of tokeniser.go: content lines

The Go tokeniser works on the unfolded text rune by rune (parser library).  The model parses one content line (a
"phrase") at a time from a character list.
-/

namespace Ics

/-- `ianaToken` (tokeniser.go:21). -/
def isIana (c : Char) : Bool :=
  ('A' ≤ c && c ≤ 'Z') || ('a' ≤ c && c ≤ 'z') || ('0' ≤ c && c ≤ '9') || c == '-'

/-- `nonsafeChars[:31]` (tokeniser.go:22): control characters except tab and line feed. -/
def isCtl31 (c : Char) : Bool :=
  c.toNat ≤ 0x08 || (0x0b ≤ c.toNat && c.toNat ≤ 0x1f) || c.toNat == 0x7f

/-- `nonsafeChars[:32]`: and line feed.  tokeniser.go:22, 126. -/
def isCtl32 (c : Char) : Bool := isCtl31 c || c == '\n'

/-- `nonsafeChars[:33]`: and the double quote.  tokeniser.go:22, 91. -/
def isCtl33 (c : Char) : Bool := isCtl32 c || c == '"'

/-- `nonsafeChars[32:]`: the characters that force quoting (params.go). -/
def isSpecial (c : Char) : Bool := c == '"' || c == ';' || c == ':' || c == ','

/-- `nonsafeChars`.  tokeniser.go:22. -/
def isNonsafe (c : Char) : Bool := isCtl32 c || isSpecial c

/-- A parameter value token: `tokenParamQuotedValue` or `tokenParamValue`.  tokeniser.go:13-14. -/
structure PVal where
  quoted : Bool
  data : Str
  deriving DecidableEq, Repr

/-- A content line phrase: name token, parameters (each a name token followed by its value tokens), value token.  tokeniser.go:10-18, 149-171. -/
structure Line where
  name : Str
  params : List (Str × List PVal) := []
  value : Str
  deriving DecidableEq, Repr

/-- Result of asking for the next phrase.  tokeniser.go:25-27. -/
inductive Phrase where
  | line (l : Line) (rest : Str)
  | done
  | error (e : Err)
  deriving DecidableEq, Repr

/-- `parseValue` (tokeniser.go:122-147) after the colon: the value and the text behind the line. -/
def parseValue (s : Str) : Res (Str × Str) :=
  let v := s.takeWhile (fun c => !isCtl32 c)
  match s.dropWhile (fun c => !isCtl32 c) with
  | '\r' :: '\n' :: r => .ok (v, r)
  | [] => .ok (v, [])
  | _ => .err .invalidContentLineValue

/-- One value of `parseParamValue` (tokeniser.go:82-106), without the look at the next character. -/
def parseOneVal (s : Str) : Res (PVal × Str) :=
  match s with
  | '"' :: s =>
    match s.dropWhile (fun c => !isCtl33 c) with
    | '"' :: r => .ok (⟨true, s.takeWhile (fun c => !isCtl33 c)⟩, r)
    | _ => .err .invalidContentLineQuotedParamValue
  | s => .ok (⟨false, s.takeWhile (fun c => !isNonsafe c)⟩, s.dropWhile (fun c => !isNonsafe c))

/-- `parseParamValue` (tokeniser.go:82-120) repeated over a comma list; the rest starts with ';' or ':'.  The fuel is
the length of the text. -/
def parseVals : Nat → Str → Res (List PVal × Str)
  | 0, _ => .err .invalidContentLineParamValue
  | fuel + 1, s => do
    let (v, r) ← parseOneVal s
    match r with
    | ',' :: r => do
      let (vs, r) ← parseVals fuel r
      .ok (v :: vs, r)
    | ';' :: _ => .ok ([v], r)
    | ':' :: _ => .ok ([v], r)
    | _ => .err .invalidContentLineParamValue

/-- `parseParamName` (tokeniser.go:69-80) and the alternation of names and values in `phrase` (tokeniser.go:158-164).  Starts at
';' or ':'; the rest starts behind the colon. -/
def parseParams : Nat → Str → Res (List (Str × List PVal) × Str)
  | 0, _ => .err .invalidContentLineParamName
  | fuel + 1, s =>
    match s with
    | ':' :: r => .ok ([], r)
    | ';' :: s =>
      match s.dropWhile isIana with
      | '=' :: r => do
        let (vs, r) ← parseVals (r.length + 1) r
        let (ps, r) ← parseParams fuel r
        .ok ((s.takeWhile isIana, vs) :: ps, r)
      | _ => .err .invalidContentLineParamName
    | _ => .err .invalidContentLineParamName

/-- `parseName` (tokeniser.go:38-67) and `phrase` (tokeniser.go:149-171): the next content line. -/
def parseLine (s : Str) : Phrase :=
  let name := s.takeWhile isIana
  let r := s.dropWhile isIana
  if name = [] then
    if r = [] then .done else .error .invalidContentLine
  else
    match r with
    | ';' :: _ | ':' :: _ =>
      let res : Res Phrase := do
        let (ps, r) ← parseParams (r.length + 1) r
        let (v, r) ← parseValue r
        .ok (.line ⟨name, ps, v⟩ r)
      match res with
      | .ok p => p
      | .err e => .error e
      | .panic => .done
    | _ => .error .invalidContentLineName

/-- How a stream of content lines ends: `PhraseDone`, or the tokeniser's error.  tokeniser.go:25-27; the parser's `PhraseDone` and `PhraseError`. -/
inductive Term where
  | done
  | error (e : Err)
  deriving DecidableEq, Repr

/-- What successive calls of `GetPhrase` return: the content lines, then how it ends.  tokeniser.go:25-27. -/
structure Stream where
  lines : List Line
  term : Term
  deriving DecidableEq, Repr

/-- The loop of a caller of `GetPhrase` (tokeniser.go:25-27, 149-171), with fuel for the number of lines. -/
def streamF : Nat → Str → Stream
  | 0, _ => ⟨[], .done⟩
  | fuel + 1, s =>
    match parseLine s with
    | .line l r => let t := streamF fuel r; ⟨l :: t.lines, t.term⟩
    | .done => ⟨[], .done⟩
    | .error e => ⟨[], .error e⟩

/-- The phrases of a text (`newTokeniser`, tokeniser.go:29-36). -/
def tokenise (s : Str) : Stream := streamF (s.length + 1) s

end Ics
