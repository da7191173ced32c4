import Verif.Codec
/-!
# Model of tokeniser.go, function by function: tokens and phrases

`Tokeniser.lean` reads a content line in one go.  Here each function of tokeniser.go is its own definition, on a tokeniser that keeps what was consumed since the last `Get`, with the tokens
it returns and the function it names as the next, and the phraser that asks for tokens one by one.  What the parser library does where the code leaves it to the library is a parameter
(`Lib`).  `TokensLemmas.lean` shows that the two agree.
-/

namespace Ics

/-- `ianaToken` (tokeniser.go:21), as the code has it. -/
def ianaToken : Str := "ABCDEFGHIJKLMNOPQRSTUVWXYZabcdefghijklmnopqrstuvwxyz0123456789-".toList

/-- `nonsafeChars` (tokeniser.go:22), as the code has it. -/
def nonsafeChars : Str := "\x00\x01\x02\x03\x04\x05\x06\x07\x08\x0b\x0c\x0d\x0e\x0f\x10\x11\x12\x13\x14\x15\x16\x17\x18\x19\x1a\x1b\x1c\x1d\x1e\x1f\x7f\n\";:,".toList

/-- What the parser library does where the code leaves it open: `noState`, where the function for the next token is nil (tokeniser.go:140): no more tokens (`none`), or an error; `unknown`,
the error of `p.Error()` where the tokeniser has none (tokeniser.go:155, 160, 167). -/
structure Lib where
  noState : Option Err
  unknown : Err

/-- The text as `parser.Tokeniser` has it: the runes consumed since the last `Get`, and those not consumed.  tokeniser.go:38-147. -/
structure Scan where
  taken : Str
  rest : Str
  deriving DecidableEq, Repr

/-- `t.Peek()`; -1 is `none`.  tokeniser.go:107. -/
def Scan.peek (t : Scan) : Option Char := t.rest.head?

/-- `t.Accept(chars)`.  tokeniser.go:70, 83, 88, 100, 123, 130, 132. -/
def Scan.accept (chars : Str) (t : Scan) : Bool × Scan :=
  match t.rest with
  | c :: r => if chars.contains c then (true, ⟨t.taken ++ [c], r⟩) else (false, t)
  | [] => (false, t)

/-- The loop of `AcceptRun` and `ExceptRun`: rune by rune.  tokeniser.go:39, 73, 91, 102, 126. -/
def Scan.run (p : Char → Bool) (taken : Str) : Str → Scan
  | [] => ⟨taken, []⟩
  | c :: r => if p c then Scan.run p (taken ++ [c]) r else ⟨taken, c :: r⟩

/-- `t.AcceptRun(chars)`: also returns the rune it stops before.  tokeniser.go:39, 73. -/
def Scan.acceptRun (chars : Str) (t : Scan) : Option Char × Scan :=
  let t := Scan.run (fun c => chars.contains c) t.taken t.rest
  (t.peek, t)

/-- `t.ExceptRun(chars)`.  tokeniser.go:91, 102, 126. -/
def Scan.exceptRun (chars : Str) (t : Scan) : Option Char × Scan :=
  let t := Scan.run (fun c => !chars.contains c) t.taken t.rest
  (t.peek, t)

/-- `t.Get()`.  tokeniser.go:40, 71, 84, 89, 98, 104, 124, 128, 133. -/
def Scan.get (t : Scan) : Str × Scan := (t.taken, ⟨[], t.rest⟩)

/-- The types of tokens: tokeniser.go:10-16, and the parser library's own two. -/
inductive TokenType where
  | name | paramName | paramQuotedValue | paramValue | value | done | error
  deriving DecidableEq, Repr

/-- A token.  tokeniser.go:51-54.  Simplified: a token of the type error has no text. -/
structure Token where
  type : TokenType
  data : Str
  deriving DecidableEq, Repr

/-- `t.Err`: the end of the file, or another error.  tokeniser.go:47, decoder.go:22. -/
inductive TokErr where
  | eof
  | code (e : Err)
  deriving DecidableEq, Repr

/-- The function that makes the next token.  tokeniser.go:38, 69, 82, 122; `done` and `error` are the parser library's, `nil` is what `parseValue` returns at the end of the text. -/
inductive TokenFunc where
  | parseName | parseParamName | parseParamValue | parseValue | done | error | nil
  deriving DecidableEq, Repr

/-- The tokeniser: text, error.  tokeniser.go:38-147. -/
structure Tokens where
  scan : Scan
  err : Option TokErr
  deriving DecidableEq, Repr

/-- `t.Done()`.  tokeniser.go:44. -/
def Tokens.done (t : Tokens) : Token × TokenFunc × Tokens := (⟨.done, []⟩, .done, { t with err := some .eof })

/-- `t.Err = e; return t.Error()`.  tokeniser.go:47-49, 63-65, 74-76, 92-94, 116-118, 143-145. -/
def Tokens.fail (e : Err) (t : Tokens) : Token × TokenFunc × Tokens := (⟨.error, []⟩, .error, { t with err := some (.code e) })

/-- `parseName`.  tokeniser.go:38-67. -/
def Tokens.parseName (t : Tokens) : Token × TokenFunc × Tokens :=
  let (next, s) := t.scan.acceptRun ianaToken
  let (name, s) := s.get
  if name.length = 0 then
    if next = none then { t with scan := s : Tokens }.done
    else { t with scan := s : Tokens }.fail .invalidContentLine
  else
    match next with
    | some ';' => (⟨.name, name⟩, .parseParamName, { t with scan := s })
    | some ':' => (⟨.name, name⟩, .parseValue, { t with scan := s })
    | _ => { t with scan := s : Tokens }.fail .invalidContentLineName

/-- `parseParamName`.  tokeniser.go:69-80. -/
def Tokens.parseParamName (t : Tokens) : Token × TokenFunc × Tokens :=
  let (_, s) := t.scan.accept [';']
  let (_, s) := s.get
  let (next, s) := s.acceptRun ianaToken
  if next ≠ some '=' then { t with scan := s : Tokens }.fail .invalidContentLineParamName
  else
    let (data, s) := s.get
    (⟨.paramName, data⟩, .parseParamValue, { t with scan := s })

/-- The end of `parseParamValue`.  tokeniser.go:107-118. -/
def Tokens.afterValue (tk : Token) (t : Tokens) : Token × TokenFunc × Tokens :=
  match t.scan.peek with
  | some ',' => (tk, .parseParamValue, t)
  | some ';' => (tk, .parseParamName, t)
  | some ':' => (tk, .parseValue, t)
  | _ => t.fail .invalidContentLineParamValue

/-- `parseParamValue`.  tokeniser.go:82-120. -/
def Tokens.parseParamValue (t : Tokens) : Token × TokenFunc × Tokens :=
  let (_, s) := t.scan.accept ['=', ',']
  let (_, s) := s.get
  let (quote, s) := s.accept ['"']
  if quote then
    let (_, s) := s.get
    let (next, s) := s.exceptRun (nonsafeChars.take 33)
    if next ≠ some '"' then { t with scan := s : Tokens }.fail .invalidContentLineQuotedParamValue
    else
      let (data, s) := s.get
      let (_, s) := s.accept ['"']
      { t with scan := s : Tokens }.afterValue ⟨.paramQuotedValue, data⟩
  else
    let (_, s) := s.exceptRun nonsafeChars
    let (data, s) := s.get
    { t with scan := s : Tokens }.afterValue ⟨.paramValue, data⟩

/-- `parseValue`.  tokeniser.go:122-147. -/
def Tokens.parseValue (t : Tokens) : Token × TokenFunc × Tokens :=
  let (_, s) := t.scan.accept [':']
  let (_, s) := s.get
  let (next, s) := s.exceptRun (nonsafeChars.take 32)
  match next with
  | some '\r' =>
    let (data, s) := s.get
    let (_, s) := s.accept ['\r']
    let (lf, s) := s.accept ['\n']
    if lf then
      let (_, s) := s.get
      (⟨.value, data⟩, .parseName, { t with scan := s })
    else { t with scan := s : Tokens }.fail .invalidContentLineValue
  | none =>
    let (data, s) := s.get
    (⟨.value, data⟩, .nil, { t with scan := s })
  | _ => { t with scan := s : Tokens }.fail .invalidContentLineValue

/-- The next token.  tokeniser.go:29-36; the library calls the function named last. -/
def TokenFunc.call (L : Lib) (f : TokenFunc) (t : Tokens) : Token × TokenFunc × Tokens :=
  match f with
  | .parseName => t.parseName
  | .parseParamName => t.parseParamName
  | .parseParamValue => t.parseParamValue
  | .parseValue => t.parseValue
  | .done => t.done
  | .error => (⟨.error, []⟩, .error, t)
  | .nil =>
    match L.noState with
    | none => t.done
    | some e => t.fail e

/-- `parser.Parser`: the tokeniser and its function, a token looked at and not accepted, the tokens accepted since the last phrase.  tokeniser.go:29-36. -/
structure Parser where
  tok : Tokens
  state : TokenFunc
  peeked : Option Token
  tokens : List Token
  deriving DecidableEq, Repr

/-- The next token, the one looked at if there is one.  tokeniser.go:149-171 (`p.Accept`). -/
def Parser.next (L : Lib) (p : Parser) : Token × Parser :=
  match p.peeked with
  | some tk => (tk, { p with peeked := none })
  | none =>
    let (tk, f, t) := p.state.call L p.tok
    (tk, { p with tok := t, state := f })

/-- `p.Accept(types...)`.  tokeniser.go:150, 151, 158, 159, 166. -/
def Parser.accept (L : Lib) (types : List TokenType) (p : Parser) : Bool × Parser :=
  let (tk, p) := p.next L
  if types.contains tk.type then (true, { p with tokens := p.tokens ++ [tk] })
  else (false, { p with peeked := some tk })

/-- `p.AcceptRun(types...)`.  tokeniser.go:163.  With fuel; `none` where it runs out. -/
def Parser.acceptRun (L : Lib) (types : List TokenType) : Nat → Parser → Option Parser
  | 0, _ => none
  | fuel + 1, p =>
    let (ok, p) := p.accept L types
    if ok then Parser.acceptRun L types fuel p else some p

/-- The loop over the parameters in `phrase` (tokeniser.go:158-164): whether a token was accepted wherever one must be.  With fuel. -/
def Parser.params (L : Lib) : Nat → Parser → Option (Bool × Parser)
  | 0, _ => none
  | fuel + 1, p =>
    let (ok, p) := p.accept L [.paramName]
    if ok then
      let (ok, p) := p.accept L [.paramValue, .paramQuotedValue]
      if ok then
        match p.acceptRun L [.paramValue, .paramQuotedValue] (p.tok.scan.rest.length + 1) with
        | none => none
        | some p => Parser.params L fuel p
      else some (false, p)
    else some (true, p)

/-- What `GetPhrase` returns: a content line with its tokens, `PhraseDone`, or an error.  tokeniser.go:18, 25-27. -/
inductive GoPhrase where
  | line (data : List Token)
  | done
  | error (e : TokErr)
  deriving DecidableEq, Repr

/-- `p.Error()`: the error of the tokeniser; where it has none the library's own.  tokeniser.go:155, 160, 167. -/
def Parser.failed (L : Lib) (p : Parser) : GoPhrase × Parser := (.error (p.tok.err.getD (.code L.unknown)), p)

/-- `phrase` (tokeniser.go:149-171), called by `GetPhrase`.  `none` where fuel runs out. -/
def Parser.phrase (L : Lib) (p : Parser) : Option (GoPhrase × Parser) :=
  let (ok, p) := p.accept L [.name]
  if ok then
    match p.params L (p.tok.scan.rest.length + 1) with
    | none => none
    | some (false, p) => some (p.failed L)
    | some (true, p) =>
      let (ok, p) := p.accept L [.value]
      if ok then some (.line p.tokens, { p with tokens := [] }) else some (p.failed L)
  else
    let (ok, p) := p.accept L [.done]
    if ok then some (.done, p) else some (p.failed L)

/-- `newTokeniser` (tokeniser.go:29-36) on a text. -/
def newTokeniser (s : Str) : Parser := ⟨⟨⟨[], s⟩, none⟩, .parseName, none, []⟩

/-- The pairs of a name and its values that the properties make of the tokens of the parameters: properties.go:83-92 and the other 47 like it. -/
def groupParams : Nat → List Token → List (Str × List PVal)
  | 0, _ => []
  | _ + 1, [] => []
  | n + 1, t :: ts =>
    (t.data, (ts.takeWhile (fun v => v.type ≠ .paramName)).map fun v => ⟨v.type = .paramQuotedValue, v.data⟩) :: groupParams n (ts.dropWhile (fun v => v.type ≠ .paramName))

/-- A content line made of tokens: the first is the name, the last the value, those between them the parameters (sections.go:37-40, decoder.go:27).  `none` where the code panics. -/
def lineOfTokens : List Token → Option Line
  | [] => none
  | t :: ts =>
    match ts.getLast? with
    | none => none
    | some v => some ⟨t.data, groupParams ts.length ts.dropLast, v.data⟩

/-- The phrases of a document, up to the end or an error, as often as `GetPhrase` is called.  tokeniser.go:25-27.  With fuel. -/
def Parser.phrases (L : Lib) : Nat → Parser → Option (List (List Token) × Option TokErr × Parser)
  | 0, _ => none
  | fuel + 1, p =>
    match p.phrase L with
    | none => none
    | some (.done, p) => some ([], none, p)
    | some (.error e, p) => some ([], some e, p)
    | some (.line d, p) =>
      match p.phrases L fuel with
      | none => none
      | some (ds, e, p) => some (d :: ds, e, p)

/-- The lines of phrases; `none` where the code panics.  sections.go:37-40. -/
def linesOf : List (List Token) → Option (List Line)
  | [] => some []
  | d :: ds =>
    match lineOfTokens d, linesOf ds with
    | some l, some ls => some (l :: ls)
    | _, _ => none

/-- `Decode` (decoder.go:16-37) on the phrases as the parser makes them: the first phrase, with what `t.Err` is where it is no content line, and the decoders on all the lines.

Simplified: all phrases are made before the first line is looked at; an end of the file among the errors is the error `io.ErrUnexpectedEOF`, as `GetPhrase` has it. -/
def decodeTokens (L : Lib) (E : Env) (s : Str) : Option (Res Cal) :=
  match (newTokeniser s).phrases L (s.length + 1) with
  | none => none
  | some ([], none, p) =>
    -- PhraseDone at once
    match p.tok.err with
    | some .eof => some (.err .unexpectedEOF)
    | some (.code e) => some (.err e)
    | none => none
  | some (ds, e, _) =>
    match linesOf ds with
    | none => some .panic
    | some ls =>
      some (decodeStream E ⟨ls, match e with | none => .done | some .eof => .error .unexpectedEOF | some (.code e) => .error e⟩)

end Ics
