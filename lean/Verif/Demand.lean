import Verif.Machine
/-!
# Model of tokeniser.go and decoder.go while the text is still coming in

`decodeDoc` has the whole text.  Here is what Go does with the text that has arrived: the tokeniser asks for a rune when it comes to the end of it, and not earlier, and `Decode` returns as soon as
it has its result.  `none` is where it asks for more.
-/

namespace Ics

/-- The next function of the tokeniser, with what the one before has found.  E.g. tokeniser.go:79, 112-118. -/
def Asks.andThen {α β : Type} (x : Option (Res α)) (f : α → Option (Res β)) : Option (Res β) :=
  match x with
  | none => none
  | some (.ok a) => f a
  | some (.err e) => some (.err e)
  | some .panic => some .panic

/-- `parseValue` (tokeniser.go:122-147), as `parseValue`. -/
def askValue (s : Str) : Option (Res (Str × Str)) :=
  match s.dropWhile (fun c => !isCtl32 c) with
  | [] => none
  | ['\r'] => none
  | '\r' :: '\n' :: r => some (.ok (s.takeWhile (fun c => !isCtl32 c), r))
  | _ => some (.err .invalidContentLineValue)

/-- One value of `parseParamValue` (tokeniser.go:82-106), as `parseOneVal`. -/
def askOneVal (s : Str) : Option (Res (PVal × Str)) :=
  match s with
  | [] => none
  | '"' :: s =>
    match s.dropWhile (fun c => !isCtl33 c) with
    | [] => none
    | '"' :: r => some (.ok (⟨true, s.takeWhile (fun c => !isCtl33 c)⟩, r))
    | _ => some (.err .invalidContentLineQuotedParamValue)
  | s => if s.dropWhile (fun c => !isNonsafe c) = [] then none else some (.ok (⟨false, s.takeWhile (fun c => !isNonsafe c)⟩, s.dropWhile (fun c => !isNonsafe c)))

/-- `parseParamValue` (tokeniser.go:82-120) repeated over a comma list, as `parseVals`. -/
def askVals : Nat → Str → Option (Res (List PVal × Str))
  | 0, _ => none
  | fuel + 1, s => Asks.andThen (askOneVal s) fun (v, r) =>
    match r with
    | [] => none
    | ',' :: r => Asks.andThen (askVals fuel r) fun (vs, r) => some (.ok (v :: vs, r))
    | ';' :: _ => some (.ok ([v], r))
    | ':' :: _ => some (.ok ([v], r))
    | _ => some (.err .invalidContentLineParamValue)

/-- `parseParamName` (tokeniser.go:69-80) and the alternation of names and values, as `parseParams`. -/
def askParams : Nat → Str → Option (Res (List (Str × List PVal) × Str))
  | 0, _ => none
  | fuel + 1, s =>
    match s with
    | [] => none
    | ':' :: r => some (.ok ([], r))
    | ';' :: s =>
      match s.dropWhile isIana with
      | [] => none
      | '=' :: r =>
        Asks.andThen (askVals (r.length + 1) r) fun (vs, r) =>
          Asks.andThen (askParams fuel r) fun (ps, r) => some (.ok ((s.takeWhile isIana, vs) :: ps, r))
      | _ => some (.err .invalidContentLineParamName)
    | _ => some (.err .invalidContentLineParamName)

/-- `parseName` (tokeniser.go:38-67) and `phrase` (tokeniser.go:149-171), as `parseLine`: the next content line, with the text behind it, or an error. -/
def askLine (s : Str) : Option (Res (Line × Str)) :=
  let name := s.takeWhile isIana
  match s.dropWhile isIana with
  | [] => none
  | c :: r =>
    if name = [] then some (.err .invalidContentLine)
    else if c = ';' ∨ c = ':' then
      Asks.andThen (askParams (r.length + 2) (c :: r)) fun (ps, r) => Asks.andThen (askValue r) fun (v, r) => some (.ok (⟨name, ps, v⟩, r))
    else some (.err .invalidContentLineName)

/-- The content lines that are complete, and the error of the tokeniser if it has found one (tokeniser.go:25-27, 149-171), as `streamF`; with fuel for the number of lines. -/
def askLines : Nat → Str → List Line × Option Err
  | 0, _ => ([], none)
  | fuel + 1, s =>
    match askLine s with
    | none => ([], none)
    | some (.ok (l, r)) => (l :: (askLines fuel r).1, (askLines fuel r).2)
    | some (.err e) => ([], some e)
    | some .panic => ([], none)

/-- `Decode` (decoder.go:16-37) on the content lines that are complete; at the end of them it asks for another one (sections.go:28-33 and its like). -/
def askDecode (E : Env) : List Line × Option Err → Option (Res Cal)
  | ([], none) => none
  | ([], some e) => some (.err e)
  | (l :: r, e) =>
    if upper l.name = kBEGIN ∧ upper l.value = tabCalendar.name then
      match calSteps E calInit r with
      | .ok (.inr x) => some (.ok x.1)
      | .ok (.inl _) => e.map .err
      | .err e => some (.err e)
      | .panic => some .panic
    else some (.err .invalidCalendar)

/-- `Decode` when this much of the unfolded text has arrived: its result, or `none` if it asks for more.  decoder.go:16-37. -/
def decodeOpen (E : Env) (s : Str) : Option (Res Cal) := askDecode E (askLines (s.length + 1) s)

/-- `utf8.FullRune`.  Go library, not in /repo; what the parser waits for before it has a rune, tokeniser.go:39. -/
def fullRune : Bytes → Bool
  | [] => false
  | b0 :: r =>
    let x := b0.toNat
    if x < 0xC2 then true
    else if x < 0xE0 then !r.isEmpty
    else if x < 0xF0 then
      match r with
      | [] => false
      | [b1] => !inRange b1 (if x = 0xE0 then 0xA0 else 0x80) (if x = 0xED then 0x9F else 0xBF)
      | _ => true
    else if x < 0xF5 then
      match r with
      | [] => false
      | [b1] => !inRange b1 (if x = 0xF0 then 0x90 else 0x80) (if x = 0xF4 then 0x8F else 0xBF)
      | [b1, b2] => !inRange b1 (if x = 0xF0 then 0x90 else 0x80) (if x = 0xF4 then 0x8F else 0xBF) || !inRange b2 0x80 0xBF
      | _ => true
    else true

/-- Reading runes from octets, as `runesF`, as long as they are complete.  Go library, not in /repo; what the parser reads, tokeniser.go:39. -/
def runesOpenF : Nat → Bytes → Str
  | 0, _ => []
  | _ + 1, [] => []
  | f + 1, b :: r => if fullRune (b :: r) then Char.ofNat (decodeRune (b :: r)).1 :: runesOpenF f ((b :: r).drop (decodeRune (b :: r)).2) else []

/-- The runes that are complete.  Go library, not in /repo; what the parser reads, tokeniser.go:39. -/
def runesOpen (b : Bytes) : Str := runesOpenF b.length b

/-- `Decode(r)` (decoder.go:16-37) while the tokeniser reads through the unfolder with buffers of the given sizes, each of them only if the text so far is not enough
(tokeniser.go:29-36).  The result comes with the unfolder as it is left, which knows how the caller's reader was called.

Simplified: as in `decodeReader`, an error of the reader other than the end of the file is not distinguished from the end.  `running`: it has not returned after these reads. -/
def decodeDemand (E : Env) (R : Reader) (fuel : Nat) : List Nat → Unfolder → Bytes → Run (Res Cal × Unfolder)
  | ks, u, acc =>
    match decodeOpen E (runesOpen acc), ks with
    | some x, _ => .done (x, u)
    | none, [] => .running
    | none, k :: ks =>
      (u.read R fuel k).bind fun r =>
        if r.err.isSome then .done (decodeDoc E (runes (acc ++ r.q.take r.m.toNat)), r.u)
        else decodeDemand E R fuel ks r.u (acc ++ r.q.take r.m.toNat)

end Ics
