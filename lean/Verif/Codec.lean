import Verif.Tables
import Verif.Unfolder
/-!
# Model of sections_alarm.go, decoder.go and encoder.go
-/

namespace Ics

/-! ## Alarms -/

/-- The tables of the alarm types.  sections.go:2855-4173. -/
def AKind.tab : AKind → Tab Empty
  | .audio => tabAlarmAudio
  | .display => tabAlarmDisplay
  | .email => tabAlarmEmail
  | .uri => tabAlarmURI
  | .none => tabAlarmNone

/-- `Type()` (sections_alarm.go:110-133), the text of the ACTION line (sections_alarm.go:85-96). -/
def AKind.action : AKind → Str
  | .audio => c!"AUDIO"
  | .display => c!"DISPLAY"
  | .email => c!"EMAIL"
  | .uri => c!"URI"
  | .none => c!"NONE"

/-- The cases of sections_alarm.go:59-70. -/
def AKind.ofAction (s : Str) : Option AKind :=
  if s = c!"AUDIO" then some .audio
  else if s = c!"DISPLAY" then some .display
  else if s = c!"EMAIL" then some .email
  else if s = c!"URI" then some .uri
  else if s = c!"NONE" then some .none
  else Option.none

/-- The loop of `Alarm.decode` (sections_alarm.go:41-74): the alarm type found, the phrases collected, the lines behind.  When the
lines end, `GetPhrase` returns a phrase without data and no error, and `ph.Data[0]` panics. -/
def alarmCollect (t : Term) : Option AKind → List Line → Res (Option AKind × List Line × List Line)
  | _, [] =>
    match t with
    | .done => .panic
    | .error e => .err e
  | a, l :: r =>
    if l.name = kBEGIN then .err .invalidStructure
    else if l.name = kACTION then
      if a.isSome then .err .invalidStructure
      else do
        let (a, pt, r) ← alarmCollect t (AKind.ofAction l.value) r
        return (a, l :: pt, r)
    else if l.name = kEND then .ok (a, [l], r)
    else do
      let (a, pt, r) ← alarmCollect t a r
      return (a, l :: pt, r)

/-- Decoding of sections without subsections.  The loops of sections.go:2507-2608, 2686-2787, 2871-4166 have no case for one. -/
def noSub (k : Empty) (_ : List Line) : Res (Empty × List Line) := nomatch k

/-- `Alarm.decode` (sections_alarm.go:38-80): the collected phrases are decoded by the alarm type, reading from a `psuedoTokeniser`
(sections_alarm.go:10-24), which ends in `io.ErrUnexpectedEOF`. -/
def alarmDecode (E : Env) (t : Term) (ls : List Line) : Res (Sub × List Line) := do
  let (a, pt, r) ← alarmCollect t none ls
  match a with
  | none => .err .missingAlarmAction
  | some k => do
    let (s, _) ← k.tab.decode E noSub (.error .unexpectedEOF) pt
    return (.alarm (some (k, s)), r)

/-- Decoding of a subsection of a component.  The cases of sections.go:247-254, 923-930, 2370-2385. -/
def subDecode (E : Env) (t : Term) (k : SubKind) (ls : List Line) : Res (Sub × List Line) :=
  match k with
  | .alarm => alarmDecode E t ls
  | .leaf T => do
    let (s, r) ← T.decode E noSub t ls
    return (.leaf s, r)

/-- Decoding of a component.  The cases of sections.go:43-86. -/
def compDecode (E : Env) (t : Term) (T : Tab SubKind) (ls : List Line) : Res (Comp × List Line) :=
  T.decode E (subDecode E t) t ls

/-! ## Decode -/

/-- `Decode` (decoder.go:16-37) on the phrases of the tokeniser. -/
def decodeStream (E : Env) (st : Stream) : Res Cal :=
  match st.lines with
  | [] => .err st.term.err
  | l :: r =>
    if upper l.name = kBEGIN ∧ upper l.value = tabCalendar.name then do
      let (c, _) ← tabCalendar.decode E (compDecode E st.term) st.term r
      return c
    else .err .invalidCalendar

/-- `Decode` on the unfolded text.  decoder.go:16-37. -/
def decodeDoc (E : Env) (s : Str) : Res Cal := decodeStream E (tokenise s)

/-- Outcome of `Decode`: a calendar, an error (a panic), or no return.  decoder.go:16. -/
abbrev Outcome := Run (Res Cal)

/-- `Decode(r)` (decoder.go:16-37) where the tokeniser reads through the unfolder with buffers of the given sizes.

Simplified: the tokeniser reads all of the text before it is decoded, and an error of the reader other than the end of the file is not
distinguished from the end. -/
def decodeReader (E : Env) (R : Reader) (fuel : Nat) (ks : List Nat) : Outcome :=
  (readAll R fuel ks {} []).bind fun (out, _, _) => .done (decodeDoc E (runes out))

/-! ## Encode -/

/-- Sections without subsections encode none (sections.go:2610-2633, 2789-2812, 3036-4169). -/
def noEnc (k : Empty) (_ : Empty) : Option Str := nomatch k

/-- `Alarm.encode` (sections_alarm.go:82-100); an alarm without type cannot be reached here, validation rejects it. -/
def alarmEncode (E : Env) (a : Option (AKind × Leaf)) : Option Str :=
  match a with
  | none => some []
  | some (k, s) =>
    cat ([some (lineOf kBEGIN kVALARM), some (lineOf kACTION k.action)] ++ k.tab.body E noEnc s ++
      [some (lineOf kEND kVALARM)])

/-- `Alarm.encode`, `Standard.encode`, `Daylight.encode` (sections_alarm.go:82-100, sections.go:2610-2633, 2789-2812). -/
def subEncode (E : Env) (k : SubKind) (s : Sub) : Option Str :=
  match k, s with
  | .alarm, .alarm a => alarmEncode E a
  | .leaf T, .leaf s => T.encode E noEnc s
  | _, _ => some []

/-- The text that `cal.encode` writes (sections.go:124-150), as one piece; `none` if it never stops writing. -/
def encodeDoc (E : Env) (c : Cal) : Option Str := tabCalendar.encode E (fun T s => T.encode E (subEncode E) s) c

/-- Sections without subsections check none (sections.go:2635-2673, 2814-2852, 3089-4173). -/
def noVal (k : Empty) (_ : Empty) : Res Unit := nomatch k

/-- `Alarm.valid` (sections_alarm.go:102-109). -/
def subValid (k : SubKind) (s : Sub) : Res Unit :=
  match k, s with
  | .alarm, .alarm none => .err .invalidAlarm
  | .alarm, .alarm (some (a, s)) => a.tab.valid noVal s
  | .leaf T, .leaf s => T.valid noVal s
  | _, _ => .ok ()

/-- `Calendar.valid` (sections.go:152-192). -/
def Cal.valid (c : Cal) : Res Unit := tabCalendar.valid (fun T s => T.valid subValid s) c

/-- Sections without subsections (sections.go:2497-2505, 2676-2684, 2855-2869). -/
def noTyp (k : Empty) (_ : Empty) : Bool := nomatch k

/-- A subsection is a value of the Go type `Alarm`, `Standard` or `Daylight` (sections_alarm.go:34-36, sections.go:2497-2505, 2676-2684). -/
def subTyped (k : SubKind) (s : Sub) : Bool :=
  match k, s with
  | .alarm, .alarm none => true
  | .alarm, .alarm (some (a, s)) => a.tab.typed noTyp s
  | .leaf T, .leaf s => T.typed noTyp s
  | _, _ => false

/-- The calendar is a value of the Go type `Calendar`.  sections.go:15-23. -/
def Cal.typed (c : Cal) : Bool := tabCalendar.typed (fun T s => T.typed subTyped s) c

/-- The error `Encode` returns: one of validation, or of the caller's writer.  encoder.go:16-18, 24. -/
inductive EncErr where
  | validation (e : Err)
  | write (e : Nat)
  deriving DecidableEq, Repr

/-- The outcome of `Encode`: its error, and what happened at the caller's writer.  encoder.go:15-25. -/
structure EncOut where
  err : Option EncErr
  f : Folder

/-- `Encode(w, cal)` (encoder.go:15-25) with writer `W`.  `cut` divides the text into the pieces handed to the folder; the model leaves open how
(C04, C05 hold for all ways). -/
def encode (E : Env) (W : Sink) (cut : Str → List Str) (c : Cal) : Run EncOut :=
  match c.valid with
  | .err e => .done ⟨some (.validation e), {}⟩
  | .panic => .panic
  | .ok () =>
    match encodeDoc E c with
    | none => .running
    | some s =>
      let f := ({} : Folder).writes W ((cut s).map utf8)
      .done ⟨f.err.map .write, f⟩

end Ics
