import Verif.Message
/-!
# What the errors of values, parameters and properties say

The `decode` methods of types.go, params.go and properties.go once more, now with the text of the error they return, or `none` if they return none (which includes panics).
Only the texts of the standard library are left open: `X` gives the text of the error of a call.
-/

namespace Ics

/-- A call of the standard library that returns an error: the function and its argument.  types.go:27, 95, 124, 160-179, 250, 442-445, 483, 1445. -/
inductive Call where
  | base64 (s : Str)
  | url (s : Str)
  | zone (name : Str)
  | time (layout s : Str)
  | float (s : Str)
  | int (s : Str)
  | uint (s : Str)
  deriving DecidableEq, Repr

/-- The texts of the errors of values, parameters and properties (types.go:1579-1602, params.go:1244-1245, properties.go `ErrDuplicateParam`). -/
def Err.sentinel : Err → Str
  | .invalidEncoding => c!"invalid Binary encoding"
  | .invalidPeriod => c!"invalid Period"
  | .invalidDuration => c!"invalid Duration"
  | .invalidText => c!"invalid encoded text"
  | .invalidBoolean => c!"invalid Boolean"
  | .invalidOffset => c!"invalid UTC Offset"
  | .invalidRecur => c!"invalid Recur"
  | .invalidTime => c!"invalid Time"
  | .invalidFloat => c!"invalid float"
  | .invalidTFloat => c!"invalid number of floats"
  | .invalidPeriodStart => c!"invalid start of Period"
  | .invalidPeriodDuration => c!"invalid Period duration"
  | .invalidPeriodEnd => c!"invalid end of Period"
  | .invalidRecurFrequency => c!"invalid Recur frequency"
  | .invalidRecurBySecond => c!"invalid Recur BySecond"
  | .invalidRecurByMinute => c!"invalid Recur ByMinute"
  | .invalidRecurByHour => c!"invalid Recur ByHour"
  | .invalidRecurByDay => c!"invalid Recur ByDay"
  | .invalidRecurByMonthDay => c!"invalid Recur ByMonthDay"
  | .invalidRecurByYearDay => c!"invalid Recur ByYearDay"
  | .invalidRecurByWeekNum => c!"invalid Recur ByWeekNum"
  | .invalidRecurByMonth => c!"invalid Recur ByMonth"
  | .invalidRecurBySetPos => c!"invalid Recur BySetPos"
  | .invalidRecurWeekStart => c!"invalid Recur WeekStart"
  | .invalidParam => c!"invalid param value"
  | .invalidValue => c!"invalid value"
  | .duplicateParam => c!"duplicate param"
  | _ => []

/-- The text of an error: that of the standard library gets a text before it, the errors of the package are returned as they are.  E.g. types.go:23-32. -/
def Err.wording (lib : Str) : Err → Str
  | .ext => lib
  | e => e.sentinel

/-- The text of the error of a method with one call of the standard library, `lib` being what it says if that fails.  E.g. types.go:22-35. -/
def Res.wording {α : Type} (lib : Str) : Res α → Option Str
  | .err e => some (e.wording lib)
  | _ => none

/-! ## Values -/

/-- `DateTime.decode` (types.go:158-188). -/
def dateTimeSays (X : Call → Str) (E : Env) (ptr : Nat) (tzid : Option Str) (s : Str) : Option Str :=
  match tzid with
  | some n =>
    match loadLocation E ptr n with
    | none => some (c!"error loading timezone for DateTime: " ++ X (.zone n))
    | some l => (Res.ofOption .ext (parseDateTime E false l s)).wording (c!"error parsing time in location for DateTime: " ++ X (.time c!"20060102T150405" s))
  | none =>
    if s.getLast? = some 'Z' then (Res.ofOption .ext (parseDateTime E true .utc s)).wording (c!"error parsing time in UTC for DateTime: " ++ X (.time c!"20060102T150405Z" s))
    else (Res.ofOption .ext (parseDateTime E false .local s)).wording (c!"error parsing local time for DateTime: " ++ X (.time c!"20060102T150405" s))

/-- types.go:250-252: what is said if the number in front of `s` can not be read. -/
def numberSays (X : Call → Str) (s : Str) : Str := c!"error decoding duration: " ++ X (.uint ((if s.head? = some 'T' then s.tail else s).takeWhile isDigit))

/-- The loop of `Duration.decode` (types.go:240-319). -/
def durationLoopSays (X : Call → Str) : Nat → Nat → Str → Option Str
  | 0, _, _ => some Err.invalidDuration.sentinel
  | fuel + 1, level, s =>
    if s = [] then
      if level = 0 then some Err.invalidDuration.sentinel else none
    else
      let level' := if s.head? = some 'T' then 1 else level
      let s' := if s.head? = some 'T' then s.tail else s
      match parseUint 64 (s'.takeWhile isDigit) with
      | none => some (numberSays X s)
      | some _ =>
        match s'.dropWhile isDigit with
        | 'W' :: r => if level' > 0 then some Err.invalidDuration.sentinel else if r ≠ [] then some Err.invalidDuration.sentinel else none
        | 'D' :: r => if level' > 0 then some Err.invalidDuration.sentinel else durationLoopSays X fuel 1 r
        | 'H' :: r => if level' > 1 then some Err.invalidDuration.sentinel else durationLoopSays X fuel 2 r
        | 'M' :: r => if level' > 2 then some Err.invalidDuration.sentinel else durationLoopSays X fuel 3 r
        | 'S' :: r =>
          if level' > 3 then some Err.invalidDuration.sentinel
          else if r ≠ [] then some Err.invalidDuration.sentinel
          else durationLoopSays X fuel level' r
        | _ => some Err.invalidDuration.sentinel

/-- `Duration.decode` (types.go:225-319). -/
def durationSays (X : Call → Str) (s : Str) : Option Str :=
  let s := if s.head? = some '-' ∨ s.head? = some '+' then s.tail else s
  match s with
  | 'P' :: r => durationLoopSays X (r.length + 1) 0 r
  | _ => some Err.invalidDuration.sentinel

/-- `Period.decode` (types.go:515-531). -/
def periodSays (X : Call → Str) (E : Env) (ptr : Nat) (tzid : Option Str) (s : Str) : Option Str :=
  match split2 '/' s with
  | (_, none) => some Err.invalidPeriod.sentinel
  | (_, some []) => some Err.invalidPeriod.sentinel
  | (a, some (c :: b)) =>
    match dateTimeSays X E ptr tzid a with
    | some m => some (c!"error while decoding Period Start: " ++ m)
    | none =>
      if c = 'P' ∨ c = '+' then (durationSays X (c :: b)).map (c!"error while decoding Period: " ++ ·)
      else (dateTimeSays X E (ptr + 1) tzid (c :: b)).map (c!"error while decoding Period End: " ++ ·)

/-- `TFloat.decode` (types.go:434-450). -/
def tfloatSays (X : Call → Str) (E : Env) (s : Str) : Option Str :=
  match split2 ';' s with
  | (_, none) => some Err.invalidTFloat.sentinel
  | (a, some b) =>
    match E.floatParse a with
    | none => some (c!"error parsing TFloat[0]: " ++ X (.float a))
    | some _ =>
      match E.floatParse b with
      | none => some (c!"error parsing TFloat[1]: " ++ X (.float b))
      | some _ => none

/-- The `decode` methods of types.go, by type (lines as for `Val.decode`): those with a text of their own, and those that hand on the errors they get (Integer, types.go:483-486). -/
def valSays (X : Call → Str) (E : Env) (op : Str → Option Str) (k : Kind) (s : Str) : Option Str :=
  match k with
  | .binary => (Val.decode E op .binary s).wording (c!"error while decoding binary data: " ++ X (.base64 s))
  | .calAddress => (Val.decode E op .calAddress s).wording (c!"error parsing CalendarAddress: " ++ X (.url s))
  | .date => (Val.decode E op .date s).wording (c!"error parsing Date: " ++ X (.time c!"20060102" s))
  | .dateTime => dateTimeSays X E 0 (op c!"TZID") s
  | .duration => durationSays X s
  | .integer => (Val.decode E op .integer s).wording (X (.int s))
  | .period => periodSays X E 0 (op c!"TZID") s
  | .tfloat => tfloatSays X E s
  | .uri => (Val.decode E op .uri s).wording (c!"error decoding URI: " ++ X (.url s))
  | .boolean | .mtext | .recur | .text | .utcOffset => (Val.decode E op k s).wording []

/-- The constants for the types (types.go:1605-1611, params.go:1270, properties.go:4341), as used e.g. at properties.go:138-146.  Types that no property with parameters or with a
choice has are not named. -/
def Kind.goName : Kind → Str
  | .binary => c!"Binary"
  | .calAddress => c!"CalendarAddress"
  | .date => c!"Date"
  | .dateTime => c!"DateTime"
  | .duration => c!"Duration"
  | .mtext => c!"MText"
  | .period => c!"Period"
  | .text => c!"Text"
  | .uri => c!"URI"
  | _ => []

/-! ## Parameters -/

/-- The constants for the parameters (params.go:1251-1272), by the name on the line. -/
def goParams : List (Str × Str) := [
  (c!"ALTREP", c!"AlternativeRepresentation"), (c!"LANGUAGE", c!"Language"), (c!"CN", c!"CommonName"), (c!"DIR", c!"DirectoryEntry"), (c!"SENT-BY", c!"SentBy"),
  (c!"RANGE", c!"Range"), (c!"FMTTYPE", c!"FormatType"), (c!"CUTYPE", c!"CalendarUserType"), (c!"MEMBER", c!"Member"), (c!"ROLE", c!"ParticipationRole"),
  (c!"PARTSTAT", c!"ParticipationStatus"), (c!"RSVP", c!"RSVP"), (c!"DELEGATED-TO", c!"Delagatee"), (c!"DELEGATED-FROM", c!"Delegator"), (c!"RELTYPE", c!"RelationshipType"),
  (c!"FBTYPE", c!"FreeBusyType"), (c!"URI", c!"URI"), (c!"ID", c!"ID"), (c!"AGENT-ID", c!"AgentID")]

/-- The constant for a parameter.  params.go:1251-1272. -/
def goParam (n : Str) : Str :=
  match goParams.find? fun x => x.1 = n with
  | some x => x.2
  | none => []

/-- What the `decode` methods of params.go give as the reason (lines as for `PKind.decode`).  The URI of ALTREP and URI is read by `URI.decode`, those of DELEGATED-FROM and DELEGATED-TO
by `CalendarAddress.decode`. -/
def paramCause (X : Call → Str) (E : Env) (k : PKind) (vs : List PVal) : Option Str :=
  match k with
  | .url =>
    match vs with
    | [v] => (k.decode E [v]).wording (c!"error decoding URI: " ++ X (.url v.data))
    | _ => some Err.invalidParam.sentinel
  | .urls => vs.findSome? fun v => (PKind.decode E .urls [v]).wording (c!"error parsing CalendarAddress: " ++ X (.url v.data))
  | k => (k.decode E vs).wording []

/-- The `decode` methods of params.go: all name the parameter (e.g. params.go:20, 24, 30). -/
def paramSays (X : Call → Str) (E : Env) (d : PDef) (vs : List PVal) : Option Str := (paramCause X E d.kind vs).map (saysType (goParam d.name))

/-! ## Properties -/

/-- The constant for the property (properties.go:4323-4374): the name of its Go type.  Used e.g. at properties.go:91, 138. -/
def goProp (f : SField) : Str :=
  if f.spec = propAlarmStatus then c!"AlarmStatus"
  else match goFields.find? fun x => x.1 = f.key with
    | some x => x.2
    | none => []

/-- One round of the parameter loop (e.g. properties.go:83-129, 2314-2356), in a property that calls itself `me`. -/
def stepSays (X : Call → Str) (E : Env) (me : Str) (params : List PDef) (vals : List (Str × Kind)) (st : PState) (p : Str × List PVal) : Option Str :=
  let n := upper p.1
  match paramIdx n params with
  | some i =>
    if (st.ps.getD i none).isSome then some (saysProp me (goParam (params.getD i ⟨[], .range⟩).name) Err.duplicateParam.sentinel)
    else (paramSays X E (params.getD i ⟨[], .range⟩) p.2).map (saysProp me (goParam (params.getD i ⟨[], .range⟩).name))
  | none =>
    if n = c!"VALUE" ∧ 2 ≤ vals.length then
      match p.2 with
      | [v] =>
        if st.vtype.isSome then some (saysProp me c!"Value" Err.duplicateParam.sentinel)
        else match indexOf (upper v.data) (vals.map (·.1)) with
          | some _ => none
          | none => some (saysType me Err.invalidValue.sentinel)
      | _ => some (saysProp me c!"Value" Err.invalidValue.sentinel)
    else none

/-- The parameter loop (e.g. properties.go:83-130). -/
def stepsSay (X : Call → Str) (E : Env) (me : Str) (params : List PDef) (vals : List (Str × Kind)) : PState → List (Str × List PVal) → Option Str
  | _, [] => none
  | st, p :: ps =>
    match st.step E params vals p with
    | .ok st' => stepsSay X E me params vals st' ps
    | _ => stepSays X E me params vals st p

/-- The `decode` methods of properties.go.  A property that is a struct names the type of the value as well (e.g. properties.go:138), one that is just a value does not (e.g. properties.go:536). -/
def propSays (X : Call → Str) (E : Env) (me : Str) (sp : PSpec) (ps : List (Str × List PVal)) (value : Str) : Option Str :=
  match sp.shape with
  | .enum names =>
    match indexOf (upper value) names with
    | some _ => none
    | none => some (saysType me Err.invalidValue.sentinel)
  | .fields params vals =>
    match PState.steps E params vals { ps := params.map fun _ => none } ps with
    | .ok st =>
      let k := (vals.getD (st.vtype.getD 0) ([], .text)).2
      (valSays X E (opGet st.op) k value).map fun m => if params = [] ∧ vals.length = 1 then saysType me m else saysProp me k.goName m
    | _ => stepsSay X E me params vals { ps := params.map fun _ => none } ps

/-- The texts of C89, now with those of properties.  sections.go:107, 139. -/
def libWords (X : Call → Str) (ext : Err → Str) (E : Env) : Words where
  prop f l := (propSays X E (goProp f) f.spec l.params l.value).getD []
  ext := ext

/-! ## Validation -/

/-- The `valid` methods of types.go return their errors as they are.  types.go:145-151, 211-217, 463-477, 550-562, 1165-1235, 1317-1323, 1363-1371. -/
def valSaysInvalid (v : Val) : Option Str := v.valid.wording []

/-- The `valid` methods of params.go (e.g. params.go:94-100).  `errValidatingType` is "error decoding %s: %w" too (params.go:1250). -/
def paramSaysInvalid (d : PDef) (v : ParamVal) : Option Str := ((d.kind.valid v).wording []).map (saysType (goParam d.name))

/-- The checks of the parameters in order, e.g. properties.go:174-178.  `errValidatingProp` (properties.go:4322). -/
def paramsSayInvalid (me : Str) : List PDef → List (Option ParamVal) → Option Str
  | d :: ds, p :: ps =>
    match p.bind (paramSaysInvalid d) with
    | some m => some (c!"error validating " ++ me ++ c!"->" ++ goParam d.name ++ c!": " ++ m)
    | none => paramsSayInvalid me ds ps
  | _, _ => none

/-- The checks of the values that are set, in order (e.g. properties.go:182-196); `alone`: the property is just a value. -/
def valsSayInvalid (me : Str) (alone : Bool) : List (Option Val) → Option Str
  | [] => none
  | v :: vs =>
    match v with
    | some v =>
      match valSaysInvalid v with
      | some m => some (if alone then saysType me m else c!"error validating " ++ me ++ c!"->" ++ v.kind.goName ++ c!": " ++ m)
      | none => valsSayInvalid me alone vs
    | none => valsSayInvalid me alone vs

/-- The `valid` methods of properties.go. -/
def propSaysInvalid (me : Str) (sp : PSpec) (v : PropVal) : Option Str :=
  match sp.shape, v with
  | .enum names, .enum n => if n < names.length then none else some (saysType me Err.invalidValue.sentinel)
  | .fields params vals, .fields ps vs =>
    match paramsSayInvalid me params ps with
    | some m => some m
    | none =>
      match valsSayInvalid me (params = [] ∧ vals.length = 1) vs with
      | some m => some m
      | none => if vals.length = 1 ∨ (vs.filter (·.isSome)).length = 1 then none else some (saysType me Err.invalidValue.sentinel)
  | _, _ => none

/-- The texts of C90, now with those of properties.  sections.go:153-155. -/
def libInvalid (f : SField) (p : PropVal) : Str := (propSaysInvalid (goProp f) f.spec p).getD []

end Ics
