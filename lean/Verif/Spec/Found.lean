import Verif.Spec.Readable
/-!
# Specification: what is found in the text of a calendar that was written

Functions from what was written to what is read: not always the same, but always something that can be said beforehand.
-/

namespace Ics.Spec

open Ics

/-! ## Values -/

/-- The location that the machine finds under the name of this one.  `q` is the identity of a location that is loaded. -/
def foundLoc (E : Env) (q : Nat) : Loc → Loc
  | .zone n p r =>
    if n = [] ∨ n = c!"UTC" then .utc
    else if n = c!"Local" then .local
    else match E.loadZone n with
      | some r' => .zone n q r'
      | none => .zone n p r
  | l => l

/-- The whole second at which a clock there shows what the clock showed (or the one that package time takes instead). -/
def foundTime (E : Env) (q : Nat) (t : GoTime) : GoTime := ⟨instant E (foundLoc E q t.loc) (t.wall E), 0, foundLoc E q t.loc⟩

/-- Midnight of the day, as if in UTC. -/
def foundDay (E : Env) (t : GoTime) : GoTime := ⟨t.wall E / 86400 * 86400, 0, .utc⟩

/-- Nothing besides weeks. -/
def foundDuration (d : Duration) : Duration := if d.weeks = 0 then d else { neg := d.neg, weeks := d.weeks }

/-- Hours are written in a byte, and as none if they have three digits. -/
def foundOffset (o : Int) : Int :=
  let h := o.natAbs / 3600 % 256
  let n : Int := 3600 * (if 99 < h then 0 else h : Nat) + (o.natAbs % 3600 : Nat)
  if o < 0 then -n else n

/-- No duration besides an end. -/
def foundPeriod (E : Env) (p : Period) : Period :=
  if p.stop.isZero then ⟨foundTime E 0 p.start, {}, foundDuration p.dur⟩ else ⟨foundTime E 0 p.start, foundTime E 1 p.stop, {}⟩

/-- No end besides a count. -/
def foundRule (E : Env) (r : Recur) : Recur :=
  if r.count ≠ 0 ∨ r.until_.isZero then { r with until_ := {}, untilTime := false }
  else { r with until_ := if r.untilTime then foundTime E 0 r.until_ else foundDay E r.until_ }

def foundUri (E : Env) (u : Url) : Url := (E.urlParse (E.urlString u)).getD u

def foundFloat (E : Env) (f : UInt64) : UInt64 := (E.floatParse (E.floatFormat f)).getD f

def foundVal (E : Env) : Val → Val
  | .calAddress u => .calAddress (foundUri E u)
  | .uri u => .uri (foundUri E u)
  | .date t => .date (foundDay E t)
  | .dateTime t => .dateTime (foundTime E 0 t)
  | .duration d => .duration (foundDuration d)
  | .mtext ts => .mtext (if ts = [] then [[]] else ts)
  | .period p => .period (foundPeriod E p)
  | .recur r => .recur (foundRule E r)
  | .tfloat x => .tfloat (foundFloat E x.1, foundFloat E x.2)
  | .utcOffset o => .utcOffset (foundOffset o)
  | v => v

/-! ## Parameters and properties -/

/-- What is empty or false is not written; a number without a name is written as the name of none. -/
def foundParam (E : Env) (k : PKind) (v : ParamVal) : Option ParamVal :=
  if present E v then
    some (match k, v with
      | .enum names, .enum n => .enum (if n ≤ names.length then n else 0)
      | _, v => v)
  else none

def foundProp (E : Env) (sp : PSpec) (p : PropVal) : PropVal :=
  match sp.shape, p with
  | .fields ds _, .fields ps vs => .fields (List.zipWith (fun d v => v.bind (foundParam E d.kind)) ds ps) (vs.map (·.map (foundVal E)))
  | _, p => p

/-! ## Components -/

variable {κ σ : Type}

/-- LAST-MODIFIED is not found. -/
def foundSect (E : Env) (g : κ → σ → σ) (T : Tab κ) (s : Sect σ) : Sect σ :=
  ⟨(T.fields.zip s.fields).map fun x => if x.1.key = c!"LAST-MOD" then [] else x.2.map (foundProp E x.1.spec), (T.subs.zip s.subs).map fun x => x.2.map (g x.1.2)⟩

def foundSub (E : Env) : SubKind → Sub → Sub
  | .leaf T, .leaf s => .leaf (foundSect E (fun x => nomatch x) T s)
  | .alarm, .alarm (some (a, s)) => .alarm (some (a, foundSect E (fun x => nomatch x) a.tab s))
  | _, s => s

/-- What is found of the calendar. -/
def foundCal (E : Env) (c : Cal) : Cal := foundSect E (foundSect E (foundSub E)) tabCalendar c

/-! ## What is written again as it was written before -/

/-- Not one of the names under which `time.LoadLocation` finds `time.UTC` and `time.Local`, which are written without a name. -/
def LocSettled : Loc → Prop
  | .zone n _ _ => n ≠ [] ∧ n ≠ c!"UTC" ∧ n ≠ c!"Local"
  | _ => True

/-- Written without a name. -/
def LocNameless : Loc → Prop
  | .zone _ _ _ => False
  | _ => True

/-- The clock shows the same at the time that is found (not so if it is one that the clock there skips). -/
def TimeSettled (E : Env) (q : Nat) (t : GoTime) : Prop := LocSettled t.loc ∧ (foundTime E q t).wall E = t.wall E

/-- The value that is found has the text of this one, and the same zone beside it.  The end of a period or a rule must not be found as the zero time, which counts as
none; a zone that goes with no time of a rule is lost. -/
def ValSettled (E : Env) : Val → Prop
  | .calAddress u | .uri u => E.urlString (foundUri E u) = E.urlString u
  | .dateTime t => TimeSettled E 0 t
  | .period p => TimeSettled E 0 p.start ∧ (p.stop.isZero = false → TimeSettled E 1 p.stop ∧ (foundTime E 1 p.stop).isZero = false)
  | .recur r =>
    if r.count ≠ 0 ∨ r.until_.isZero then LocNameless r.until_.loc
    else if r.untilTime then TimeSettled E 0 r.until_ ∧ (foundTime E 0 r.until_).isZero = false
    else LocNameless r.until_.loc ∧ (foundDay E r.until_).isZero = false
  | .tfloat x => E.floatFormat (foundFloat E x.1) ++ ';' :: E.floatFormat (foundFloat E x.2) = E.floatFormat x.1 ++ ';' :: E.floatFormat x.2
  | _ => True

/-! ## What still passes validation -/

/-- The value that is found passes validation like this one: a time does not become the zero time; a period is not shortened to nothing, and both its ends are found in
one and the same location, so not in one that is loaded twice; numbers stay infinite, or none. -/
def ValStays (E : Env) : Val → Prop
  | .date t => (foundDay E t).isZero = false
  | .dateTime t => (foundTime E 0 t).isZero = false
  | .period p => (foundTime E 0 p.start).isZero = false ∧ (p.stop.isZero = false → (foundTime E 1 p.stop).isZero = false →
      (foundTime E 1 p.stop).after (foundTime E 0 p.start) = true ∧ foundLoc E 0 p.start.loc = foundLoc E 1 p.stop.loc)
  | .tfloat x => floatSpecial (foundFloat E x.1) = true ∧ floatSpecial (foundFloat E x.2) = true
  | _ => True

end Ics.Spec
