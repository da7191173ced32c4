import Verif.Codec
import Verif.Spec.Params
/-!
# Specification: the properties of a calendar, the rules between them, calendars that differ in values only
-/

namespace Ics.Spec

variable {κ σ α : Type}

/-! ## All properties of a calendar -/

/-- The properties of a section, each with the field it is in. -/
def sectProps (T : Tab κ) (s : Sect σ) : List (SField × PropVal) :=
  (T.fields.zip s.fields).flatMap fun x => x.2.map fun p => (x.1, p)

/-- What the subsections have. -/
def below (f : κ → σ → List α) (T : Tab κ) (s : Sect σ) : List α :=
  (T.subs.zip s.subs).flatMap fun x => x.2.flatMap (f x.1.2)

def subProps : SubKind → Sub → List (SField × PropVal)
  | .leaf T, .leaf s => sectProps T s
  | .alarm, .alarm (some (a, s)) => sectProps a.tab s
  | _, _ => []

def compProps (T : Tab SubKind) (s : Comp) : List (SField × PropVal) := sectProps T s ++ below subProps T s

/-- All properties of a calendar, in all its components, time zone parts and alarms. -/
def calProps (c : Cal) : List (SField × PropVal) := sectProps tabCalendar c ++ below compProps tabCalendar c

/-! ## The parts of a property -/

/-- The parameters that are set. -/
def propParams (sp : PSpec) (p : PropVal) : List (PDef × ParamVal) :=
  match sp.shape, p with
  | .fields ds _, .fields ps _ => (ds.zip ps).filterMap fun x => x.2.map fun v => (x.1, v)
  | _, _ => []

/-- The values that are set. -/
def propVals : PropVal → List Val
  | .enum _ => []
  | .fields _ vs => vs.filterMap id

/-- The texts in a parameter. -/
def paramTexts : ParamVal → List Str
  | .str s => [s]
  | .strs ss => ss
  | _ => []

/-! ## Rules between properties -/

/-- The section has the property with this name. -/
def Has (T : Tab κ) (s : Sect σ) (n : Str) : Prop := ∃ p ∈ sectProps T s, p.1.key = n

/-- What the rules of a table mean. -/
def Holds (T : Tab κ) (s : Sect σ) : Rule → Prop
  | .notBoth a b => ¬ (Has T s a ∧ Has T s b)
  | .needs a b => Has T s a → Has T s b
  | .onlyOne a b => (Has T s a ∧ ¬ Has T s b) ∨ (Has T s b ∧ ¬ Has T s a)
  | .anySub => ∃ xs ∈ s.subs, xs ≠ []

def SectRules (T : Tab κ) (s : Sect σ) : Prop := ∀ r ∈ T.rules, Holds T s r

/-- A statement about all subsections. -/
def Below (P : κ → σ → Prop) (T : Tab κ) (s : Sect σ) : Prop := ∀ x ∈ T.subs.zip s.subs, ∀ y ∈ x.2, P x.1.2 y

def SubRules : SubKind → Sub → Prop
  | .leaf T, .leaf s => SectRules T s
  | .alarm, .alarm (some (a, s)) => SectRules a.tab s
  | _, _ => True

/-- Every section of the calendar keeps the rules of its table. -/
def CalRules (c : Cal) : Prop :=
  SectRules tabCalendar c ∧ Below (fun T s => SectRules T s ∧ Below SubRules T s) tabCalendar c

/-! ## Changing values only -/

def PropVal.mapVals (f : Val → Val) : PropVal → PropVal
  | .enum n => .enum n
  | .fields ps vs => .fields ps (vs.map (·.map f))

def Sect.mapVals (f : Val → Val) (g : σ → σ) (s : Sect σ) : Sect σ := ⟨s.fields.map (·.map (PropVal.mapVals f)), s.subs.map (·.map g)⟩

def Leaf.mapVals (f : Val → Val) (s : Leaf) : Leaf := Sect.mapVals f id s

def Sub.mapVals (f : Val → Val) : Sub → Sub
  | .leaf s => .leaf (Leaf.mapVals f s)
  | .alarm none => .alarm none
  | .alarm (some (a, s)) => .alarm (some (a, Leaf.mapVals f s))

def Comp.mapVals (f : Val → Val) (s : Comp) : Comp := Sect.mapVals f (Sub.mapVals f) s

/-- The calendar with `f` applied to every value. -/
def Cal.mapVals (f : Val → Val) (c : Cal) : Cal := Sect.mapVals f (Comp.mapVals f) c

/-! ## Identity of locations -/

/-- `*time.Location` values loaded anew are other pointers with the same contents. -/
def anonLoc : Loc → Loc
  | .zone n _ r => .zone n 0 r
  | l => l

def anonTime (t : GoTime) : GoTime := { t with loc := anonLoc t.loc }

/-- The value without the identity of the locations in it. -/
def anonVal : Val → Val
  | .dateTime t => .dateTime (anonTime t)
  | .period p => .period { p with start := anonTime p.start, stop := anonTime p.stop }
  | .recur r => .recur { r with until_ := anonTime r.until_ }
  | v => v

/-- The two calendars are equal, but for the identity of the locations in them. -/
def SameCal (a b : Cal) : Prop := Cal.mapVals anonVal a = Cal.mapVals anonVal b

/-- The locations in a value. -/
def valLocs : Val → List Loc
  | .dateTime t => [t.loc]
  | .period p => [p.start.loc, p.stop.loc]
  | .recur r => [r.until_.loc]
  | _ => []

/-- No value has a location other than `time.UTC` and `time.Local`. -/
def Unzoned (c : Cal) : Prop := ∀ x ∈ calProps c, ∀ v ∈ propVals x.2, ∀ l ∈ valLocs v, l = .utc ∨ l = .local

/-! ## Leaving out a field -/

def dropField (n : Str) (fs : List SField) (vs : List (List PropVal)) : List (List PropVal) :=
  List.zipWith (fun f v => if f.key = n then [] else v) fs vs

/-- The calendar without the property read under the name `n`, in all of its components. -/
def Cal.dropField (n : Str) (c : Cal) : Cal :=
  ⟨c.fields, List.zipWith (fun k xs => xs.map fun s : Comp => ⟨Spec.dropField n k.2.fields s.fields, s.subs⟩) tabCalendar.subs c.subs⟩

/-! ## Clean parameters and values -/

/-- Characters that may stand in a parameter value without quotes. -/
def BareChar (c : Char) : Prop := NoCtl c ∧ c ≠ '"' ∧ c ≠ ';' ∧ c ≠ ':' ∧ c ≠ ','

/-- Texts in parameters have no control characters, quotes or carets; URIs in parameters only characters that need no quotes. -/
def CleanParam (E : Env) : ParamVal → Prop
  | .url u => ∀ c ∈ E.urlString u, BareChar c
  | .urls us => ∀ u ∈ us, ∀ c ∈ E.urlString u, BareChar c
  | .str s => PlainText s
  | .strs ss => ∀ s ∈ ss, PlainText s
  | _ => True

/-- The location of the time in a value. -/
def valLoc : Val → Loc
  | .dateTime t => t.loc
  | .period p => p.start.loc
  | .recur r => r.until_.loc
  | _ => .utc

/-- Names of time zones have only characters that need no quotes; the library writes URIs and floats without control characters. -/
def CleanVal (E : Env) (v : Val) : Prop :=
  (∀ name ptr rules, valLoc v = .zone name ptr rules → ∀ c ∈ name, BareChar c) ∧
  match v with
  | .calAddress u => ∀ c ∈ E.urlString u, NoCtl c
  | .uri u => ∀ c ∈ E.urlString u, NoCtl c
  | .tfloat t => ∀ c ∈ E.floatFormat t.1 ++ E.floatFormat t.2, NoCtl c
  | _ => True

/-! ## The outline of a document -/

/-- A line without the data: a control line (BEGIN, END or ACTION) with its value, or a property with the names of its parameters. -/
inductive Outline where
  | ctl (name value : Str)
  | prop (name : Str) (params : List Str)
  deriving DecidableEq, Repr

def outlineOf (l : Line) : Outline :=
  if l.name ∈ [c!"BEGIN", c!"END", c!"ACTION"] ∧ l.params = [] then .ctl l.name l.value else .prop l.name (l.params.map (·.1))

/-- The parameter is not empty. -/
def present (E : Env) : ParamVal → Bool
  | .url u => !(E.urlString u).isEmpty
  | .urls us => !us.isEmpty
  | .str s => !s.isEmpty
  | .strs ss => !ss.isEmpty
  | .bool b => b
  | _ => true

/-- The parameters the line of a property should have: those that are set and not empty, VALUE if it is not the first alternative,
ENCODING for binary data, TZID for a time in a zone. -/
def lineParams (E : Env) (sp : PSpec) (p : PropVal) : List Str :=
  ((propParams sp p).filter (fun x => present E x.2)).map (·.1.name) ++
  (match p with
    | .fields _ (none :: _) => [c!"VALUE"]
    | _ => []) ++
  (propVals p).flatMap fun v =>
    match v, valLoc v with
    | .binary _, _ => [c!"ENCODING"]
    | _, .zone _ _ _ => [c!"TZID"]
    | _, _ => []

/-- A section: BEGIN, then `pre`, one line for each property, the subsections, END. -/
def sectOutline (E : Env) (name : Str) (pre : List Outline) (T : Tab κ) (sub : κ → σ → List Outline) (s : Sect σ) : List Outline :=
  .ctl c!"BEGIN" name :: pre ++ (sectProps T s).map (fun x => .prop x.1.spec.name (lineParams E x.1.spec x.2)) ++ below sub T s ++
    [.ctl c!"END" name]

def subOutline (E : Env) : SubKind → Sub → List Outline
  | .leaf T, .leaf s => sectOutline E T.name [] T (fun k => nomatch k) s
  | .alarm, .alarm (some (a, s)) => sectOutline E c!"VALARM" [.ctl c!"ACTION" a.action] a.tab (fun k => nomatch k) s
  | _, _ => []

/-- The lines a calendar should have: one for each property, and those around its components, time zone parts and alarms. -/
def calOutline (E : Env) (c : Cal) : List Outline :=
  sectOutline E c!"VCALENDAR" [] tabCalendar (fun T s => sectOutline E T.name [] T (subOutline E) s) c

end Ics.Spec
