import Verif.Property
/-!
# Model of sections.go and sections_alarm.go

sections.go is generated: every section has the same code around its fields.  The model has one decoding loop, one `encode` and one `valid`,
driven by the tables of Tables.lean.  A tokeniser is the list of content lines still to come and how the list ends.
-/

namespace Ics

/-- How often a property may occur.  A value, a pointer or a slice in the Go struct, e.g. sections.go:195-227. -/
inductive Mult where
  | req | opt | many
  deriving DecidableEq, Repr

/-- A property field: the name `decode` looks for, its type (with the name `encode` writes), its multiplicity.  E.g. sections.go:195-227; the rows are in Tables.lean. -/
structure SField where
  key : Str
  spec : PSpec
  mult : Mult
  deriving DecidableEq, Repr

/-- The checks behind the decoding loops (error `ErrRequirementNotMet`), on the presence of fields, e.g. sections.go:553-555.  The rows are in Tables.lean, with their lines. -/
inductive Rule where
  /-- not both (sections.go:553) -/
  | notBoth (a b : Str)
  /-- the first only with the second (sections.go:1229) -/
  | needs (a b : Str)
  /-- exactly one of the two (sections.go:3684) -/
  | onlyOne (a b : Str)
  /-- some subsection (sections.go:2434) -/
  | anySub
  deriving DecidableEq, Repr

/-- The table of a section type: its name on BEGIN and END lines, its fields, its subsections (kinds of type `κ`), and the checks, e.g. sections.go:15-122.  The tables are in Tables.lean, with their lines. -/
structure Tab (κ : Type) where
  name : Str
  fields : List SField
  subs : List (Str × κ)
  rules : List Rule

/-- A section: for each field its properties, for each kind of subsection the subsections.  E.g. sections.go:15-23, 195-227. -/
structure Sect (σ : Type) where
  fields : List (List PropVal)
  subs : List (List σ)
  deriving DecidableEq, Repr

/-- Sections without subsections.  sections.go:2497-2505, 2676-2684, 2855-2869. -/
abbrev Leaf := Sect Empty

/-- The subsections of components: time zone rules, or alarms.  sections.go:226, 2348-2349. -/
inductive SubKind where
  | leaf (T : Tab Empty)
  | alarm

/-- The dynamic types of `AlarmType`.  sections_alarm.go:26-31, 103-106. -/
inductive AKind where
  | audio | display | email | uri | none
  deriving DecidableEq, Repr

/-- A subsection of a component; an alarm may have a nil `AlarmType`.  sections_alarm.go:33-36, sections.go:2497-2505, 2676-2684. -/
inductive Sub where
  | leaf (s : Leaf)
  | alarm (a : Option (AKind × Leaf))
  deriving DecidableEq, Repr

/-- A component (sections.go:195-227, 871-903, 1551-1576, 2078-2090, 2344-2350). -/
abbrev Comp := Sect Sub
/-- `Calendar` (sections.go:15-23). -/
abbrev Cal := Sect Comp

/-- The error a section's loop returns when the lines end: the tokeniser's, or `io.ErrUnexpectedEOF`.  sections.go:31-35 and its like, 4179-4183. -/
def Term.err : Term → Err
  | .done => .unexpectedEOF
  | .error e => e

/-- sections.go:41. -/
def kBEGIN : Str := c!"BEGIN"
/-- sections.go:108, 4190. -/
def kEND : Str := c!"END"
/-- sections_alarm.go:53. -/
def kACTION : Str := c!"ACTION"
/-- sections.go:247, sections_alarm.go:83. -/
def kVALARM : Str := c!"VALARM"

/-- `decodeDummy` (sections.go:4176-4198).  Gives the lines behind the section.  The fuel bounds the lines. -/
def dummy (t : Term) : Nat → Str → List Line → Res (List Line)
  | 0, _, _ => .panic
  | _ + 1, _, [] => .err t.err
  | f + 1, n, l :: r =>
    if upper l.name = kBEGIN then do
      let r ← dummy t f l.value r
      dummy t f n r
    else if upper l.name = kEND then
      if upper l.value = n then .ok r else .err .invalidEnd
    else dummy t f n r

/-- Position of a field by its decode name.  The cases of the switch, e.g. sections.go:260-540. -/
def fieldIdx (n : Str) : List SField → Option Nat
  | [] => none
  | d :: ds => if n = d.key then some 0 else (fieldIdx n ds).map (· + 1)

/-- A property line for field `i` (e.g. sections.go:249-257, 271-280, 485-491). -/
def Sect.addProp {σ : Type} (E : Env) (s : Sect σ) (i : Nat) (f : SField) (l : Line) : Res (Sect σ) :=
  if f.mult ≠ .many ∧ s.fields.getD i [] ≠ [] then .err .multiple
  else do
    let v ← f.spec.decode E l.params l.value
    return { s with fields := s.fields.modify i (· ++ [v]) }

/-- E.g. sections.go:50, 254. -/
def Sect.addSub {σ : Type} (s : Sect σ) (i : Nat) (x : σ) : Sect σ := { s with subs := s.subs.modify i (· ++ [x]) }

/-- The decoding loops of sections.go (e.g. 232-546 for events); `sub` decodes a subsection.  Gives the section and the lines behind
its END.  The fuel bounds the lines. -/
def Sect.loop {κ σ : Type} (E : Env) (T : Tab κ) (sub : κ → List Line → Res (σ × List Line)) (t : Term) :
    Nat → Sect σ → List Line → Res (Sect σ × List Line)
  | 0, _, _ => .panic
  | _ + 1, _, [] => .err t.err
  | f + 1, s, l :: r =>
    if upper l.name = kBEGIN then
      match indexOf (upper l.value) (T.subs.map (·.1)) with
      | some i =>
        match T.subs[i]? with
        | some (_, k) => do
          let (x, r) ← sub k r
          Sect.loop E T sub t f (s.addSub i x) r
        | none => .panic
      | none => do
        let r ← dummy t (r.length + 1) (upper l.value) r
        Sect.loop E T sub t f s r
    else
      match fieldIdx (upper l.name) T.fields with
      | some i =>
        match T.fields[i]? with
        | some fd => do
          let s ← s.addProp E i fd l
          Sect.loop E T sub t f s r
        | none => .panic
      | none =>
        if upper l.name = kEND then
          if l.value = T.name then .ok (s, r) else .err .invalidEnd
        else Sect.loop E T sub t f s r

/-- The section before the loop.  The zero value, e.g. sections.go:44; decoder.go:30. -/
def Tab.start {κ : Type} (σ : Type) (T : Tab κ) : Sect σ := ⟨T.fields.map fun _ => [], T.subs.map fun _ => []⟩

/-- The required properties are there (e.g. sections.go:548-550). -/
def reqMet : List SField → List (List PropVal) → Bool
  | f :: fs, v :: vs => (f.mult != .req || v != []) && reqMet fs vs
  | _, _ => true

/-- Whether the field with this name is set.  E.g. sections.go:553. -/
def hasField {κ σ : Type} (T : Tab κ) (s : Sect σ) (n : Str) : Bool :=
  match fieldIdx n T.fields with
  | some i => s.fields.getD i [] != []
  | none => false

/-- The checks behind the loop.  E.g. sections.go:553, 1229, 2434, 3684. -/
def Rule.met {κ σ : Type} (T : Tab κ) (s : Sect σ) : Rule → Bool
  | .notBoth a b => !(hasField T s a && hasField T s b)
  | .needs a b => !(hasField T s a && !hasField T s b)
  | .onlyOne a b => hasField T s a != hasField T s b
  | .anySub => s.subs.any (fun x => !x.isEmpty)

/-- The part of `decode` behind the loop (e.g. sections.go:548-557). -/
def Tab.finish {κ σ : Type} (T : Tab κ) (s : Sect σ) : Res Unit := do
  Res.guard .missingRequired (reqMet T.fields s.fields)
  Res.guard .requirementNotMet (T.rules.all (Rule.met T s))

/-- The `decode` methods of sections.go. -/
def Tab.decode {κ σ : Type} (E : Env) (T : Tab κ) (sub : κ → List Line → Res (σ × List Line)) (t : Term) (ls : List Line) :
    Res (Sect σ × List Line) := do
  let (s, r) ← Sect.loop E T sub t (ls.length + 1) (T.start σ) ls
  T.finish s
  return (s, r)

/-! ## Encoding and validation -/

/-- The properties of each field in order (e.g. sections.go:560-677). -/
def encFields (E : Env) : List SField → List (List PropVal) → List (Option Str)
  | f :: fs, v :: vs => v.map (f.spec.encode E) ++ encFields E fs vs
  | _, _ => []

/-- The subsections of each kind in order (e.g. sections.go:677-679). -/
def encSubs {κ σ : Type} (enc : κ → σ → Option Str) : List (Str × κ) → List (List σ) → List (Option Str)
  | (_, k) :: ks, v :: vs => v.map (enc k) ++ encSubs enc ks vs
  | _, _ => []

/-- All that `encode` writes between the BEGIN and END lines.  E.g. sections.go:561-680. -/
def Tab.body {κ σ : Type} (E : Env) (T : Tab κ) (enc : κ → σ → Option Str) (s : Sect σ) : List (Option Str) :=
  encFields E T.fields s.fields ++ encSubs enc T.subs s.subs

/-- A line without parameters, e.g. sections.go:125, 149. -/
def lineOf (name value : Str) : Str := name ++ ':' :: value ++ crlf

/-- The `encode` methods of sections.go (not alarms). -/
def Tab.encode {κ σ : Type} (E : Env) (T : Tab κ) (enc : κ → σ → Option Str) (s : Sect σ) : Option Str :=
  cat ([some (lineOf kBEGIN T.name)] ++ T.body E enc s ++ [some (lineOf kEND T.name)])

/-- Checks one after the other.  E.g. sections.go:161-165. -/
def checks {α : Type} (f : α → Res Unit) : List α → Res Unit
  | [] => .ok ()
  | a :: as => do
    f a
    checks f as

/-- The fields in order, e.g. sections.go:685-860. -/
def validFields : List SField → List (List PropVal) → Res Unit
  | f :: fs, v :: vs => do
    checks f.spec.valid v
    validFields fs vs
  | _, _ => .ok ()

/-- The subsections in order, e.g. sections.go:161-190. -/
def validSubs {κ σ : Type} (val : κ → σ → Res Unit) : List (Str × κ) → List (List σ) → Res Unit
  | (_, k) :: ks, v :: vs => do
    checks (val k) v
    validSubs val ks vs
  | _, _ => .ok ()

/-- The `valid` methods of sections.go: the fields and subsections in order; nothing else. -/
def Tab.valid {κ σ : Type} (T : Tab κ) (val : κ → σ → Res Unit) (s : Sect σ) : Res Unit := do
  validFields T.fields s.fields
  validSubs val T.subs s.subs

/-! ## What the Go types guarantee -/

/-- A value, a pointer or a slice of the property's type, e.g. sections.go:195-227. -/
def typedFields : List SField → List (List PropVal) → Bool
  | [], [] => true
  | f :: fs, v :: vs =>
    v.all f.spec.typed &&
    (match f.mult with
      | .req => v.length == 1
      | .opt => v.length ≤ 1
      | .many => true) && typedFields fs vs
  | _, _ => false

/-- E.g. sections.go:18-22. -/
def typedSubs {κ σ : Type} (typ : κ → σ → Bool) : List (Str × κ) → List (List σ) → Bool
  | [], [] => true
  | (_, k) :: ks, v :: vs => v.all (typ k) && typedSubs typ ks vs
  | _, _ => false

/-- The section is a value of its Go type, e.g. sections.go:15-23. -/
def Tab.typed {κ σ : Type} (T : Tab κ) (typ : κ → σ → Bool) (s : Sect σ) : Bool :=
  typedFields T.fields s.fields && typedSubs typ T.subs s.subs

end Ics
