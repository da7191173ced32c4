import Verif.Spec.Structure
/-!
# Specification: edits of documents that should not matter

Unknown lines and blocks, the order of lines with different names, and the case of names.
-/

namespace Ics.Spec

/-! ## Lines that no component knows, and names in another case -/

/-- The fields of all components: of the calendar, of its components, and of their time zone rules and alarms. -/
def allFields : List SField := tabCalendar.fields ++ tabCalendar.subs.flatMap fun x =>
  x.2.fields ++ x.2.subs.flatMap fun y => match y.2 with
    | .leaf T => T.fields
    | .alarm => [AKind.audio, .display, .email, .uri, .none].flatMap fun a => a.tab.fields

/-- The names of the lines that give a document its structure. -/
def control : List Str := [c!"BEGIN", c!"END", c!"ACTION"]

/-- A line that no component knows. -/
def Foreign (l : Line) : Prop := upper l.name ∉ control ∧ ∀ f ∈ allFields, f.key ≠ upper l.name

instance (l : Line) : Decidable (Foreign l) := by unfold Foreign; infer_instance

/-- The same line up to the case of its name and of the names of its parameters; the names of control lines stay as they are. -/
structure Recased (l l' : Line) : Prop where
  name : upper l'.name = upper l.name
  control : upper l.name ∈ control → l'.name = l.name
  params : Pairwise2 (fun p q => upper q.1 = upper p.1 ∧ q.2 = p.2) l.params l'.params
  value : l'.value = l.value

/-- The same line up to the case of all names: of the property, the parameters, BEGIN and END, and the component. -/
structure CaseAlike (l l' : Line) : Prop where
  name : upper l'.name = upper l.name
  params : Pairwise2 (fun p q => upper q.1 = upper p.1 ∧ q.2 = p.2) l.params l'.params
  value : l'.value = l.value ∨ (Begins l ∨ Ends l) ∧ upper l'.value = upper l.value

/-- Corresponding lines, with foreign lines added anywhere. -/
inductive Variant (R : Line → Line → Prop) : List Line → List Line → Prop
  | nil : Variant R [] []
  | foreign {l : Line} {a b : List Line} : Foreign l → Variant R a b → Variant R a (l :: b)
  | line {l l' : Line} {a b : List Line} : R l l' → Variant R a b → Variant R (l :: a) (l' :: b)

/-- The same result; or, if `w`, both fail, in any way. -/
def ResAlike (w : Bool) {α : Type} (x y : Res α) : Prop := if w then ∀ a, x = .ok a ↔ y = .ok a else x = y

/-- Lines with the same name that mean the same: control lines have the same value, properties are read alike in all components (if `w`, but for errors). -/
structure SameRead (w : Bool) (E : Env) (l l' : Line) : Prop where
  name : upper l'.name = upper l.name
  control : upper l.name ∈ control → l'.name = l.name ∧ l'.value = l.value
  read : ∀ f ∈ allFields, f.key = upper l.name → ResAlike w (f.spec.decode E l.params l.value) (f.spec.decode E l'.params l'.value)

/-- The same lines in another order: neighbours with different names (in any case) exchanged, but not BEGIN and END lines. -/
inductive Swapped : List Line → List Line → Prop
  | nil : Swapped [] []
  | line {l : Line} {a b : List Line} : Swapped a b → Swapped (l :: a) (l :: b)
  | swap {l m : Line} {a b : List Line} : ¬ Begins l → ¬ Ends l → ¬ Begins m → ¬ Ends m → upper l.name ≠ upper m.name → Swapped a b →
      Swapped (l :: m :: a) (m :: l :: b)

/-! ## Places in a document -/

/-- What is between a BEGIN line and its END line: a calendar, a component of it, time zone rules, an alarm (with its lines so far), or a block that
is not known. -/
inductive Body where
  | cal
  | comp (T : Tab SubKind)
  | leaf (T : Tab Empty)
  | alarm (k : List Line)
  | unknown

/-- The names of the components that can be inside. -/
def Body.parts : Body → List Str
  | .cal => tabCalendar.subs.map (·.1)
  | .comp T => T.subs.map (·.1)
  | _ => []

/-- The properties that can be inside, other than in an alarm. -/
def Body.fields : Body → List SField
  | .cal => tabCalendar.fields
  | .comp T => T.fields
  | .leaf T => T.fields
  | _ => []

/-- A document that begins with these lines goes on inside this body. -/
inductive Inside : Body → List Line → Prop
  | cal {b : Line} : Begins b → upper b.value = c!"VCALENDAR" → Inside .cal [b]
  | comp {pre : List Line} {b : Line} {x : Str × Tab SubKind} : Inside .cal pre → Begins b → x ∈ tabCalendar.subs → upper b.value = x.1 →
      Inside (.comp x.2) (pre ++ [b])
  | leaf {T : Tab SubKind} {pre : List Line} {b : Line} {n : Str} {T' : Tab Empty} : Inside (.comp T) pre → Begins b → (n, SubKind.leaf T') ∈ T.subs →
      upper b.value = n → Inside (.leaf T') (pre ++ [b])
  | alarm {T : Tab SubKind} {pre : List Line} {b : Line} {n : Str} : Inside (.comp T) pre → Begins b → (n, SubKind.alarm) ∈ T.subs →
      upper b.value = n → Inside (.alarm []) (pre ++ [b])
  | unknown {B : Body} {pre : List Line} {b : Line} : Inside B pre → (∀ k, B ≠ .alarm k) → Begins b → upper b.value ∉ B.parts →
      Inside .unknown (pre ++ [b])
  | line {k pre : List Line} {l : Line} : Inside (.alarm k) pre → ¬ Begins l → ¬ Ends l → Inside (.alarm (k ++ [l])) (pre ++ [l])
  | lines {B : Body} {pre k : List Line} : Inside B pre → (∀ k, B ≠ .alarm k) → Closed k → Keywords k → Inside B (pre ++ k)

/-- The same without regard to the case of the names BEGIN, END and ACTION in the lines before. -/
inductive InsideAnyCase : Body → List Line → Prop
  | cal {b : Line} : Begins b → upper b.value = c!"VCALENDAR" → InsideAnyCase .cal [b]
  | comp {pre : List Line} {b : Line} {x : Str × Tab SubKind} : InsideAnyCase .cal pre → Begins b → x ∈ tabCalendar.subs → upper b.value = x.1 →
      InsideAnyCase (.comp x.2) (pre ++ [b])
  | leaf {T : Tab SubKind} {pre : List Line} {b : Line} {n : Str} {T' : Tab Empty} : InsideAnyCase (.comp T) pre → Begins b → (n, SubKind.leaf T') ∈ T.subs →
      upper b.value = n → InsideAnyCase (.leaf T') (pre ++ [b])
  | alarm {T : Tab SubKind} {pre : List Line} {b : Line} {n : Str} : InsideAnyCase (.comp T) pre → Begins b → (n, SubKind.alarm) ∈ T.subs →
      upper b.value = n → InsideAnyCase (.alarm []) (pre ++ [b])
  | unknown {B : Body} {pre : List Line} {b : Line} : InsideAnyCase B pre → (∀ k, B ≠ .alarm k) → Begins b → upper b.value ∉ B.parts →
      InsideAnyCase .unknown (pre ++ [b])
  | line {k pre : List Line} {l : Line} : InsideAnyCase (.alarm k) pre → ¬ Begins l → ¬ Ends l → InsideAnyCase (.alarm (k ++ [l])) (pre ++ [l])
  | lines {B : Body} {pre k : List Line} : InsideAnyCase B pre → (∀ k, B ≠ .alarm k) → Closed k → InsideAnyCase B (pre ++ k)

/-- The line, with the lines `r` behind it, is not known in this body: not BEGIN or END, not a property of the component.  In an alarm, neither
ACTION nor a property of an alarm with an action that occurs in it. -/
def NotKnown (l : Line) (r : List Line) : Body → Prop
  | .cal => ¬ Begins l ∧ ¬ Ends l ∧ ∀ f ∈ tabCalendar.fields, f.key ≠ upper l.name
  | .comp T => ¬ Begins l ∧ ¬ Ends l ∧ ∀ f ∈ T.fields, f.key ≠ upper l.name
  | .leaf T => ¬ Begins l ∧ ¬ Ends l ∧ ∀ f ∈ T.fields, f.key ≠ upper l.name
  | .alarm k => upper l.name ∉ control ∧ ∀ a : AKind, a.action ∈ actions (k ++ r.takeWhile fun l => l.name ≠ c!"END") → ∀ f ∈ a.tab.fields, f.key ≠ upper l.name
  | .unknown => ¬ Begins l ∧ ¬ Ends l

end Ics.Spec
