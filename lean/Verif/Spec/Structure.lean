import Verif.Spec.Document
import Verif.Spec.Recur
/-!
# Specification: the structure of a document, and what it is read as

This is how RFC 5545 section 3.4-3.6 describes documents: content lines, and blocks between BEGIN and END lines, nested.  What a component is read
as is said field by field, without a decoding loop.
-/

namespace Ics.Spec

variable {κ σ α β : Type}

/-! ## Lines and blocks -/

def Begins (l : Line) : Prop := upper l.name = c!"BEGIN"
def Ends (l : Line) : Prop := upper l.name = c!"END"

instance (l : Line) : Decidable (Begins l) := by unfold Begins; infer_instance
instance (l : Line) : Decidable (Ends l) := by unfold Ends; infer_instance

/-- Lines in which every BEGIN has its END with the same name (in any case). -/
inductive Closed : List Line → Prop
  | nil : Closed []
  | line {l : Line} {r : List Line} : ¬ Begins l → ¬ Ends l → Closed r → Closed (l :: r)
  | block {b e : Line} {k r : List Line} : Begins b → Ends e → upper e.value = upper b.value → Closed k → Closed r →
      Closed (b :: k ++ e :: r)

/-- A part of a component: a line of its own, or a block with its name (in upper case) and the lines between BEGIN and END. -/
inductive Item where
  | line (l : Line)
  | block (name : Str) (body : List Line)

/-- The parts of a sequence of lines. -/
inductive Items : List Line → List Item → Prop
  | nil : Items [] []
  | line {l : Line} {r : List Line} {is : List Item} : ¬ Begins l → ¬ Ends l → Items r is → Items (l :: r) (.line l :: is)
  | block {b e : Line} {k r : List Line} {is : List Item} : Begins b → Ends e → upper e.value = upper b.value → Closed k → Items r is →
      Items (b :: k ++ e :: r) (.block (upper b.value) k :: is)

/-- The component's own lines with this name, in order. -/
def linesNamed (is : List Item) (n : Str) : List Line := is.filterMap fun
  | .line l => if upper l.name = n then some l else none
  | .block _ _ => none

/-- The bodies of the component's own blocks with this name, in order. -/
def blocksNamed (is : List Item) (n : Str) : List (List Line) := is.filterMap fun
  | .line _ => none
  | .block m k => if m = n then some k else none

/-! ## What the lines are read as -/

/-- The lists have the same length, and their elements correspond in order. -/
inductive Pairwise2 (R : α → β → Prop) : List α → List β → Prop
  | nil : Pairwise2 R [] []
  | cons {a : α} {b : β} {as : List α} {bs : List β} : R a b → Pairwise2 R as bs → Pairwise2 R (a :: as) (b :: bs)

/-- How many lines a property may have. -/
def CountOk (m : Mult) (n : Nat) : Prop :=
  match m with
  | .req => n = 1
  | .opt => n ≤ 1
  | .many => True

/-- The body `k` of a component is read as `s`: each field holds, in order, what its lines are decoded as; each kind of subsection, in order, what its
blocks are read as (by `R`); the numbers of lines are as required; the rules hold. -/
def SectReads (E : Env) (T : Tab κ) (R : κ → List Line → σ → Prop) (k : List Line) (s : Sect σ) : Prop :=
  ∃ is, Items k is ∧ s.fields.length = T.fields.length ∧ s.subs.length = T.subs.length ∧
    (∀ (i : Nat) (f : SField), T.fields[i]? = some f →
      Pairwise2 (fun l p => f.spec.decode E l.params l.value = .ok p) (linesNamed is f.key) (s.fields.getD i []) ∧
      CountOk f.mult (linesNamed is f.key).length) ∧
    (∀ (i : Nat) (x : Str × κ), T.subs[i]? = some x → Pairwise2 (R x.2) (blocksNamed is x.1) (s.subs.getD i [])) ∧
    SectRules T s

/-- The values of the ACTION lines. -/
def actions (k : List Line) : List Str := (k.filter fun l => upper l.name = c!"ACTION").map (·.value)

/-- An alarm has no blocks, and its last ACTION line says what kind of alarm it is; ACTION lines before it have values that are not known. -/
def SubReads (E : Env) : SubKind → List Line → Sub → Prop
  | .leaf T, k, .leaf s => SectReads E T (fun x => nomatch x) k s
  | .alarm, k, .alarm (some (a, s)) => (∀ l ∈ k, ¬ Begins l ∧ ¬ Ends l) ∧
      (∃ us, actions k = us ++ [a.action] ∧ ∀ u ∈ us, ∀ b : AKind, u ≠ b.action) ∧ SectReads E a.tab (fun x => nomatch x) k s
  | _, _, _ => False

def CompReads (E : Env) (T : Tab SubKind) (k : List Line) (s : Comp) : Prop := SectReads E T (SubReads E) k s

/-- The lines are a calendar object, read as `c`. -/
def DocReads (E : Env) (ls : List Line) (c : Cal) : Prop :=
  ∃ b k e, ls = b :: k ++ [e] ∧ Begins b ∧ upper b.value = c!"VCALENDAR" ∧ Ends e ∧ e.value = c!"VCALENDAR" ∧
    SectReads E tabCalendar (CompReads E) k c

/-! ## Upper case -/

/-- BEGIN, END and ACTION are written in upper case. -/
def Keywords (ls : List Line) : Prop := ∀ l ∈ ls, upper l.name ∈ [c!"BEGIN", c!"END", c!"ACTION"] → l.name = upper l.name

/-- And so are the names of components. -/
def Loud (ls : List Line) : Prop := Keywords ls ∧ ∀ l ∈ ls, l.name ∈ [c!"BEGIN", c!"END"] → l.value = upper l.value

instance (ls : List Line) : Decidable (Keywords ls) := by unfold Keywords; infer_instance
instance (ls : List Line) : Decidable (Loud ls) := by unfold Loud; infer_instance

/-! ## Documents that make Decode panic -/

/-- A recurrence rule with a plus sign and a digit for a day. -/
def BadRule (l : Line) : Prop := upper l.name = c!"RRULE" ∧ plusDay l.value = true

instance (l : Line) : Decidable (BadRule l) := by unfold BadRule; infer_instance

/-- The document ends inside an alarm. -/
def OpenAlarm (t : Term) (ls : List Line) : Prop := t = .done ∧ ∃ pre b post, ls = pre ++ b :: post ∧ Begins b ∧ upper b.value = c!"VALARM" ∧
  ∀ l ∈ post, l.name ≠ c!"END"

/-! ## Statements about each component of a document -/

/-- Fields, the parts of a component, and the values in it. -/
abbrev Claim := List SField → List Item → List (List PropVal) → Prop

def EachSub (P : Claim) : SubKind → List Line → Sub → Prop
  | .leaf T, k, .leaf s => ∃ is, Items k is ∧ P T.fields is s.fields
  | .alarm, k, .alarm (some (a, s)) => ∃ is, Items k is ∧ P a.tab.fields is s.fields
  | _, _, _ => False

def EachComp (P : Claim) (T : Tab SubKind) (k : List Line) (s : Comp) : Prop := ∃ is, Items k is ∧ P T.fields is s.fields ∧
  ∀ (i : Nat) (x : Str × SubKind), T.subs[i]? = some x → Pairwise2 (EachSub P x.2) (blocksNamed is x.1) (s.subs.getD i [])

/-- The blocks in the document are the components of the calendar, in order, and `P` holds for each of them. -/
def EachPart (P : Claim) (ls : List Line) (c : Cal) : Prop := ∃ b k e is, ls = b :: k ++ [e] ∧ Begins b ∧ Ends e ∧ Items k is ∧
  P tabCalendar.fields is c.fields ∧
  ∀ (i : Nat) (x : Str × Tab SubKind), tabCalendar.subs[i]? = some x → Pairwise2 (EachComp P x.2) (blocksNamed is x.1) (c.subs.getD i [])

/-! ## The components of a calendar -/

/-- The components with this name. -/
def comps (n : Str) (c : Cal) : List Comp := (tabCalendar.subs.zip c.subs).flatMap fun x => if x.1.1 = n then x.2 else []

/-- All alarms (with a type). -/
def alarms (c : Cal) : List (AKind × Leaf) :=
  (c.subs.flatten.flatMap fun s => s.subs.flatten).filterMap fun
    | .alarm a => a
    | .leaf _ => none

end Ics.Spec
