import Verif.Spec.Structure
/-!
# Specification: the line that is at fault, and the error it is reported with

A document is read line by line.  At each line some blocks are open; of each of them what it is, and the lines and blocks that were in it so far.
A line is at fault because of what is in the innermost open block, and nothing else.
-/

namespace Ics.Spec

open Ics

/-! ## Open blocks -/

/-- What an open block is: the calendar, a component, time zone rules (or the inside of an alarm), an alarm, or a component that is not known. -/
inductive Frame where
  | cal
  | comp (T : Tab SubKind)
  | leaf (T : Tab Empty)
  | alarm
  | unknown

/-- An open block: what it is, the name that its END line must have, and what was in it so far (of the blocks in it, just the names). -/
structure Level where
  frame : Frame
  name : Str
  own : List Item

/-- The properties of the block. -/
def Frame.fields : Frame → List SField
  | .cal => tabCalendar.fields
  | .comp T => T.fields
  | .leaf T => T.fields
  | _ => []

/-- The rules between them. -/
def Frame.rules : Frame → List Rule
  | .cal => tabCalendar.rules
  | .comp T => T.rules
  | .leaf T => T.rules
  | _ => []

/-- The known blocks in it. -/
def Frame.parts : Frame → List (Str × Frame)
  | .cal => tabCalendar.subs.map fun x => (x.1, .comp x.2)
  | .comp T => T.subs.map fun x => (x.1, match x.2 with | .leaf T => .leaf T | .alarm => .alarm)
  | _ => []

/-- A block that begins in another. -/
def Frame.enter (f : Frame) (n : Str) : Frame :=
  match f.parts.find? fun x => x.1 = n with
  | some x => x.2
  | none => .unknown

/-- The name that the END line of a block must have: in unknown components it is compared with the name as it was written. -/
def Frame.ending (f : Frame) (n : Str) : Str :=
  match f with
  | .unknown => n
  | _ => upper n

/-- The innermost block has ended. -/
def close : List Level → Str → List Level
  | [], _ => []
  | p :: st, n => { p with own := p.own ++ [.block n []] } :: st

/-- One more line in the innermost block. -/
def Level.add (p : Level) (l : Line) : Level := { p with own := p.own ++ [.line l] }

/-- The open blocks behind a line, the innermost first.  An alarm goes on to the next line that is called END in upper case. -/
def advance (p : Level) (st : List Level) (l : Line) : List Level :=
  match p.frame with
  | .alarm => if l.name = c!"END" then close st p.name else p.add l :: st
  | f =>
    if Begins l then ⟨f.enter (upper l.value), f.ending l.value, []⟩ :: p :: st
    else if Ends l then close st p.name
    else p.add l :: st

/-! ## Lines at fault -/

/-- There are lines with this name. -/
def HasLine (is : List Item) (n : Str) : Prop := linesNamed is n ≠ []

/-- The rule holds for what is in the block. -/
def RuleMet (f : Frame) (is : List Item) : Rule → Prop
  | .notBoth a b => ¬ (HasLine is a ∧ HasLine is b)
  | .needs a b => HasLine is a → HasLine is b
  | .onlyOne a b => (HasLine is a ∧ ¬ HasLine is b) ∨ (HasLine is b ∧ ¬ HasLine is a)
  | .anySub => ∃ x ∈ f.parts, blocksNamed is x.1 ≠ []

def Frame.IsSection : Frame → Prop
  | .cal | .comp _ | .leaf _ => True
  | _ => False

/-- The line is at fault in a block other than an alarm; with the error, or none if reading its value panics. -/
inductive SectFault (E : Env) (p : Level) (l : Line) : Option Err → Prop
  /-- a property that may occur only once has been there -/
  | again {f : SField} : f ∈ p.frame.fields → f.key = upper l.name → f.mult ≠ .many → HasLine p.own f.key → SectFault E p l (some .multiple)
  /-- its parameters or value are wrong -/
  | value {f : SField} {e : Err} : f ∈ p.frame.fields → f.key = upper l.name → (f.mult = .many ∨ ¬ HasLine p.own f.key) →
      f.spec.decode E l.params l.value = .err e → SectFault E p l (some e)
  | crash {f : SField} : f ∈ p.frame.fields → f.key = upper l.name → (f.mult = .many ∨ ¬ HasLine p.own f.key) →
      f.spec.decode E l.params l.value = .panic → SectFault E p l none
  /-- END with another name; the name of a known block must be in upper case -/
  | wrongEnd : p.frame.IsSection → Ends l → l.value ≠ p.name → SectFault E p l (some .invalidEnd)
  | wrongEndUnknown : p.frame = .unknown → Ends l → upper l.value ≠ p.name → SectFault E p l (some .invalidEnd)
  /-- the end of a block, and a required property is missing -/
  | missing {f : SField} : Ends l → l.value = p.name → f ∈ p.frame.fields → f.mult = .req → ¬ HasLine p.own f.key → SectFault E p l (some .missingRequired)
  /-- the end of a block with all required properties, but a rule does not hold -/
  | rule {ρ : Rule} : Ends l → l.value = p.name → (∀ f ∈ p.frame.fields, f.mult = .req → HasLine p.own f.key) → ρ ∈ p.frame.rules →
      ¬ RuleMet p.frame p.own ρ → SectFault E p l (some .requirementNotMet)

/-- No line is at fault, and the outermost block does not end: the open blocks before and behind the lines. -/
inductive Sails (F : Level → Line → Option Err → Prop) : List Level → List Line → List Level → Prop
  | nil {st : List Level} : st ≠ [] → Sails F st [] st
  | cons {p : Level} {st st' : List Level} {l : Line} {ls : List Line} : (∀ x, ¬ F p l x) → Sails F (advance p st l) ls st' → Sails F (p :: st) (l :: ls) st'

/-- Among the lines is an ACTION line for this kind of alarm. -/
def Acts (own : List Item) (a : AKind) : Prop := ∃ l, Item.line l ∈ own ∧ l.name = c!"ACTION" ∧ l.value = a.action

/-- The lines. -/
def ownLines (own : List Item) : List Line := own.filterMap fun
  | .line l => some l
  | .block _ _ => none

/-- The inside of an alarm of this kind, before its first line. -/
def alarmStart (a : AKind) : List Level := [⟨.leaf a.tab, c!"VALARM", []⟩]

/-- The line is at fault.  The lines of an alarm are looked at when it ends. -/
inductive Fault (E : Env) (p : Level) (l : Line) : Option Err → Prop
  | sect {x : Option Err} : p.frame ≠ .alarm → SectFault E p l x → Fault E p l x
  | block : p.frame = .alarm → l.name = c!"BEGIN" → Fault E p l (some .invalidStructure)
  | twoActions {a : AKind} : p.frame = .alarm → l.name = c!"ACTION" → Acts p.own a → Fault E p l (some .invalidStructure)
  | noAction : p.frame = .alarm → l.name = c!"END" → (∀ a, ¬ Acts p.own a) → Fault E p l (some .missingAlarmAction)
  | alarm {a : AKind} {pre post : List Line} {m : Line} {q : Level} {st : List Level} {x : Option Err} : p.frame = .alarm → l.name = c!"END" → Acts p.own a →
      ownLines p.own ++ [l] = pre ++ m :: post → Sails (SectFault E) (alarmStart a) pre (q :: st) → SectFault E q m x → Fault E p l x
  | unclosed {a : AKind} {st : List Level} : p.frame = .alarm → l.name = c!"END" → Acts p.own a → Sails (SectFault E) (alarmStart a) (ownLines p.own ++ [l]) st →
      Fault E p l (some .unexpectedEOF)

/-! ## Documents -/

/-- The line that begins a calendar. -/
def Opening (l : Line) : Prop := Begins l ∧ upper l.value = c!"VCALENDAR"

/-- The calendar, before its first line. -/
def calStart : List Level := [⟨.cal, c!"VCALENDAR", []⟩]

/-- The document begins with these lines, none of them is at fault, and these blocks are open. -/
def Midway (E : Env) (ls : List Line) (st : List Level) : Prop := ∃ b k, ls = b :: k ∧ Opening b ∧ Sails (Fault E) calStart k st

/-- The line ends the calendar: the first one is the only block that is open. -/
def Completes (E : Env) (ls : List Line) (l : Line) : Prop := ∃ p, Midway E ls [p] ∧ Ends l ∧ ∀ x, ¬ Fault E p l x

end Ics.Spec
