import Verif.Spec.Fault
import Verif.Message
/-!
# Specification: what the error says

The text of an error leads from the calendar to the innermost open block that is known, naming each block and the one in it; then comes what is wrong there.
-/

namespace Ics.Spec

/-- What a block is called in errors. -/
def Frame.title : Frame → Str
  | .cal => c!"Calendar"
  | .comp T => goSect T.name
  | .leaf T => goSect T.name
  | .alarm => c!"Alarm"
  | .unknown => []

/-- The way to the innermost of the open blocks; blocks that are not known are left out. -/
def trail : List Level → Str
  | p :: q :: st => trail (q :: st) ++ match p.frame with
    | .unknown => []
    | f => c!"error decoding " ++ q.frame.title ++ c!"->" ++ f.title ++ c!": "
  | _ => []

/-- The innermost block that is known. -/
def home : List Level → Frame
  | [] => .unknown
  | p :: st => match p.frame with
    | .unknown => home st
    | f => f

/-- What is said of a line at fault in a block other than an alarm, where the innermost known block is called `me`. -/
inductive SectSays (W : Words) (E : Env) (me : Str) (p : Level) (l : Line) : Str → Prop
  /-- a property that was there already: both are named, and no more -/
  | again {f : SField} : f ∈ p.frame.fields → f.key = upper l.name → f.mult ≠ .many → HasLine p.own f.key →
      SectSays W E me p l (c!"error decoding " ++ me ++ c!": multiple " ++ goField me f.key)
  /-- a wrong property: block and property are named, then what the property says -/
  | value {f : SField} {e : Err} : f ∈ p.frame.fields → f.key = upper l.name → (f.mult = .many ∨ ¬ HasLine p.own f.key) →
      f.spec.decode E l.params l.value = .err e → SectSays W E me p l (c!"error decoding " ++ me ++ c!"->" ++ goField me f.key ++ c!": " ++ W.prop f l)
  /-- a wrong END: only the block is named, and the error -/
  | ending {e : Err} : Ends l → SectFault E p l (some e) → SectSays W E me p l (c!"error decoding " ++ me ++ c!": " ++ e.text W)

/-- What is said of a line at fault, behind the way to it.  The errors about an alarm as a whole do not name it again; those about a line in it name the type of alarm. -/
inductive Says (W : Words) (E : Env) (p : Level) (st : List Level) (l : Line) : Str → Prop
  | sect {m : Str} : p.frame ≠ .alarm → SectSays W E (home (p :: st)).title p l m → Says W E p st l m
  | block : p.frame = .alarm → l.name = c!"BEGIN" → Says W E p st l c!"invalid structure"
  | twoActions {a : AKind} : p.frame = .alarm → l.name = c!"ACTION" → Acts p.own a → Says W E p st l c!"invalid structure"
  | noAction : p.frame = .alarm → l.name = c!"END" → (∀ a, ¬ Acts p.own a) → Says W E p st l c!"missing alarm action"
  | alarm {a : AKind} {pre post : List Line} {m : Line} {q : Level} {sq : List Level} {x : Str} : p.frame = .alarm → l.name = c!"END" → Acts p.own a →
      ownLines p.own ++ [l] = pre ++ m :: post → Sails (SectFault E) (alarmStart a) pre (q :: sq) → SectSays W E a.goName q m x → Says W E p st l x
  | unclosed {a : AKind} {st' : List Level} : p.frame = .alarm → l.name = c!"END" → Acts p.own a → Sails (SectFault E) (alarmStart a) (ownLines p.own ++ [l]) st' →
      Says W E p st l (c!"error decoding " ++ a.goName ++ c!": unexpected EOF")

/-- What is said when the lines end, or a text follows that is not a content line, while blocks are open. -/
def endSays (W : Words) (p : Level) (st : List Level) (e : Err) : Str :=
  match p.frame with
  | .alarm => e.text W
  | _ => c!"error decoding " ++ (home (p :: st)).title ++ c!": " ++ e.text W

end Ics.Spec
