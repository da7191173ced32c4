import Verif.Codec
/-!
# How deep the calls of Decode are nested

The functions here follow those of `Verif.Section` and `Verif.Codec` and count, instead of giving the result, how many calls of the `decode` methods of sections.go and
sections_alarm.go and of `decodeDummy` are active at most at one time.  Calls of functions that call none of these (properties, values, tokeniser) are not counted.
-/

namespace Ics

/-- `decodeDummy` (sections.go:4176-4198), which calls itself for each BEGIN line. -/
def dummyDepth (t : Term) : Nat → Str → List Line → Nat
  | 0, _, _ => 1
  | _ + 1, _, [] => 1
  | f + 1, n, l :: r =>
    if upper l.name = kBEGIN then
      max (1 + dummyDepth t f l.value r) (match dummy t f l.value r with
        | .ok r' => dummyDepth t f n r'
        | _ => 1)
    else if upper l.name = kEND then 1
    else dummyDepth t f n r

/-- The calls out of the loop of a `decode` method (e.g. sections.go:232-546). -/
def Sect.depth {κ σ : Type} (E : Env) (T : Tab κ) (sub : κ → List Line → Res (σ × List Line)) (below : κ → List Line → Nat) (t : Term) : Nat → Sect σ → List Line → Nat
  | 0, _, _ => 0
  | _ + 1, _, [] => 0
  | f + 1, s, l :: r =>
    if upper l.name = kBEGIN then
      match indexOf (upper l.value) (T.subs.map (·.1)) with
      | some i =>
        match T.subs[i]? with
        | some (_, k) => max (below k r) (match sub k r with
          | .ok (x, r') => Sect.depth E T sub below t f (s.addSub i x) r'
          | _ => 0)
        | none => 0
      | none => max (dummyDepth t (r.length + 1) (upper l.value) r) (match dummy t (r.length + 1) (upper l.value) r with
        | .ok r' => Sect.depth E T sub below t f s r'
        | _ => 0)
    else
      match fieldIdx (upper l.name) T.fields with
      | some i =>
        match T.fields[i]? with
        | some fd =>
          match s.addProp E i fd l with
          | .ok s => Sect.depth E T sub below t f s r
          | _ => 0
        | none => 0
      | none => if upper l.name = kEND then 0 else Sect.depth E T sub below t f s r

/-- A `decode` method of sections.go. -/
def Tab.depth {κ σ : Type} (E : Env) (T : Tab κ) (sub : κ → List Line → Res (σ × List Line)) (below : κ → List Line → Nat) (t : Term) (ls : List Line) : Nat :=
  1 + Sect.depth E T sub below t (ls.length + 1) (T.start σ) ls

/-- There is nothing below a section without subsections.  The loops of sections.go:2507-2608, 2686-2787, 2871-4166 call no other `decode`. -/
def noDepth (k : Empty) (_ : List Line) : Nat := nomatch k

/-- `Alarm.decode` (sections_alarm.go:38-80). -/
def alarmDepth (E : Env) (t : Term) (ls : List Line) : Nat :=
  1 + match alarmCollect t none ls with
    | .ok (some k, pt, _) => k.tab.depth E noSub noDepth (.error .unexpectedEOF) pt
    | _ => 0

/-- The call for a subsection of a component (e.g. sections.go:242-247). -/
def subDepth (E : Env) (t : Term) (k : SubKind) (ls : List Line) : Nat :=
  match k with
  | .alarm => alarmDepth E t ls
  | .leaf T => T.depth E noSub noDepth t ls

/-- The call for a component (decoder.go, sections.go:57-96). -/
def compDepth (E : Env) (t : Term) (T : Tab SubKind) (ls : List Line) : Nat := T.depth E (subDecode E t) (subDepth E t) t ls

/-- `Decode` (decoder.go:16-37) with the calls it makes. -/
def decodeDepth (E : Env) (s : Str) : Nat :=
  1 + match (tokenise s).lines with
    | [] => 0
    | l :: r =>
      if upper l.name = kBEGIN ∧ upper l.value = tabCalendar.name then tabCalendar.depth E (compDecode E (tokenise s).term) (compDepth E (tokenise s).term) (tokenise s).term r
      else 0

end Ics
