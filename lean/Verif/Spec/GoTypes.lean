import Verif.Codec
/-!
# The calendars that a Go program can make

The types of params.go, properties.go, sections.go and sections_alarm.go, position by position, as sets of values.  Pointers to the structures of the library may be nil in some places
where that makes the library panic; for these see Spec/Pointers.
-/

namespace Ics.Spec

open Ics

/-- `x` and `y` stand at the same position of two lists. -/
def Beside {α β : Type} (as : List α) (bs : List β) (x : α) (y : β) : Prop := ∃ i : Nat, as[i]? = some x ∧ bs[i]? = some y

/-- Parameters: an enumeration is a `uint8` of any value. -/
def ParamOfType : PKind → ParamVal → Prop
  | .url, p => ∃ u, p = .url u
  | .urls, p => ∃ us, p = .urls us
  | .str _, p => ∃ s, p = .str s
  | .fmt, p => ∃ s, p = .str s
  | .enum _, p => ∃ n : Nat, n ≤ 255 ∧ p = .enum n
  | .strs, p => ∃ ss, p = .strs ss
  | .range, p => p = .unit
  | .bool, p => ∃ b, p = .bool b

/-- Properties: an enumeration is a `uint8` of any value; otherwise every parameter is nil or of its type, and so is every alternative of the value.  A property without
alternatives has its value. -/
def PropOfType (sp : PSpec) (p : PropVal) : Prop :=
  match sp.shape with
  | .enum _ => ∃ n : Nat, n ≤ 255 ∧ p = .enum n
  | .fields params vals => ∃ ps vs, p = .fields ps vs ∧
    ps.length = params.length ∧ (∀ d v, Beside params ps d (some v) → ParamOfType d.kind v) ∧
    vs.length = vals.length ∧ (∀ n k v, Beside vals vs (n, k) (some v) → v.kind = k) ∧
    (vals.length = 1 → ∃ v, vs = [some v])

/-- Fields of structures: a value, a pointer or a slice. -/
def FieldOfType (f : SField) (ps : List PropVal) : Prop :=
  (∀ p ∈ ps, PropOfType f.spec p) ∧
  match f.mult with
  | .req => ∃ p, ps = [p]
  | .opt => ps = [] ∨ ∃ p, ps = [p]
  | .many => True

/-- Structures whose parts are as `P` says. -/
structure SectOfType {κ σ : Type} (P : κ → σ → Prop) (T : Tab κ) (s : Sect σ) : Prop where
  fields : s.fields.length = T.fields.length
  field : ∀ f ps, Beside T.fields s.fields f ps → FieldOfType f ps
  parts : s.subs.length = T.subs.length
  part : ∀ n k ss, Beside T.subs s.subs (n, k) ss → ∀ x ∈ ss, P k x

/-- `Alarm`, which holds nothing or one of the alarm types, `Standard` and `Daylight`. -/
def SubOfType : SubKind → Sub → Prop
  | .alarm, s => s = .alarm none ∨ ∃ a l, s = .alarm (some (a, l)) ∧ SectOfType (fun _ _ => True) a.tab l
  | .leaf T, s => ∃ l, s = .leaf l ∧ SectOfType (fun _ _ => True) T l

/-- `Calendar`. -/
def CalOfType (c : Cal) : Prop := SectOfType (SectOfType SubOfType) tabCalendar c

end Ics.Spec
