import Verif.Spec.Structure
import Verif.Spec.Meaning
/-!
# Specification: what a property line is read as

Without a loop over the parameters: what matters is which values the parameters of each name have.
-/

namespace Ics.Spec

/-- The values of each parameter with this name (in any case), in order. -/
def valuesOf (ps : List (Str × List PVal)) (n : Str) : List (List PVal) := (ps.filter fun p => upper p.1 = n).map (·.2)

/-- A parameter that is not stored (TZID and ENCODING are looked at): the last one counts, its values with commas between them. -/
def otherParam (ps : List (Str × List PVal)) (n : Str) : Option Str := (valuesOf ps n).getLast?.map fun vs => join [','] (vs.map (·.data))

/-- A parameter that the property stores: at most once, and readable. -/
def ParamReads (E : Env) (ps : List (Str × List PVal)) (d : PDef) (q : Option ParamVal) : Prop :=
  match valuesOf ps d.name with
  | [] => q = none
  | [vs] => ∃ v, ParamMeans E d.kind vs v ∧ q = some v
  | _ => False

/-- Which of the value types is used: the first, or the one that VALUE names. -/
def UsesType (vals : List (Str × Kind)) (ps : List (Str × List PVal)) (i : Nat) : Prop :=
  if vals.length < 2 then i = 0
  else match valuesOf ps c!"VALUE" with
    | [] => i = 0
    | [[t]] => ∃ k, vals[i]? = some (upper t.data, k)
    | _ => False

/-- The property line with these parameters and this value is read as `r`. -/
def PropReads (E : Env) (sh : Shape) (ps : List (Str × List PVal)) (value : Str) (r : PropVal) : Prop :=
  match sh with
  | .enum names => ∃ n, r = .enum n ∧ names[n]? = some (upper value)
  | .fields params vals => ∃ qs i n k v, r = .fields qs ((List.replicate vals.length none).set i (some v)) ∧ Pairwise2 (ParamReads E ps) params qs ∧
      UsesType vals ps i ∧ vals[i]? = some (n, k) ∧ ValMeans E (otherParam ps) k value v

end Ics.Spec
