import Verif.Spec.Edits
import Verif.Spec.Rfc
import Verif.Spec.Values
/-!
# Specification: lines that say the same in another way
-/

namespace Ics.Spec

open Rfc

/-- The parameters a property has, in any component. -/
def hasParam (name n : Str) : Prop := ∃ p types ps, content p name = some (.value types ps) ∧ n ∈ ps

/-- The property has these values, in every component that has it. -/
def holds (name : Str) (is : Content → Prop) : Prop := name ∉ control ∧ ∀ p t, content p name = some t → is t

def Content.text (t : Content) : Prop := ∃ ps, t = .value [.text] ps
def Content.texts (t : Content) : Prop := ∃ ps, t = .value [.mtext] ps
def Content.named (t : Content) : Prop := ∃ ns, t = .name ns

/-- The parameters whose values must be in quotes. -/
def quotedParams : List Str := [c!"ALTREP", c!"DELEGATED-FROM", c!"DELEGATED-TO", c!"DIR", c!"MEMBER", c!"SENT-BY", c!"URI", c!"ID", c!"AGENT-ID"]

/-- The parameters whose values are names. -/
def nameParams : List Str := [c!"CUTYPE", c!"FBTYPE", c!"PARTSTAT", c!"RANGE", c!"RELTYPE", c!"ROLE", c!"VALUE"]

/-- Lines that say the same: the smallest equivalence that allows

* other case of names,
* parameters that the property has not,
* quotes around the value of a parameter or not, if it need not have them,
* the value of a parameter in another case, if it is a name,
* another way to escape a text or a list of texts,
* the value in another case, if it is a name,
* and (if `w`) another order of the parameters, if they have different names. -/
inductive Alike (w : Bool) : Line → Line → Prop
  | refl (l : Line) : Alike w l l
  | symm {l m : Line} : Alike w l m → Alike w m l
  | trans {l m k : Line} : Alike w l m → Alike w m k → Alike w l k
  | case {l m : Line} : Recased l m → Alike w l m
  | ignored {name value : Str} {a b : List (Str × List PVal)} {n : Str} {vs : List PVal} : ¬ hasParam (upper name) (upper n) →
      upper n ∉ [c!"VALUE", c!"TZID", c!"ENCODING"] → Alike w ⟨name, a ++ b, value⟩ ⟨name, a ++ (n, vs) :: b, value⟩
  | quotes {name value : Str} {a b : List (Str × List PVal)} {n : Str} {vs vs' : List PVal} : upper n ∉ quotedParams → vs.map (·.data) = vs'.map (·.data) →
      Alike w ⟨name, a ++ (n, vs) :: b, value⟩ ⟨name, a ++ (n, vs') :: b, value⟩
  | paramCase {name value : Str} {a b : List (Str × List PVal)} {n : Str} {v v' : PVal} : upper n ∈ nameParams → upper v.data = upper v'.data →
      Alike w ⟨name, a ++ (n, [v]) :: b, value⟩ ⟨name, a ++ (n, [v']) :: b, value⟩
  | text {name s s' t : Str} {ps : List (Str × List PVal)} : holds (upper name) Content.text → LooseText s t → LooseText s' t → Alike w ⟨name, ps, s⟩ ⟨name, ps, s'⟩
  | texts {name s s' : Str} {ts : List Str} {ps : List (Str × List PVal)} : holds (upper name) Content.texts → LooseList s ts → LooseList s' ts →
      Alike w ⟨name, ps, s⟩ ⟨name, ps, s'⟩
  | valueCase {name s s' : Str} {ps : List (Str × List PVal)} : holds (upper name) Content.named → upper s = upper s' → Alike w ⟨name, ps, s⟩ ⟨name, ps, s'⟩
  | order {name value : Str} {ps qs : List (Str × List PVal)} : w = true → ps.Perm qs → (ps.map fun p => upper p.1).Nodup →
      Alike w ⟨name, ps, value⟩ ⟨name, qs, value⟩

end Ics.Spec
