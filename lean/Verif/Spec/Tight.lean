import Verif.Utf8
/-!
# Specification: folds that are needed
-/

namespace Ics.Spec

open Ics

/-- Every line that begins with a SPACE has a character behind it for which there was no place in the line before: with it that line would have had more than 75 octets. -/
def Tight (ls : List Bytes) : Prop :=
  ∀ a l l' b, ls = a ++ l :: l' :: b → l'.head? = some 32 → ∃ c r, l' = 32 :: (encodeChar c ++ r) ∧ 75 < l.length + (encodeChar c).length

end Ics.Spec
