import Verif.Utf8
/-!
# Specification of folding for all octets, UTF-8 or not
-/

namespace Ics.Spec

open Ics

/-- The octets as encodings of characters, one after the other, and single octets where there is none. -/
inductive Pieces : Bytes → List Bytes → Prop
  | nil : Pieces [] []
  | rune (c : Char) {t : Bytes} {us : List Bytes} : Pieces t us → Pieces (encodeChar c ++ t) (encodeChar c :: us)
  | bad (b : UInt8) {t : Bytes} {us : List Bytes} : (∀ c r, b :: t ≠ encodeChar c ++ r) → Pieces t us → Pieces (b :: t) ([b] :: us)

/-- Each string has its pieces. -/
inductive AllPieces : List Bytes → List Bytes → Prop
  | nil : AllPieces [] []
  | cons {q : Bytes} {qs us vs : List Bytes} : Pieces q us → AllPieces qs vs → AllPieces (q :: qs) (us ++ vs)

/-- The pieces, with CR LF SPACE in front of some of them, but not of a CR or LF. -/
inductive FoldedAt : List Bytes → Bytes → Prop
  | nil : FoldedAt [] []
  | keep (u : Bytes) {us : List Bytes} {t : Bytes} : FoldedAt us t → FoldedAt (u :: us) (u ++ t)
  | fold (u : Bytes) {us : List Bytes} {t : Bytes} : u ≠ [10] → u ≠ [13] → FoldedAt us t → FoldedAt (u :: us) ([13, 10, 32] ++ u ++ t)

/-- CR and LF are found only as CR LF. -/
def crlfCleanB : Bytes → Bool
  | [] => true
  | [b] => b ≠ 13 && b ≠ 10
  | b :: c :: r => if b = 13 then c = 10 && crlfCleanB r else b ≠ 10 && crlfCleanB (c :: r)

end Ics.Spec
