import Verif.Utf8
/-!
# Specification of line folding (RFC 5545 section 3.1), independent of the folder and the unfolder
-/

namespace Ics.Spec

open Ics

/-- Physical lines of an octet string: the pieces between CR LF pairs. -/
def physLinesAux (cur : Bytes) : Bytes → List Bytes
  | [] => [cur]
  | [b] => [cur ++ [b]]
  | b :: b' :: r => if b = 13 ∧ b' = 10 then cur :: physLinesAux [] r else physLinesAux (cur ++ [b]) (b' :: r)

def physLines (bs : Bytes) : List Bytes := physLinesAux [] bs

/-- Carriage returns and line feeds occur only as CR LF pairs. -/
def crlfClean : Str → Bool
  | [] => true
  | ['\r'] => false
  | '\r' :: c :: r => c = '\n' && crlfClean r
  | '\n' :: _ => false
  | _ :: r => crlfClean r

/-- `FoldOf s t`: `t` is `s` with CR LF SPACE inserted in front of some of its characters, but not in front of a
line feed or a carriage return. -/
inductive FoldOf : Str → Str → Prop
  | nil : FoldOf [] []
  | keep (c : Char) {s t : Str} : FoldOf s t → FoldOf (c :: s) (c :: t)
  | fold (c : Char) {s t : Str} : c ≠ '\n' → c ≠ '\r' → FoldOf s t →
      FoldOf (c :: s) ('\r' :: '\n' :: ' ' :: c :: t)

/-- RFC 5545 unfolding: one pass deleting each CR LF SPACE. -/
def removeFolds : Bytes → Bytes
  | [] => []
  | [b] => [b]
  | [b, c] => [b, c]
  | b :: c :: d :: r =>
    if b = 13 ∧ c = 10 ∧ d = 32 then removeFolds r else b :: removeFolds (c :: d :: r)

/-- The same on characters. -/
def removeFoldsC : Str → Str
  | [] => []
  | [b] => [b]
  | [b, c] => [b, c]
  | b :: c :: d :: r =>
    if b = '\r' ∧ c = '\n' ∧ d = ' ' then removeFoldsC r else b :: removeFoldsC (c :: d :: r)

/-- The text holds a fold marker. -/
def hasFold (bs : Bytes) : Prop := [13, 10, 32] <:+: bs

end Ics.Spec
