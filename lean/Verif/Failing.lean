import Verif.Demand
/-!
# Model of Decode with a reader that fails

A reader may fail: it returns an error that is not the end of the file.  `unfolder.Read` passes the error on (unfolder.go:82).  What becomes of it is up to the parser
library, of which nothing is assumed but that the error is noticed when there is nothing left to look at: then GetPhrase returns an error, or the functions in tokeniser.go see the end of the text.
-/

namespace Ics

/-- What the parser library makes of an error of the reader: with `some x`, `GetPhrase` returns the error `x`; with `none`, it is the end of the text.  The calls of `GetPhrase` are at decoder.go:19, sections.go:29 and its like. -/
abbrev OnFail := Nat → Option Err

/-- What `Decode` (decoder.go:16-37) returns when the reader has failed with the error `e` behind these octets.  The text up to there is looked at first (tokeniser.go:38-147). -/
def decodeBroken (E : Env) (P : OnFail) (b : Bytes) (e : Nat) : Res Cal :=
  match decodeOpen E (runes b), P e with
  | some x, _ => x
  | none, some x => .err x
  | none, none => decodeDoc E (runes b)

/-- `Decode(r)` (decoder.go:16-37), as `decodeDemand`, where the error of the reader is given to the parser library. -/
def decodeFailing (E : Env) (P : OnFail) (R : Reader) (fuel : Nat) : List Nat → Unfolder → Bytes → Run (Res Cal × Unfolder)
  | ks, u, acc =>
    match decodeOpen E (runesOpen acc), ks with
    | some x, _ => .done (x, u)
    | none, [] => .running
    | none, k :: ks =>
      (u.read R fuel k).bind fun r =>
        match r.err with
        | some e => .done (decodeBroken E P (acc ++ r.q.take r.m.toNat) e, r.u)
        | none => decodeFailing E P R fuel ks r.u (acc ++ r.q.take r.m.toNat)

end Ics
