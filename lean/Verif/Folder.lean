import Verif.Utf8
/-!
# Model of folder.go

The folding writer sits between the encoder and the caller's `io.Writer`.
-/

namespace Ics

/-- `maxLineLength` (folder.go:14). -/
def maxLineLength : UInt8 := 75

/-- `eol` (folder.go:16): CR LF SPACE. -/
def eol : Bytes := [13, 10, 32]

/-- The caller's `io.Writer`: what the k-th call of `Write` does.  `none`: accepts everything and returns no
error.  `some (n, e)`: accepts the first `n` octets (all, if there are fewer) and returns error `e`.
Simplified: a writer breaking the `io.Writer` contract by accepting fewer octets without an error is not
modelled.  The field `w` (folder.go:9). -/
abbrev Sink := Nat → Option (Nat × Nat)

/-- `type folder struct` (folder.go:8-12) together with what happened at the caller's writer: the number of `Write`
calls it saw and the octets it accepted. -/
structure Folder where
  line : UInt8 := 0
  err : Option Nat := none
  calls : Nat := 0
  out : Bytes := []
  deriving DecidableEq, Repr

/-- `m, f.err = f.w.Write(p)`: one call of the caller's writer; returns `m`.  folder.go:37, 47, 57. -/
def Folder.sink (W : Sink) (f : Folder) (p : Bytes) : Folder × Nat :=
  match W f.calls with
  | none => ({ f with err := none, calls := f.calls + 1, out := f.out ++ p }, p.length)
  | some (n, e) =>
    ({ f with err := some e, calls := f.calls + 1, out := f.out ++ p.take n }, (p.take n).length)

/-- The end of `folder.Write` (folder.go:56-61): write what is left. -/
def Folder.finish (W : Sink) (f : Folder) (n : Nat) (q : Bytes) : Folder × Nat :=
  if q ≠ [] then
    let (f, m) := f.sink W q
    (f, n + m)
  else (f, n)

/-- The loop of `folder.Write` (folder.go:28-61).  `pre` is `q[:pos]`, `suf` is `q[pos:]`, `n` the number of octets of the
argument written so far.  The fuel is the length of `suf` (every round consumes a rune). -/
def Folder.loop (W : Sink) : Nat → Folder → Nat → Bytes → Bytes → Folder × Nat
  | 0, f, n, pre, _ => Folder.finish W f n pre
  | _ + 1, f, n, pre, [] => Folder.finish W f n pre
  | fuel + 1, f, n, pre, b :: suf =>
    let (r, s) := decodeRune (b :: suf)
    let line := f.line + UInt8.ofNat s
    let rune := (b :: suf).take s
    let rest := (b :: suf).drop s
    if r = 10 then Folder.loop W fuel { f with line := 0 } n (pre ++ rune) rest
    else if r = 13 then Folder.loop W fuel { f with line := line } n (pre ++ rune) rest
    else if line > maxLineLength then
      let (f, m) := if pre ≠ [] then f.sink W pre else (f, 0)
      if f.err.isSome then ({ f with line := line }, n + m)
      else
        let (f, _) := f.sink W eol
        if f.err.isSome then ({ f with line := line }, n + m)
        else Folder.loop W fuel { f with line := UInt8.ofNat s + 1 } (n + m) rune rest
    else Folder.loop W fuel { f with line := line } n (pre ++ rune) rest

/-- `folder.Write` (folder.go:18-62): new state and the returned count; the returned error is the new
state's `err`.  `WriteString` (folder.go:64-66) is the same function. -/
def Folder.write (W : Sink) (f : Folder) (q : Bytes) : Folder × Nat :=
  if f.err.isSome then (f, 0)
  else Folder.loop W q.length f 0 [] q

/-- A sequence of writes by the encoder, all results ignored as encoder code does.
The calls of `w.Write` and `w.WriteString` in the `encode` methods, e.g. sections.go:124-150. -/
def Folder.writes (W : Sink) (f : Folder) (qs : List Bytes) : Folder :=
  qs.foldl (fun f q => (f.write W q).1) f

end Ics
