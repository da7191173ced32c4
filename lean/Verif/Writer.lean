import Verif.Folder
import Verif.Codec
/-!
# Model of folder.go and encoder.go with what each call of the caller's writer is given

`Folder` keeps the octets accepted and the number of calls.  Here every call is kept with the octets handed over, and the caller's writer may do anything: what
it answers may depend on all it was given, and it may accept fewer octets without an error, against the contract of `io.Writer`.
-/

namespace Ics

/-- The caller's `io.Writer`: what it answers, given what the earlier calls handed over (the first call first) and what this one does: the number of octets it says
it accepted and its error.  The field `w` (folder.go:9). -/
abbrev Writer := List Bytes → Bytes → Nat × Option Nat

/-- `type folder struct` (folder.go:8-12) together with what happened at the caller's writer: what each call of `Write` was given, and the octets accepted. -/
structure WFolder where
  line : UInt8 := 0
  err : Option Nat := none
  log : List Bytes := []
  out : Bytes := []
  deriving DecidableEq, Repr

/-- `m, f.err = f.w.Write(p)`: one call of the caller's writer; returns `m`.  folder.go:37, 47, 57. -/
def WFolder.sink (w : Writer) (f : WFolder) (p : Bytes) : WFolder × Nat :=
  let (n, e) := w f.log p
  ({ f with err := e, log := f.log ++ [p], out := f.out ++ p.take n }, n)

/-- The end of `folder.Write` (folder.go:56-61): write what is left. -/
def WFolder.finish (w : Writer) (f : WFolder) (n : Nat) (q : Bytes) : WFolder × Nat :=
  if q ≠ [] then
    let (f, m) := f.sink w q
    (f, n + m)
  else (f, n)

/-- The loop of `folder.Write` (folder.go:28-61), as `Folder.loop`. -/
def WFolder.loop (w : Writer) : Nat → WFolder → Nat → Bytes → Bytes → WFolder × Nat
  | 0, f, n, pre, _ => WFolder.finish w f n pre
  | _ + 1, f, n, pre, [] => WFolder.finish w f n pre
  | fuel + 1, f, n, pre, b :: suf =>
    let (r, s) := decodeRune (b :: suf)
    let line := f.line + UInt8.ofNat s
    let rune := (b :: suf).take s
    let rest := (b :: suf).drop s
    if r = 10 then WFolder.loop w fuel { f with line := 0 } n (pre ++ rune) rest
    else if r = 13 then WFolder.loop w fuel { f with line := line } n (pre ++ rune) rest
    else if line > maxLineLength then
      let (f, m) := if pre ≠ [] then f.sink w pre else (f, 0)
      if f.err.isSome then ({ f with line := line }, n + m)
      else
        let (f, _) := f.sink w eol
        if f.err.isSome then ({ f with line := line }, n + m)
        else WFolder.loop w fuel { f with line := UInt8.ofNat s + 1 } (n + m) rune rest
    else WFolder.loop w fuel { f with line := line } n (pre ++ rune) rest

/-- `folder.Write` (folder.go:18-62) and `WriteString` (folder.go:64-66), as `Folder.write`. -/
def WFolder.write (w : Writer) (f : WFolder) (q : Bytes) : WFolder × Nat :=
  if f.err.isSome then (f, 0)
  else WFolder.loop w q.length f 0 [] q

/-- A sequence of writes by the encoder.  The calls of `w.Write` and `w.WriteString` in the `encode` methods, e.g. sections.go:124-150. -/
def WFolder.writes (w : Writer) (f : WFolder) (qs : List Bytes) : WFolder :=
  qs.foldl (fun f q => (f.write w q).1) f

/-- `Encode(w, cal)` (encoder.go:15-25), as `encode`: its error and what happened at the caller's writer. -/
def encodeTo (E : Env) (w : Writer) (cut : Str → List Str) (c : Cal) : Run (Option EncErr × WFolder) :=
  match c.valid with
  | .err e => .done (some (.validation e), {})
  | .panic => .panic
  | .ok () =>
    match encodeDoc E c with
    | none => .running
    | some s =>
      let f := ({} : WFolder).writes w ((cut s).map utf8)
      .done (f.err.map .write, f)

end Ics
