import Verif.Emit
/-!
# Model of what the calls of Encode and Decode have in common

The package has three arrays at package level that its functions hand to the caller's writer: `eol` (folder.go:16), `booleanTrue` and `booleanFalse` (types.go:67-70).  No function of the package
writes to them.  A writer that changes the octets it is given, against the contract of `io.Writer`, changes them for all later calls: of `Encode`, and of `Decode`, which looks for `eol`.
-/

namespace Ics

/-- The arrays at package level: `eol` (folder.go:16), `booleanTrue` and `booleanFalse` (types.go:67-70). -/
structure Globals where
  eol : Bytes := [13, 10, 32]
  yes : Bytes := utf8 c!"TRUE"
  no : Bytes := utf8 c!"FALSE"
  deriving DecidableEq, Repr

/-- Where the octets of a call of `Write` lie: in memory of their own, or in one of the arrays (types.go:79, 81).  The slice `comma` (types.go:974) does not outlive the call of `Encode` and is taken
for memory of its own each time. -/
inductive Source where
  | own | yes | no
  deriving DecidableEq, Repr

/-- What the call of `Write` is given.  folder.go:16, types.go:67-70. -/
def Globals.content (g : Globals) (q : Bytes) : Source → Bytes
  | .own => q
  | .yes => g.yes
  | .no => g.no

/-- Octets of the array are replaced.  Not in /repo: what a writer does that changes the slice it is given. -/
def Globals.put (g : Globals) (i : Nat) (p : Bytes) : Source → Globals
  | .own => g
  | .yes => { g with yes := overwrite g.yes i p }
  | .no => { g with no := overwrite g.no i p }

/-- The caller's `io.Writer`, as `Writer`, and what it leaves in the slice it was given.  Simplified: it does not reach behind the end of the slice.  The field `w` (folder.go:9). -/
abbrev FreeWriter := List Bytes → Bytes → Nat × Option Nat × Bytes

/-- What it answers.  Not in /repo: the caller's writer. -/
def FreeWriter.plain (w : FreeWriter) : Writer := fun log p => ((w log p).1, (w log p).2.1)

/-- `type folder struct` (folder.go:8-12), as `WFolder`, and the arrays. -/
structure GFolder where
  f : WFolder := {}
  g : Globals := {}

/-- `m, f.err = f.w.Write(p)`: one call of the caller's writer; returns `m` and what it left in the slice.  folder.go:37, 47, 57. -/
def GFolder.sink (w : FreeWriter) (f : WFolder) (p : Bytes) : WFolder × Nat × Bytes :=
  ((f.sink w.plain p).1, (f.sink w.plain p).2, (w f.log p).2.2)

/-- The end of `folder.Write` (folder.go:56-61): write what is left, `i` is where it lies. -/
def GFolder.finish (w : FreeWriter) (x : GFolder) (src : Source) (i n : Nat) (q : Bytes) : GFolder × Nat :=
  if q ≠ [] then
    let (f, m, p) := GFolder.sink w x.f q
    (⟨f, x.g.put i p src⟩, n + m)
  else (x, n)

/-- The loop of `folder.Write` (folder.go:28-61), as `WFolder.loop`; `i` is where `q` begins in what was given to `Write`. -/
def GFolder.loop (w : FreeWriter) (src : Source) : Nat → GFolder → Nat → Nat → Bytes → Bytes → GFolder × Nat
  | 0, x, i, n, pre, _ => GFolder.finish w x src i n pre
  | _ + 1, x, i, n, pre, [] => GFolder.finish w x src i n pre
  | fuel + 1, x, i, n, pre, b :: suf =>
    let (r, s) := decodeRune (b :: suf)
    let line := x.f.line + UInt8.ofNat s
    let rune := (b :: suf).take s
    let rest := (b :: suf).drop s
    if r = 10 then GFolder.loop w src fuel ⟨{ x.f with line := 0 }, x.g⟩ i n (pre ++ rune) rest
    else if r = 13 then GFolder.loop w src fuel ⟨{ x.f with line := line }, x.g⟩ i n (pre ++ rune) rest
    else if line > maxLineLength then
      let (x, m) : GFolder × Nat :=
        if pre ≠ [] then
          let (f, m, p) := GFolder.sink w x.f pre
          (⟨f, x.g.put i p src⟩, m)
        else (x, 0)
      if x.f.err.isSome then (⟨{ x.f with line := line }, x.g⟩, n + m)
      else
        let (f, _, p) := GFolder.sink w x.f x.g.eol
        let x : GFolder := ⟨f, { x.g with eol := p }⟩
        if x.f.err.isSome then (⟨{ x.f with line := line }, x.g⟩, n + m)
        else GFolder.loop w src fuel ⟨{ x.f with line := UInt8.ofNat s + 1 }, x.g⟩ (i + pre.length) (n + m) rune rest
    else GFolder.loop w src fuel ⟨{ x.f with line := line }, x.g⟩ i n (pre ++ rune) rest

/-- `folder.Write` (folder.go:18-62) and `WriteString` (folder.go:64-66), as `WFolder.write`. -/
def GFolder.write (w : FreeWriter) (x : GFolder) (src : Source) (q : Bytes) : GFolder :=
  if x.f.err.isSome then x
  else (GFolder.loop w src (x.g.content q src).length x 0 0 [] (x.g.content q src)).1

/-- A sequence of writes by the encoder; the `k`-th lies in `src k`.  The calls of `w.Write` and `w.WriteString` in the `encode` methods, e.g. sections.go:124-150. -/
def GFolder.writes (w : FreeWriter) (src : Nat → Source) : Nat → GFolder → List Bytes → GFolder
  | _, x, [] => x
  | k, x, q :: qs => GFolder.writes w src (k + 1) (x.write w (src k) q) qs

/-- `Encode(w, cal)` (encoder.go:15-25), as `encodeCalls`, with the arrays as they were found; and as they are left.  `src` says which calls are those of `Boolean.encode` (types.go:77-83). -/
def encodeShared (E : Env) (w : FreeWriter) (src : Nat → Source) (c : Cal) (g : Globals) : Encoding × Globals :=
  match c.valid with
  | .err e => (.returned (some (.validation e)) {}, g)
  | .panic => (.panic, g)
  | .ok () =>
    let x := GFolder.writes w src 0 ⟨{}, g⟩ ((c.said E).calls.map utf8)
    (if (c.said E).ends then .returned (x.f.err.map .write) x.f else .never x.f, x.g)

/-! ## Decode -/

/-- `bytes.Index(p, sep)`.  Go library; unfolder.go:35. -/
def bytesIndex (sep : Bytes) : Bytes → Option Nat
  | [] => if sep = [] then some 0 else none
  | a :: r => if sep.isPrefixOf (a :: r) then some 0 else (bytesIndex sep r).map (· + 1)

/-- The inner loop (unfolder.go:33-44), as `squeeze`, with `eol` as it was found. -/
def squeezeG (eol : Bytes) : Nat → Bytes → Bytes → Nat → Run (Bytes × Nat)
  | 0, _, _, _ => .running
  | fuel + 1, kept, win, toRead =>
    match bytesIndex eol win with
    | none =>
      if win.length < toRead then .panic
      else .done (kept ++ win.take (win.length - toRead), toRead)
    | some pos =>
      let w := win.drop pos
      squeezeG eol fuel (kept ++ win.take pos) (w.drop 3 ++ w.drop (w.length - 3)) (toRead + 3)

/-- The filling loop (unfolder.go:29-45), as `fill`. -/
def fillG (eol : Bytes) (R : Reader) : Nat → List Nat → Bytes → Nat → Run (List Nat × Bytes × Option Nat)
  | 0, _, _, _ => .running
  | fuel + 1, h, q, k =>
    if k = 0 then .done (h, q, none)
    else
      let (b, e) := R (k :: h)
      (squeezeG eol fuel [] b 0).bind fun (b', toRead) =>
        if e.isSome then .done (k :: h, q ++ b', e)
        else fillG eol R fuel (k :: h) (q ++ b') toRead

mutual
/-- `unfolder.Read` (unfolder.go:14-83), as `Unfolder.read`. -/
def readG (eol : Bytes) (R : Reader) : Nat → Unfolder → Nat → Run ReadRes
  | 0, _, _ => .running
  | fuel + 1, u, k =>
    let q := u.pend.take k
    (fillG eol R fuel u.hist q (k - q.length)).bind fun (h, q, err) =>
      if err.isSome then .done ⟨⟨u.pend.drop k, h⟩, q, q.length, err⟩
      else settleG eol R fuel ⟨u.pend.drop k, h⟩ q q.length

/-- The second loop (unfolder.go:47-81), as `settle`: it has the octets of the marker written out. -/
def settleG (eol : Bytes) (R : Reader) : Nat → Unfolder → Bytes → Int → Run ReadRes
  | 0, _, _, _ => .running
  | fuel + 1, u, q, m =>
    let lq := q.length
    if lq > 0 ∧ q[lq - 1]? = some 13 then
      let (b, err) := R (2 :: u.hist)
      let u : Unfolder := ⟨b, 2 :: u.hist⟩
      if b.length < 2 then .done ⟨u, q, m, err⟩
      else if b = [10, 32] then
        if err.isSome then .done ⟨u, q, m - 1, err⟩
        else
          let (b2, err2) := R (1 :: u.hist)
          let q := overwrite q (lq - 1) b2
          let u : Unfolder := ⟨[], 1 :: u.hist⟩
          if err2.isSome then .done ⟨u, q, m - 1 + b2.length, err2⟩
          else settleG eol R fuel u q (m - 1 + b2.length)
      else .done ⟨u, q, m, err⟩
    else if lq > 1 ∧ q[lq - 2]? = some 13 ∧ q[lq - 1]? = some 10 then
      let (b, err) := R (1 :: u.hist)
      let u : Unfolder := ⟨b, 1 :: u.hist⟩
      if b.length < 1 then .done ⟨u, q, m, err⟩
      else if b = [32] then
        if err.isSome then .done ⟨u, q, m - 2, err⟩
        else
          (readG eol R fuel u 2).bind fun r =>
            let q := overwrite q (lq - 2) r.q
            let u : Unfolder := ⟨[], r.u.hist⟩
            if r.err.isSome then .done ⟨u, q, m - 2 + r.m, r.err⟩
            else settleG eol R fuel u q (m - 2 + r.m)
      else .done ⟨u, q, m, err⟩
    else .done ⟨u, q, m, none⟩
end

/-- A consumer calling `Read`, as `readAll`.  Not in /repo: the parser library, tokeniser.go:29-36. -/
def readAllG (eol : Bytes) (R : Reader) (fuel : Nat) : List Nat → Unfolder → Bytes → Run (Bytes × Option Nat × Unfolder)
  | [], u, acc => .done (acc, none, u)
  | k :: ks, u, acc =>
    (readG eol R fuel u k).bind fun r =>
      if r.err.isSome then .done (acc ++ r.q.take r.m.toNat, r.err, r.u)
      else readAllG eol R fuel ks r.u (acc ++ r.q.take r.m.toNat)

/-- `Decode(r)` (decoder.go:16-37), as `decodeReader`, with the arrays as they were found; it does not change them. -/
def decodeShared (E : Env) (R : Reader) (fuel : Nat) (ks : List Nat) (g : Globals) : Outcome :=
  (readAllG g.eol R fuel ks {} []).bind fun (out, _, _) => .done (decodeDoc E (runes out))

/-! ## One after the other -/

/-- A call of the package: of `Encode` (encoder.go:15) or of `Decode` (decoder.go:16). -/
inductive PackageCall where
  | enc (E : Env) (w : FreeWriter) (src : Nat → Source) (c : Cal)
  | dec (E : Env) (R : Reader) (fuel : Nat) (ks : List Nat)

/-- What it comes to.  encoder.go, decoder.go. -/
inductive Answer where
  | enc (r : Encoding)
  | dec (r : Outcome)

/-- The call, with the arrays as it finds them and as it leaves them.  encoder.go, decoder.go. -/
def PackageCall.run (g : Globals) : PackageCall → Answer × Globals
  | .enc E w src c => (.enc (encodeShared E w src c g).1, (encodeShared E w src c g).2)
  | .dec E R fuel ks => (.dec (decodeShared E R fuel ks g), g)

/-- Calls one after the other.  Not in /repo: the program that uses the package. -/
def runCalls : Globals → List PackageCall → List Answer
  | _, [] => []
  | g, c :: cs => (c.run g).1 :: runCalls (c.run g).2 cs

/-! ## At the same time -/

/-- A call on its way, in a goroutine of its own: `Encode` between two calls of the folder (encoder.go:20-22), `k` are done; `Decode` between two calls of the unfolding reader (tokeniser.go:29-30);
or a call that is through. -/
inductive Running where
  | enc (w : FreeWriter) (src : Nat → Source) (ends : Bool) (k : Nat) (f : WFolder) (qs : List Bytes)
  | dec (E : Env) (R : Reader) (fuel : Nat) (u : Unfolder) (acc : Bytes) (ks : List Nat)
  | through (a : Answer)

/-- How a call begins (encoder.go:15-20, decoder.go:16-20). -/
def PackageCall.begin : PackageCall → Running
  | .enc E w src c =>
    match c.valid with
    | .err e => .through (.enc (.returned (some (.validation e)) {}))
    | .panic => .through (.enc .panic)
    | .ok () => .enc w src (c.said E).ends 0 {} ((c.said E).calls.map utf8)
  | .dec E R fuel ks => .dec E R fuel {} [] ks

/-- Its next step, with the arrays as it finds them and as it leaves them.  Simplified: a call of `folder.Write` (folder.go:18-62) or of `unfolder.Read` (unfolder.go:14-83) is one step, and the tokeniser
and the parser proceed when all is read. -/
def Running.step (g : Globals) : Running → Running × Globals
  | .enc w src ends k f (q :: qs) =>
    let x := GFolder.write w ⟨f, g⟩ (src k) q
    (.enc w src ends (k + 1) x.f qs, x.g)
  | .enc _ _ ends _ f [] => (.through (.enc (if ends then .returned (f.err.map .write) f else .never f)), g)
  | .dec E R fuel u acc (k :: ks) =>
    match readG g.eol R fuel u k with
    | .running => (.through (.dec .running), g)
    | .panic => (.through (.dec .panic), g)
    | .done r =>
      if r.err.isSome then (.dec E R fuel r.u (acc ++ r.q.take r.m.toNat) [], g)
      else (.dec E R fuel r.u (acc ++ r.q.take r.m.toNat) ks, g)
  | .dec E _ _ _ acc [] => (.through (.dec (.done (decodeDoc E (runes acc)))), g)
  | .through a => (.through a, g)

/-- Several calls on their way, and the arrays.  Not in /repo: the program that uses the package. -/
abbrev Machine := List Running × Globals

/-- The `i`-th takes a step.  Not in /repo: the scheduler of Go. -/
def Machine.turn (m : Machine) (i : Nat) : Machine :=
  match m.1[i]? with
  | none => m
  | some r => (m.1.set i (r.step m.2).1, (r.step m.2).2)

/-- They take steps in this order.  Not in /repo: the scheduler of Go. -/
def Machine.schedule (m : Machine) (is : List Nat) : Machine := is.foldl Machine.turn m

end Ics
