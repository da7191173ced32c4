import Verif.Folder
/-!
# Model of unfolder.go

The unfolding reader sits between the caller's `io.Reader` and the tokeniser.
-/

namespace Ics

/-- The caller's `io.Reader`.  The argument is the list of buffer sizes of all `Read` calls so far, the current one
first; the result is the octets delivered and the error returned with them, if any.  A well-behaved reader delivers
no more octets than it was asked for (`ReaderOk`).  The field `r` (unfolder.go:9). -/
abbrev Reader := List Nat → Bytes × Option Nat

/-- The part of the `io.Reader` contract used: at most `len(p)` octets are delivered.  unfolder.go:30, 49, 56, 64. -/
def ReaderOk (R : Reader) : Prop := ∀ k h, (R (k :: h)).1.length ≤ k

/-- Everything the caller's reader delivered during the calls recorded in a history.  Not in /repo: a history of the calls at unfolder.go:30, 49, 56, 64. -/
def delivered (R : Reader) : List Nat → Bytes
  | [] => []
  | k :: h => delivered R h ++ (R (k :: h)).1

/-- Outcome of running Go code that may not terminate: finished, panicked, or still running after the
steps allowed by the fuel.  Not in /repo: for the loops at unfolder.go:29, 34, 47. -/
inductive Run (α : Type) where
  | done (a : α)
  | panic
  | running
  deriving DecidableEq, Repr

/-- Not in /repo: sequencing of `Run`. -/
def Run.bind {α β : Type} (x : Run α) (f : α → Run β) : Run β :=
  match x with
  | .done a => f a
  | .panic => .panic
  | .running => .running

/-- `bytes.Index(p, eol[:])` (unfolder.go:35). -/
def findFold : Bytes → Option Nat
  | [] => none
  | [_] => none
  | [_, _] => none
  | a :: b :: c :: r =>
    if a = 13 ∧ b = 10 ∧ c = 32 then some 0 else (findFold (b :: c :: r)).map (· + 1)

/-- The inner loop (unfolder.go:33-44).  `kept` are the octets in front of the slice `p`, `win` is the content of `p`.
Removing a marker at `pos` moves the rest of `p` down by three and leaves the last three octets where they
are (`copy(p[pos:], p[pos+3:])`), then drops the first `pos` octets of `p`.  At the end the last `toRead` octets
of `p` become the new `p` (a slice expression that panics if there are fewer).  Result: octets kept, number of octets
to read again. -/
def squeeze : Nat → Bytes → Bytes → Nat → Run (Bytes × Nat)
  | 0, _, _, _ => .running
  | fuel + 1, kept, win, toRead =>
    match findFold win with
    | none =>
      if win.length < toRead then .panic
      else .done (kept ++ win.take (win.length - toRead), toRead)
    | some pos =>
      let w := win.drop pos
      squeeze fuel (kept ++ win.take pos) (w.drop 3 ++ w.drop (w.length - 3)) (toRead + 3)

/-- `type unfolder struct` (unfolder.go:8-12): `pend` is `buf[:bufLen]`; `hist` records the calls made to the caller's
reader. -/
structure Unfolder where
  pend : Bytes := []
  hist : List Nat := []
  deriving DecidableEq, Repr

/-- The filling loop (unfolder.go:29-45): `q` are the octets already in the buffer, `k` is `len(p)`. -/
def fill (R : Reader) : Nat → List Nat → Bytes → Nat → Run (List Nat × Bytes × Option Nat)
  | 0, _, _, _ => .running
  | fuel + 1, h, q, k =>
    if k = 0 then .done (h, q, none)
    else
      let (b, e) := R (k :: h)
      (squeeze fuel [] b 0).bind fun (b', toRead) =>
        if e.isSome then .done (k :: h, q ++ b', e)
        else fill R fuel (k :: h) (q ++ b') toRead

/-- `copy`-like update: put `b` at position `i` of the buffer.  unfolder.go:56, 71. -/
def overwrite (q : Bytes) (i : Nat) (b : Bytes) : Bytes := q.take i ++ b ++ q.drop (i + b.length)

/-- What one `Read` leaves behind: the unfolder, the buffer content up to the slice `q` (unfolder.go:46), the count `m` and
the error. -/
structure ReadRes where
  u : Unfolder
  q : Bytes
  m : Int
  err : Option Nat
  deriving DecidableEq, Repr

mutual
/-- `unfolder.Read` (unfolder.go:14-83) with a buffer of `k` octets. -/
def Unfolder.read (R : Reader) : Nat → Unfolder → Nat → Run ReadRes
  | 0, _, _ => .running
  | fuel + 1, u, k =>
    let q := u.pend.take k
    (fill R fuel u.hist q (k - q.length)).bind fun (h, q, err) =>
      if err.isSome then .done ⟨⟨u.pend.drop k, h⟩, q, q.length, err⟩
      else settle R fuel ⟨u.pend.drop k, h⟩ q q.length

/-- The second loop (unfolder.go:47-81), entered with `err == nil`: a buffer ending in CR or CR LF may end inside a
fold marker. -/
def settle (R : Reader) : Nat → Unfolder → Bytes → Int → Run ReadRes
  | 0, _, _, _ => .running
  | fuel + 1, u, q, m =>
    let lq := q.length
    if lq > 0 ∧ q[lq - 1]? = some 13 then
      let (b, err) := R (2 :: u.hist)
      let u : Unfolder := ⟨b, 2 :: u.hist⟩
      if b.length < 2 then .done ⟨u, q, m, err⟩
      else if b = [10, 32] then
        if err.isSome then .done ⟨u, q, m - 1, err⟩
        else
          let (b2, err2) := R (1 :: u.hist)
          let q := overwrite q (lq - 1) b2
          let u : Unfolder := ⟨[], 1 :: u.hist⟩
          if err2.isSome then .done ⟨u, q, m - 1 + b2.length, err2⟩
          else settle R fuel u q (m - 1 + b2.length)
      else .done ⟨u, q, m, err⟩
    else if lq > 1 ∧ q[lq - 2]? = some 13 ∧ q[lq - 1]? = some 10 then
      let (b, err) := R (1 :: u.hist)
      let u : Unfolder := ⟨b, 1 :: u.hist⟩
      if b.length < 1 then .done ⟨u, q, m, err⟩
      else if b = [32] then
        if err.isSome then .done ⟨u, q, m - 2, err⟩
        else
          (Unfolder.read R fuel u 2).bind fun r =>
            let q := overwrite q (lq - 2) r.q
            let u : Unfolder := ⟨[], r.u.hist⟩
            if r.err.isSome then .done ⟨u, q, m - 2 + r.m, r.err⟩
            else settle R fuel u q (m - 2 + r.m)
      else .done ⟨u, q, m, err⟩
    else .done ⟨u, q, m, none⟩
end

/-- A consumer calling `Read` with buffers of the given sizes until it sees an error: everything it received,
the error if any, and the unfolder.  Not in /repo: the parser's reads from the unfolder (tokeniser.go:29-30). -/
def readAll (R : Reader) (fuel : Nat) : List Nat → Unfolder → Bytes → Run (Bytes × Option Nat × Unfolder)
  | [], u, acc => .done (acc, none, u)
  | k :: ks, u, acc =>
    (u.read R fuel k).bind fun r =>
      if r.err.isSome then .done (acc ++ r.q.take r.m.toNat, r.err, r.u)
      else readAll R fuel ks r.u (acc ++ r.q.take r.m.toNat)

/-! ## A concrete reader for examples -/

/-- Delivers a list of pieces, a piece longer than the buffer in several calls, then error `fin`.  Not in /repo: a reader for examples. -/
def piecesStep (fin : Nat) : List Bytes → Nat → List Bytes × Bytes × Option Nat
  | [], _ => ([], [], some fin)
  | p :: ps, k => if p.length ≤ k then (ps, p, none) else (p.drop k :: ps, p.take k, none)

/-- Not in /repo: a reader for examples. -/
def piecesState (fin : Nat) (ps : List Bytes) : List Nat → List Bytes
  | [] => ps
  | k :: h => (piecesStep fin (piecesState fin ps h) k).1

/-- Not in /repo: a reader for examples. -/
def piecesReader (fin : Nat) (ps : List Bytes) : Reader
  | [] => ([], some fin)
  | k :: h => (piecesStep fin (piecesState fin ps h) k).2

end Ics
