import Verif.Codec
/-!
# Model of unfolder.go with the buffers as they are in memory

`Unfolder` has of every buffer only what was delivered into it.  Here are the whole buffers: what they held before the call, what the moves inside of them leave behind, and what the caller's
reader does to the part of the slice that it delivers nothing into, which `io.Reader` allows it to use as scratch space.
-/

namespace Ics

/-- What the caller's reader does, in the call at the end of this history, with the rest of the slice it was given: from what was there to what is there.  Not in /repo: the contract of the
reader called at unfolder.go:30, 49, 56, 64. -/
abbrev Scratch := List Nat → Bytes → Bytes

/-- It does not change the size of the slice.  The contract of `io.Reader`; not in /repo. -/
def ScratchOk (S : Scratch) : Prop := ∀ h x, (S h x).length = x.length

/-- `u.r.Read(mem[i:i+k])` (unfolder.go:30, 49, 56, 64): the memory, the count and the error. -/
def callRead (R : Reader) (S : Scratch) (h : List Nat) (mem : Bytes) (i k : Nat) : Bytes × Nat × Option Nat :=
  (overwrite mem i ((R (k :: h)).1 ++ S (k :: h) ((mem.drop (i + (R (k :: h)).1.length)).take (k - (R (k :: h)).1.length))), (R (k :: h)).1.length, (R (k :: h)).2)

/-- The inner loop (unfolder.go:33-44) with `p` as `mem[i:i+len]`: the memory, and `i` and `len` of the new `p`. -/
def squeezeM : Nat → Bytes → Nat → Nat → Nat → Run (Bytes × Nat × Nat)
  | 0, _, _, _, _ => .running
  | fuel + 1, mem, i, len, toRead =>
    let p := (mem.drop i).take len
    match findFold p with
    | none => if len < toRead then .panic else .done (mem, i + (len - toRead), toRead)
    | some pos => squeezeM fuel (overwrite mem (i + pos) (p.drop (pos + 3))) (i + pos) (len - pos) (toRead + 3)

/-- `type unfolder struct` (unfolder.go:8-12), and the calls made. -/
structure MUnfolder where
  buf : Bytes := [0, 0]
  bufLen : Nat := 0
  hist : List Nat := []
  deriving DecidableEq, Repr

/-- The filling loop (unfolder.go:29-45): `p` is `mem[i:i+k]`.  `m` is a natural number because `toRead` is at most `n` where the slice at unfolder.go:43 does not panic. -/
def fillM (R : Reader) (S : Scratch) : Nat → List Nat → Bytes → Nat → Nat → Nat → Run (List Nat × Bytes × Nat × Option Nat)
  | 0, _, _, _, _, _ => .running
  | fuel + 1, h, mem, i, k, m =>
    if k = 0 then .done (h, mem, m, none)
    else
      let (mem, n, e) := callRead R S h mem i k
      (squeezeM fuel mem i n 0).bind fun (mem, i, toRead) =>
        if e.isSome then .done (k :: h, mem, m + n - toRead, e)
        else fillM R S fuel (k :: h) mem i toRead (m + n - toRead)

/-- What one `Read` leaves behind: the unfolder, all of the buffer `p` it was given, the count and the error.  unfolder.go:14-83. -/
structure MRes where
  u : MUnfolder
  mem : Bytes
  m : Int
  err : Option Nat
  deriving DecidableEq, Repr

mutual
/-- `unfolder.Read` (unfolder.go:14-83) with `mem` in the buffer. -/
def MUnfolder.read (R : Reader) (S : Scratch) : Nat → MUnfolder → Bytes → Run MRes
  | 0, _, _ => .running
  | fuel + 1, u, mem =>
    let n := min mem.length u.bufLen
    let mem := overwrite mem 0 (u.buf.take n)
    let u : MUnfolder := if n > 0 then ⟨overwrite u.buf 0 ((u.buf.drop 1).take 1), u.bufLen - n, u.hist⟩ else u
    (fillM R S fuel u.hist mem n (mem.length - n) n).bind fun (h, mem, m, err) =>
      if err.isSome then .done ⟨⟨u.buf, u.bufLen, h⟩, mem, m, err⟩
      else settleM R S fuel ⟨u.buf, u.bufLen, h⟩ mem m m

/-- The second loop (unfolder.go:47-81), entered with `err == nil`; `q` is `mem[:lq]`. -/
def settleM (R : Reader) (S : Scratch) : Nat → MUnfolder → Bytes → Nat → Int → Run MRes
  | 0, _, _, _, _ => .running
  | fuel + 1, u, mem, lq, m =>
    if lq > 0 ∧ mem[lq - 1]? = some 13 then
      let (buf, n, err) := callRead R S u.hist u.buf 0 2
      let u : MUnfolder := ⟨buf, n, 2 :: u.hist⟩
      if n < 2 then .done ⟨u, mem, m, err⟩
      else if buf[0]? = some 10 ∧ buf[1]? = some 32 then
        if err.isSome then .done ⟨u, mem, m - 1, err⟩
        else
          let (mem, n, err) := callRead R S u.hist mem (lq - 1) 1
          let u : MUnfolder := ⟨u.buf, 0, 1 :: u.hist⟩
          if err.isSome then .done ⟨u, mem, m - 1 + n, err⟩
          else settleM R S fuel u mem lq (m - 1 + n)
      else .done ⟨u, mem, m, err⟩
    else if lq > 1 ∧ mem[lq - 2]? = some 13 ∧ mem[lq - 1]? = some 10 then
      let (buf, n, err) := callRead R S u.hist u.buf 0 1
      let u : MUnfolder := ⟨buf, n, 1 :: u.hist⟩
      if n < 1 then .done ⟨u, mem, m, err⟩
      else if buf[0]? = some 32 then
        if err.isSome then .done ⟨u, mem, m - 2, err⟩
        else
          (MUnfolder.read R S fuel u ((mem.drop (lq - 2)).take 2)).bind fun r =>
            let mem := overwrite mem (lq - 2) r.mem
            let u : MUnfolder := ⟨r.u.buf, 0, r.u.hist⟩
            if r.err.isSome then .done ⟨u, mem, m - 2 + r.m, r.err⟩
            else settleM R S fuel u mem lq (m - 2 + r.m)
      else .done ⟨u, mem, m, err⟩
    else .done ⟨u, mem, m, none⟩
end

/-- A consumer calling `Read` with these buffers until it sees an error: everything it received, the error if any, and the unfolder.  Not in /repo: the parser's reads from the unfolder
(tokeniser.go:29-30). -/
def readAllM (R : Reader) (S : Scratch) (fuel : Nat) : List Bytes → MUnfolder → Bytes → Run (Bytes × Option Nat × MUnfolder)
  | [], u, acc => .done (acc, none, u)
  | mem :: mems, u, acc =>
    (u.read R S fuel mem).bind fun r =>
      if r.err.isSome then .done (acc ++ r.mem.take r.m.toNat, r.err, r.u)
      else readAllM R S fuel mems r.u (acc ++ r.mem.take r.m.toNat)

/-- `Decode(r)` (decoder.go:16-37) where the tokeniser reads through the unfolder into these buffers.  Simplified as `decodeReader` is. -/
def decodeMemory (E : Env) (R : Reader) (S : Scratch) (fuel : Nat) (mems : List Bytes) : Outcome :=
  (readAllM R S fuel mems {} []).bind fun (out, _, _) => .done (decodeDoc E (runes out))

end Ics
