import Verif.Num
/-!
# Model of the Duration value type (types.go:220-396)
-/

namespace Ics

/-- `Duration` (types.go:220-223).  The Go fields are `uint`, 64 bits wide. -/
structure Duration where
  neg : Bool := false
  weeks : Nat := 0
  days : Nat := 0
  hours : Nat := 0
  minutes : Nat := 0
  seconds : Nat := 0
  deriving DecidableEq, Repr

/-- The fields are `uint` values.  types.go:220-223. -/
structure Duration.WF (d : Duration) : Prop where
  weeks : d.weeks < 2 ^ 64
  days : d.days < 2 ^ 64
  hours : d.hours < 2 ^ 64
  minutes : d.minutes < 2 ^ 64
  seconds : d.seconds < 2 ^ 64

/-- The loop of `Duration.decode` (types.go:240-319), `level` being the Go variable; the fuel is one more than the length of the text. -/
def Duration.loop : Nat → Nat → Duration → Str → Res Duration
  | 0, _, _, _ => .err .invalidDuration
  | fuel + 1, level, d, s =>
    if s = [] then
      if level = 0 then .err .invalidDuration else .ok d
    else
      let level' := if s.head? = some 'T' then 1 else level
      let s' := if s.head? = some 'T' then s.tail else s
      match parseUint 64 (s'.takeWhile isDigit) with
      | none => .err .ext
      | some n =>
        match s'.dropWhile isDigit with
        | 'W' :: r =>
          if level' > 0 then .err .invalidDuration
          else if r ≠ [] then .err .invalidDuration
          else .ok { d with weeks := n }
        | 'D' :: r =>
          if level' > 0 then .err .invalidDuration
          else Duration.loop fuel 1 { d with days := n } r
        | 'H' :: r =>
          if level' > 1 then .err .invalidDuration
          else Duration.loop fuel 2 { d with hours := n } r
        | 'M' :: r =>
          if level' > 2 then .err .invalidDuration
          else Duration.loop fuel 3 { d with minutes := n } r
        | 'S' :: r =>
          if level' > 3 then .err .invalidDuration
          else if r ≠ [] then .err .invalidDuration
          else Duration.loop fuel level' { d with seconds := n } r
        | _ => .err .invalidDuration

/-- `Duration.decode` (types.go:225-319). -/
def Duration.decode (s : Str) : Res Duration :=
  let neg := s.head? = some '-'
  let s := if s.head? = some '-' ∨ s.head? = some '+' then s.tail else s
  match s with
  | 'P' :: r => Duration.loop (r.length + 1) 0 { neg := neg } r
  | _ => .err .invalidDuration

/-- The part of `Duration.encode` behind the "P" (types.go:352-390). -/
def Duration.body (d : Duration) : Str :=
  if d.weeks ≠ 0 then fmtNat d.weeks ++ ['W']
  else
    (if d.days ≠ 0 then fmtNat d.days ++ ['D'] else []) ++
    (if d.days = 0 ∨ (d.hours ≠ 0 ∨ d.minutes ≠ 0 ∨ d.seconds ≠ 0) then
      'T' ::
      (if d.hours ≠ 0 then
        fmtNat d.hours ++ 'H' ::
        (if d.minutes ≠ 0 ∨ d.seconds ≠ 0 then
          fmtNat d.minutes ++ 'M' :: (if d.seconds ≠ 0 then fmtNat d.seconds ++ ['S'] else [])
         else [])
       else if d.minutes ≠ 0 then
        fmtNat d.minutes ++ 'M' :: (if d.seconds ≠ 0 then fmtNat d.seconds ++ ['S'] else [])
       else fmtNat d.seconds ++ ['S'])
     else [])

/-- `Duration.encode` (types.go:343-392). -/
def Duration.encode (d : Duration) : Str := (if d.neg then ['-'] else []) ++ 'P' :: d.body

end Ics
