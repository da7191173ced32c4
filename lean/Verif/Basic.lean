/-!
# Basic vocabulary: strings, outcomes, errors, external environment
-/

namespace Ics

/-- Go strings (valid UTF-8) above the byte layer.  The strings of all the types, e.g. types.go:1238, and the data of tokens, tokeniser.go:38-147. -/
abbrev Str := List Char

open Lean in
/-- `c!"abc"` is the explicit list `['a','b','c']`. -/
macro:max "c!" s:str : term => do
  let mut r ← `(([] : List Char))
  for c in s.getString.toList.reverse do
    r ← `(List.cons $(Syntax.mkCharLit c) $r)
  return r

/-- Sentinel errors.  Go wraps them with `fmt.Errorf("…%w")`; the model keeps only the sentinel that
`errors.Is` finds.  `ext` stands for errors produced by the standard library
(`strconv`, `net/url`, `time`, `base64`). `multiple` is the un-named error built with `errMultiple`
(sections.go:4208). -/
inductive Err where
  -- decoder.go / encoder.go / io
  | unexpectedEOF | invalidCalendar
  -- tokeniser.go:172-181
  | invalidContentLine | invalidContentLineName | invalidContentLineParamName
  | invalidContentLineQuotedParamValue | invalidContentLineParamValue | invalidContentLineValue
  -- types.go:1578-1603
  | invalidEncoding | invalidPeriod | invalidDuration | invalidText | invalidBoolean | invalidOffset
  | invalidRecur | invalidTime | invalidFloat | invalidTFloat | invalidPeriodStart
  | invalidPeriodDuration | invalidPeriodEnd | invalidRecurFrequency | invalidRecurBySecond
  | invalidRecurByMinute | invalidRecurByHour | invalidRecurByDay | invalidRecurByMonthDay
  | invalidRecurByYearDay | invalidRecurByWeekNum | invalidRecurByMonth | invalidRecurBySetPos
  | invalidRecurWeekStart
  -- params.go:1243-1246, properties.go (ErrDuplicateParam)
  | invalidParam | invalidValue | duplicateParam
  -- sections.go:4201-4208
  | invalidEnd | missingRequired | requirementNotMet | multiple
  -- sections_alarm.go:136-140
  | invalidStructure | missingAlarmAction | invalidAlarm
  -- any error of the standard library
  | ext
  -- an error returned by the caller's io.Writer / io.Reader
  | io (code : Nat)
  deriving DecidableEq, Repr

/-- Outcome of a Go function returning `(T, error)`, with run-time panics made explicit.  E.g. types.go:22-35. -/
inductive Res (α : Type) where
  | ok (a : α)
  | err (e : Err)
  | panic
  deriving DecidableEq, Repr

namespace Res

/-- Sequencing: the Go idiom `if err != nil { return err }`.  E.g. types.go:160-163. -/
def bind {α β : Type} (x : Res α) (f : α → Res β) : Res β :=
  match x with
  | ok a => f a
  | err e => err e
  | panic => panic

/-- `bind` with a result that can not fail, e.g. types.go:124-131. -/
def map {α β : Type} (f : α → β) (x : Res α) : Res β := x.bind fun a => ok (f a)

/-- `if err := …; err != nil { return err }`, e.g. types.go:124-131. -/
instance : Monad Res where
  pure := ok
  bind := bind

@[simp] theorem ok_bind {α β} (a : α) (f : α → Res β) : (ok a >>= f) = f a := rfl
@[simp] theorem err_bind {α β} (e : Err) (f : α → Res β) : ((err e : Res α) >>= f) = err e := rfl
@[simp] theorem panic_bind {α β} (f : α → Res β) : ((panic : Res α) >>= f) = panic := rfl
@[simp] theorem pure_eq {α} (a : α) : (pure a : Res α) = ok a := rfl

theorem bind_eq_ok {α β} {x : Res α} {f : α → Res β} {b : β} :
    (x >>= f) = ok b ↔ ∃ a, x = ok a ∧ f a = ok b := by
  cases x <;> simp

theorem bind_eq_panic {α β} {x : Res α} {f : α → Res β} :
    (x >>= f) = panic ↔ x = panic ∨ ∃ a, x = ok a ∧ f a = panic := by
  cases x <;> simp

theorem bind_eq_err {α β} {x : Res α} {f : α → Res β} {e : Err} :
    (x >>= f) = err e ↔ x = err e ∨ ∃ a, x = ok a ∧ f a = err e := by
  cases x <;> simp

/-- `errors` from a standard library call that returns `(T, error)`.  E.g. types.go:27-30, 57-60. -/
def ofOption {α : Type} (e : Err) : Option α → Res α
  | some a => ok a
  | none => err e

@[simp] theorem ofOption_some {α} (e : Err) (a : α) : ofOption e (some a) = ok a := rfl
@[simp] theorem ofOption_none {α} (e : Err) : ofOption e (none : Option α) = err e := rfl

theorem ofOption_eq_ok {α} {e : Err} {o : Option α} {a : α} :
    ofOption e o = ok a ↔ o = some a := by
  cases o <;> simp

@[simp] theorem ofOption_ne_panic {α} {e : Err} {o : Option α} :
    ofOption e o ≠ (panic : Res α) := by
  cases o <;> simp

/-- Not in /repo: whether a call succeeded. -/
def isOk {α} : Res α → Bool
  | ok _ => true
  | _ => false

/-- A check without result.  E.g. types.go:23-25, 1318-1320. -/
def guard (e : Err) (b : Bool) : Res Unit := if b then ok () else err e

@[simp] theorem guard_true (e : Err) : guard e true = ok () := rfl
@[simp] theorem guard_false (e : Err) : guard e false = err e := rfl
theorem guard_eq_ok {e : Err} {b : Bool} : guard e b = ok () ↔ b = true := by
  cases b <;> simp
@[simp] theorem guard_ne_panic {e : Err} {b : Bool} : guard e b ≠ panic := by
  cases b <;> simp

end Res

/-- An opaque `url.URL` struct value.  `id` is any injective serialisation of the struct's fields; only `Env.urlParse` and
`Env.urlString` look at it.  The type behind `URI` and `CalendarAddress` (types.go:90-92, 1440-1442). -/
structure Url where
  id : Str
  deriving DecidableEq, Repr

/-- The parts of the Go standard library and of the machine that the model leaves abstract.
All theorems hold for every `Env` (possibly with stated hypotheses on it).  The calls are at types.go:95, 160, 402, 418, 443-445, 458-460, 1380, 1445 and params.go:27. -/
structure Env where
  /-- `url.Parse` -/
  urlParse : Str → Option Url
  /-- `(*url.URL).String` -/
  urlString : Url → Str
  /-- `strconv.ParseFloat(s, 64)`; floats are their IEEE 754 bit patterns -/
  floatParse : Str → Option UInt64
  /-- `strconv.FormatFloat(f, 'f', -1, 64)` -/
  floatFormat : UInt64 → Str
  /-- `time.LoadLocation(name)` for names other than "", "UTC", "Local": the identifier of
  the zone's rule set, if the tz database has it -/
  loadZone : Str → Option Nat
  /-- offset in seconds east of UTC of a rule set at a time in seconds (from the start of the year 1, as in package time) -/
  zoneOff : Nat → Int → Int
  /-- same for `time.Local` -/
  localOff : Int → Int

/-- Two runes that are not ASCII and have an ASCII letter as upper case.  Go library, not in /repo; package unicode. -/
def upperAscii (c : Char) : Prop := c = 'ı' ∨ c = 'ſ'

/-- The table of package unicode for the upper case of the runes that are not ASCII, other than `upperAscii`.  Which table this is is left open: all that is known is
that it gives runes of the same sort, and leaves these alone.  Go library, not in /repo; it comes in with `strings.ToUpper`. -/
opaque upperTable : { f : Char → Char // ∀ c : Char, 128 ≤ c.toNat → ¬ upperAscii c → 128 ≤ (f c).toNat ∧ ¬ upperAscii (f c) ∧ f (f c) = f c } :=
  ⟨id, fun _ h1 h2 => ⟨h1, h2, rfl⟩⟩

/-- `unicode.ToUpper`.  Go library, not in /repo; called by `strings.ToUpper`. -/
def upperC (c : Char) : Char :=
  if 'a' ≤ c ∧ c ≤ 'z' then Char.ofNat (c.toNat - 32)
  else if c = 'ı' then 'I'
  else if c = 'ſ' then 'S'
  else if c.toNat < 128 then c
  else upperTable.1 c

/-- `strings.ToUpper`.  Go library, not in /repo; called at decoder.go:26, sections.go:40-42, 4185, 4191, properties.go:30, 84, 114, params.go:125 and their like. -/
def upper (s : Str) : Str := s.map upperC

/-- `strings.ContainsAny(s, chars)` with `chars` given as a predicate.  Go library, not in /repo; called at types.go:1318, params.go:85, 95 and their like. -/
def containsAny (p : Char → Bool) (s : Str) : Bool := s.any p

/-- `strings.Split(s, sep)` for a one-rune separator: always at least one element.
Go library, not in /repo; called at types.go:642, 720, 738, 756, 774, 847, 865, 883, 901, 919. -/
def splitOn (sep : Char) : Str → List Str
  | [] => [[]]
  | c :: cs =>
    if c = sep then [] :: splitOn sep cs
    else match splitOn sep cs with
      | [] => [[c]]
      | w :: ws => (c :: w) :: ws

/-- `strings.SplitN(s, sep, 2)`: the text before the first separator and, if there is one, the text after it.  Go library, not in /repo; called at types.go:435, 643. -/
def split2 (sep : Char) : Str → Str × Option Str
  | [] => ([], none)
  | c :: cs =>
    if c = sep then ([], some cs)
    else let (a, b) := split2 sep cs; (c :: a, b)

/-- `strings.Join(l, sep)`.  Go library, not in /repo; called at properties.go:127 and its like. -/
def join (sep : Str) : List Str → Str
  | [] => []
  | [w] => w
  | w :: ws => w ++ sep ++ join sep ws

end Ics
