import Verif.Param
/-!
# Model of properties.go

The code of properties.go is generated: each property type is one of three shapes.  The model has one function for each of `decode`,
`encode` and `valid`, driven by the table in Tables.lean.
-/

namespace Ics

/-- The shapes of property types: an enumeration, or known parameters and one value or several alternatives for the value (each with
its VALUE name).  The types of properties.go, e.g. 14, 71-75, 206-219. -/
inductive Shape where
  | enum (names : List Str)
  | fields (params : List PDef) (vals : List (Str × Kind))
  deriving DecidableEq, Repr

/-- A property type: the name it is encoded under, and its shape.  The rows are in Tables.lean, with the lines of properties.go. -/
structure PSpec where
  name : Str
  shape : Shape
  deriving DecidableEq, Repr

/-- A property: the fields of the Go struct in order, `none` for nil.  E.g. properties.go:14, 71-75. -/
inductive PropVal where
  | enum (n : Nat)
  | fields (ps : List (Option ParamVal)) (vs : List (Option Val))
  deriving DecidableEq, Repr

/-- The decoding state: parameters found, number of the alternative chosen by VALUE, other parameters (latest first).  E.g. properties.go:78-81. -/
structure PState where
  ps : List (Option ParamVal)
  vtype : Option Nat := none
  op : List (Str × Str) := []

/-- Position of a parameter name among the known parameters.  The cases of the switch, e.g. properties.go:95-106. -/
def paramIdx (n : Str) : List PDef → Option Nat
  | [] => none
  | d :: ds => if n = d.name then some 0 else (paramIdx n ds).map (· + 1)

/-- One round of the parameter loop of `decode` (e.g. properties.go:83-129, 2314-2356): a parameter name and its values.

Simplified: a slice parameter counts as set once decoded, where the code compares the slice with nil; the tokeniser gives every
parameter at least one value, so a decoded slice is never nil. -/
def PState.step (E : Env) (params : List PDef) (vals : List (Str × Kind)) (st : PState) (p : Str × List PVal) : Res PState :=
  let n := upper p.1
  match paramIdx n params with
  | some i =>
    if (st.ps.getD i none).isSome then .err .duplicateParam
    else do
      let v ← (params.getD i ⟨[], .range⟩).kind.decode E p.2
      return { st with ps := st.ps.set i (some v) }
  | none =>
    if n = c!"VALUE" ∧ 2 ≤ vals.length then
      match p.2 with
      | [v] =>
        if st.vtype.isSome then .err .duplicateParam
        else match indexOf (upper v.data) (vals.map (·.1)) with
          | some i => .ok { st with vtype := some i }
          | none => .err .invalidValue
      | _ => .err .invalidValue
    else .ok { st with op := (n, join [','] (p.2.map (·.data))) :: st.op }

/-- The parameter loop of `decode` (e.g. properties.go:83-130). -/
def PState.steps (E : Env) (params : List PDef) (vals : List (Str × Kind)) : PState → List (Str × List PVal) → Res PState
  | st, [] => .ok st
  | st, p :: ps => do
    let st ← st.step E params vals p
    PState.steps E params vals st ps

/-- `oParams[name]`.  types.go:23, 159, 1379. -/
def opGet (op : List (Str × Str)) (n : Str) : Option Str := (op.find? (fun x => x.1 == n)).map (·.2)

/-- The value of alternative `i`, all others nil.  E.g. properties.go:136-149. -/
def oneOf (k i : Nat) (v : Val) : List (Option Val) := (List.replicate k none).set i (some v)

/-- The `decode` methods of properties.go (the ranges are listed in Tables.lean, with the row of each property). -/
def PSpec.decode (E : Env) (sp : PSpec) (ps : List (Str × List PVal)) (value : Str) : Res PropVal :=
  match sp.shape with
  | .enum names =>
    match indexOf (upper value) names with
    | some n => .ok (.enum n)
    | none => .err .invalidValue
  | .fields params vals => do
    let st ← PState.steps E params vals { ps := params.map fun _ => none } ps
    let i := st.vtype.getD 0
    let v ← Val.decode E (opGet st.op) (vals.getD i ([], .text)).2 value
    return .fields st.ps (oneOf vals.length i v)

/-- The parameters as written by `encode` (e.g. properties.go:362-404). -/
def encParams (E : Env) : List PDef → List (Option ParamVal) → List (Option Str)
  | d :: ds, p :: ps => (match p with
    | some v => d.kind.encode E d.name v
    | none => some []) :: encParams E ds ps
  | _, _ => []

/-- The alternatives as written by `encode` (e.g. properties.go:2386-2398): all but the first with a VALUE parameter. -/
def encVals (E : Env) : Bool → List (Str × Kind) → List (Option Val) → Str
  | first, (n, _) :: ks, v :: vs => (match v with
    | some v => (if first then [] else c!";VALUE=" ++ n) ++ v.aencode E
    | none => []) ++ encVals E false ks vs
  | _, _, _ => []

/-- E.g. properties.go:56, 170. -/
def crlf : Str := ['\r', '\n']

/-- The `encode` methods of properties.go. -/
def PSpec.encode (E : Env) (sp : PSpec) (v : PropVal) : Option Str :=
  match sp.shape, v with
  | .enum names, .enum n => some (sp.name ++ ':' :: names.getD n [] ++ crlf)
  | .fields params vals, .fields ps vs => (cat (encParams E params ps)).map fun t => sp.name ++ t ++ encVals E true vals vs ++ crlf
  | _, _ => some []

/-- Validation of the parameters in order.  E.g. properties.go:174-178. -/
def validParams : List PDef → List (Option ParamVal) → Res Unit
  | d :: ds, p :: ps => do
    match p with
    | some v => d.kind.valid v
    | none => .ok ()
    validParams ds ps
  | _, _ => .ok ()

/-- Validation of the values that are set, in order.  E.g. properties.go:182-196. -/
def validVals : List (Option Val) → Res Unit
  | [] => .ok ()
  | v :: vs => do
    match v with
    | some v => v.valid
    | none => .ok ()
    validVals vs

/-- The `valid` methods of properties.go. -/
def PSpec.valid (sp : PSpec) (v : PropVal) : Res Unit :=
  match sp.shape, v with
  | .enum names, .enum n => Res.guard .invalidValue (n < names.length)
  | .fields params vals, .fields ps vs => do
    validParams params ps
    validVals vs
    if vals.length = 1 then .ok () else Res.guard .invalidValue ((vs.filter (·.isSome)).length = 1)
  | _, _ => .ok ()

/-- The values of the alternatives have their types.  E.g. properties.go:71-75. -/
def typedVals : List (Str × Kind) → List (Option Val) → Bool
  | [], [] => true
  | (_, k) :: ks, v :: vs => v.all (fun v => v.kind == k) && typedVals ks vs
  | _, _ => false

/-- The parameters have their types, e.g. properties.go:206-217. -/
def typedParams : List PDef → List (Option ParamVal) → Bool
  | [], [] => true
  | d :: ds, p :: ps => p.all d.kind.typed && typedParams ds ps
  | _, _ => false

/-- The property is a value of the Go type: what the compiler guarantees.  A property with a single value always holds it.  E.g. properties.go:14, 71-75, 206-219. -/
def PSpec.typed (sp : PSpec) (v : PropVal) : Bool :=
  match sp.shape, v with
  | .enum _, .enum n => n < 256
  | .fields params vals, .fields ps vs =>
    typedParams params ps && typedVals vals vs && (vals.length != 1 || vs.all (·.isSome))
  | _, _ => false

end Ics
