import Verif.Raw
/-!
# Specification: a calendar with any octets, taken rune by rune
-/

namespace Ics.Spec

/-- The library gives these octets where `E` has the text, with U+FFFD for each octet that is not part of the encoding of a rune. -/
structure OctetsOf (E : Env) (O : Octets) : Prop where
  url : ∀ u, E.urlString u = runes (O.url u)
  zone : ∀ n p r, n = runes (O.zone (.zone n p r))

/-- The value with U+FFFD for each octet that is not part of the encoding of a rune. -/
def softVal : RawVal → Val
  | .text t => .text (runes t)
  | .mtext ts => .mtext (ts.map runes)
  | .other v => v

def softParam : RawParam → ParamVal
  | .str t => .str (runes t)
  | .strs ts => .strs (ts.map runes)
  | .other v => v

def softProp : RawProp → PropVal
  | .enum n => .enum n
  | .fields ps vs => .fields (ps.map (Option.map softParam)) (vs.map (Option.map softVal))

def softSect {σ τ : Type} (f : σ → τ) (s : RawSect σ) : Sect τ := ⟨s.fields.map (List.map softProp), s.subs.map (List.map f)⟩

def softSub : RawSub → Sub
  | .leaf s => .leaf (softSect id s)
  | .alarm a => .alarm (a.map fun x => (x.1, softSect id x.2))

/-- The calendar with U+FFFD for each octet of its texts and parameters that is not part of the encoding of a rune. -/
def softCal (c : RawCal) : Cal := softSect (softSect softSub) c

/-! ## The other way: a calendar of runes, as octets -/

def hardVal : Val → RawVal
  | .text t => .text (utf8 t)
  | .mtext ts => .mtext (ts.map utf8)
  | v => .other v

def hardParam : ParamVal → RawParam
  | .str t => .str (utf8 t)
  | .strs ts => .strs (ts.map utf8)
  | v => .other v

def hardProp : PropVal → RawProp
  | .enum n => .enum n
  | .fields ps vs => .fields (ps.map (Option.map hardParam)) (vs.map (Option.map hardVal))

def hardSect {σ τ : Type} (f : σ → τ) (s : Sect σ) : RawSect τ := ⟨s.fields.map (List.map hardProp), s.subs.map (List.map f)⟩

def hardSub : Sub → RawSub
  | .leaf s => .leaf (hardSect id s)
  | .alarm a => .alarm (a.map fun x => (x.1, hardSect id x.2))

/-- The calendar as `Decode` returns it: its strings are the UTF-8 of the runes. -/
def hardCal (c : Cal) : RawCal := hardSect (hardSect hardSub) c

/-! ## The strings -/

/-- The Go strings that are texts. -/
def rawVals : RawVal → List Bytes
  | .text t => [t]
  | .mtext ts => ts
  | .other _ => []

/-- The Go strings in a parameter. -/
def rawParams : RawParam → List Bytes
  | .str t => [t]
  | .strs ts => ts
  | .other _ => []

def rawProp (f : RawParam → List Bytes) (g : RawVal → List Bytes) : RawProp → List Bytes
  | .enum _ => []
  | .fields ps vs => ps.flatMap (fun p => p.toList.flatMap f) ++ vs.flatMap (fun v => v.toList.flatMap g)

def rawSect {σ : Type} (f : RawParam → List Bytes) (g : RawVal → List Bytes) (h : σ → List Bytes) (s : RawSect σ) : List Bytes :=
  s.fields.flatMap (fun ps => ps.flatMap (rawProp f g)) ++ s.subs.flatMap (fun xs => xs.flatMap h)

def rawSub (f : RawParam → List Bytes) (g : RawVal → List Bytes) : RawSub → List Bytes
  | .leaf s => rawSect f g (fun _ => []) s
  | .alarm a => a.toList.flatMap fun x => rawSect f g (fun _ => []) x.2

/-- What `f` finds in the parameters of a calendar and `g` in the values. -/
def rawCal (f : RawParam → List Bytes) (g : RawVal → List Bytes) (c : RawCal) : List Bytes := rawSect f g (rawSect f g (rawSub f g)) c

/-- All texts and parameters that are Go strings. -/
def calStrings (c : RawCal) : List Bytes := rawCal rawParams rawVals c

/-- The name of a time's zone, if it is not UTC and not the local one. -/
def zoneAsIs (O : Octets) (t : GoTime) : List Bytes :=
  match t.loc with
  | .zone n p r => [O.zone (.zone n p r)]
  | _ => []

/-- The octets of a value that do not pass through the escaping of texts: URLs and the names of zones. -/
def valAsIs (O : Octets) : RawVal → List Bytes
  | .other (.calAddress u) => [O.url u]
  | .other (.uri u) => [O.url u]
  | .other (.dateTime t) => zoneAsIs O t
  | .other (.period p) => zoneAsIs O p.start
  | .other (.recur r) => zoneAsIs O r.until_
  | _ => []

/-- The octets of a parameter: all strings and URLs. -/
def paramAsIs (O : Octets) : RawParam → List Bytes
  | .str t => [t]
  | .strs ts => ts
  | .other (.url u) => [O.url u]
  | .other (.urls us) => us.map O.url
  | .other _ => []

/-- The strings of a calendar other than texts: parameters, URLs and the names of zones. -/
def calAsIs (O : Octets) (c : RawCal) : List Bytes := rawCal (paramAsIs O) (valAsIs O) c

/-- The octets are these strings, in this order and as they are, with UTF-8 before, between and after them. -/
inductive Put : List Bytes → Bytes → Prop
  | nil : Put [] []
  | text (s : Str) {ss : List Bytes} {b : Bytes} : Put ss b → Put ss (utf8 s ++ b)
  | str (x : Bytes) {ss : List Bytes} {b : Bytes} : Put ss b → Put (x :: ss) (x ++ b)

end Ics.Spec
