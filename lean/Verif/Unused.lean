import Verif.Tables
/-!
# Model of the types of params.go and properties.go that no component uses

They have the shapes of the others, but for two enumerations of parameters without an unknown value.
-/

namespace Ics

/-- `ParamTimezoneID` (params.go:904-943). -/
def paramTimezoneID : PDef := ⟨c!"TZID", .str false⟩

/-- `ParamValue` (params.go:946-1053). -/
def paramValue : PDef := ⟨c!"VALUE", .enum [c!"BINARY", c!"BOOLEAN", c!"CAL-ADDRESS", c!"DATE", c!"DATE-TIME", c!"DURATION", c!"FLOAT", c!"INTEGER",
  c!"PERIOD", c!"RECUR", c!"TEXT", c!"TIME", c!"URI", c!"UTC-OFFSET"]⟩

/-- `PropAction` (properties.go:14-67). -/
def propAction : PSpec := ⟨c!"ACTION", .enum [c!"AUDIO", c!"DISPLAY", c!"EMAIL"]⟩

/-- `PropCalendarScale` (properties.go:485-528). -/
def propCalendarScale : PSpec := ⟨c!"CALSCALE", .enum [c!"GREGORIAN"]⟩

/-- `PropMethod` (properties.go:1925-1978). -/
def propMethod : PSpec := ⟨c!"METHOD", .fields [] [([], .text)]⟩

/-- An enumeration of a parameter without an unknown value.  params.go:303-353, 654-704, 955-1050. -/
structure ClosedEnum where
  name : Str
  names : List Str

/-- `ParamEncoding` (params.go:303-353). -/
def paramEncoding : ClosedEnum := ⟨c!"ENCODING", [c!"8BIT", c!"BASE64"]⟩

/-- `ParamRelated` (params.go:654-704). -/
def paramRelated : ClosedEnum := ⟨c!"RELATED", [c!"START", c!"END"]⟩

/-- `ParamEncoding.decode` and `ParamRelated.decode` (params.go:317-332, 668-683). -/
def ClosedEnum.decode (t : ClosedEnum) (vs : List PVal) : Res Nat := do
  let v ← oneVal vs
  Res.ofOption .invalidParam (indexOf (upper v.data) t.names)

/-- `ParamEncoding.encode` and `ParamRelated.encode` (params.go:334-343, 685-694): nothing is written behind the equals sign for other numbers. -/
def ClosedEnum.encode (t : ClosedEnum) (n : Nat) : Str := ';' :: t.name ++ '=' :: t.names.getD n []

/-- `ParamEncoding.valid` and `ParamRelated.valid` (params.go:345-353, 696-704). -/
def ClosedEnum.valid (t : ClosedEnum) (n : Nat) : Res Unit := Res.guard .invalidValue (n < t.names.length)

end Ics
