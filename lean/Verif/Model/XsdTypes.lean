import Verif.Model.Builtin
import Verif.Model.GoMap
set_option autoImplicit false

/-! Model of the types in `xsd/xsd.go`. `*SimpleType` and `*ComplexType` are pointers that are shared
and updated in place, so they are indices into a heap. -/

namespace GoXml.Xsd

/-- A non-nil `Type` (xsd/xsd.go:36-39): a `Builtin`, a pointer, or a `linkedType` (xsd/xsd.go:140). -/
inductive Ty where
  | builtin (b : Builtin)
  | obj (id : Nat)
  | link (n : XName)
deriving DecidableEq, Repr

/-- `Element` (xsd/xsd.go:47-73). -/
structure XElem where
  doc : Str := []
  name : XName := ⟨[], []⟩
  wildcard : Bool := false
  type : Ty
  abstract : Bool := false
  plural : Bool := false
  optional : Bool := false
  nillable : Bool := false
  dflt : Str := []
  attr : List Attr := []
  scope : Scope := []
deriving DecidableEq, Repr

/-- `Attribute` (xsd/xsd.go:80-98). -/
structure XAttr where
  name : XName := ⟨[], []⟩
  doc : Str := []
  type : Ty
  plural : Bool := false
  dflt : Str := []
  optional : Bool := false
  attr : List Attr := []
  scope : Scope := []
deriving DecidableEq, Repr

/-- `Restriction` (xsd/xsd.go:219-240). Simplification: numbers and dates that come from
`strconv.ParseFloat` and `time.Parse` are kept as the text they were parsed from (empty for zero), and
a compiled pattern is kept as its source. -/
structure Restriction where
  precision : Int := 0
  enum : List Str := []
  min : Str := []
  max : Str := []
  length : Int := 0
  minLength : Int := 0
  maxLength : Int := 0
  minDate : Str := []
  maxDate : Str := []
  pattern : Option Str := none
  totalDigits : Int := 0
  doc : Str := []
deriving DecidableEq, Repr

/-- `SimpleType` (xsd/xsd.go:190-211). -/
structure SimpleT where
  anonymous : Bool := false
  list : Bool := false
  union : List Ty := []
  restriction : Restriction := {}
  name : XName := ⟨[], []⟩
  doc : Str := []
  base : Option Ty := none
deriving DecidableEq, Repr

/-- `ComplexType` (xsd/xsd.go:152-175). -/
structure ComplexT where
  doc : Str := []
  name : XName := ⟨[], []⟩
  base : Option Ty := none
  anonymous : Bool := false
  elements : List XElem := []
  attributes : List XAttr := []
  abstract : Bool := false
  extends_ : Bool := false
  mixed : Bool := false
deriving DecidableEq, Repr

/-- What a pointer points to. -/
inductive TObj where
  | simple (s : SimpleT)
  | complex (c : ComplexT)
deriving DecidableEq, Repr

abbrev THeap := List TObj

/-- The name of an object. -/
def TObj.name : TObj → XName
  | .simple s => s.name
  | .complex c => c.name

/-- The base of an object. -/
def TObj.base : TObj → Option Ty
  | .simple s => s.base
  | .complex c => c.base

/-- `XMLName` (xsd/xsd.go:293-305). Pointers that point nowhere do not occur in Go. -/
def xmlName (H : THeap) : Ty → XName
  | .builtin b => builtinName b
  | .obj id => match H[id]? with
    | some o => o.name
    | none => ⟨[], []⟩
  | .link n => n

/-- `Base` (xsd/xsd.go:309-321); `none` is nil. -/
def baseOf (H : THeap) : Ty → Option Ty
  | .builtin _ => none
  | .obj id => match H[id]? with
    | some o => o.base
    | none => none
  | .link _ => none

/-- `Schema` (xsd/xsd.go:103-112); the field `Doc` is never set. -/
structure Schema where
  targetNS : Str := []
  types : GoMap XName Ty := []

/-- `findType` (xsd/xsd.go:126-134) with at most `fuel` calls. The outer `none` means that it is
still running, the inner one is a nil result. -/
def findType (H : THeap) (name : XName) : Nat → Ty → Option (Option Ty)
  | 0, _ => none
  | fuel + 1, t =>
    if xmlName H t = name then some (some t)
    else match baseOf H t with
      | some b => findType H name fuel b
      | none => some none

/-- `Schema.FindType` (xsd/xsd.go:117-124), for the entries in the order in which they are visited. -/
def findTypeIn (H : THeap) (name : XName) (fuel : Nat) : List (XName × Ty) → Option (Option Ty)
  | [] => some none
  | e :: es => match findType H name fuel e.2 with
    | none => none
    | some (some t) => some (some t)
    | some none => findTypeIn H name fuel es

end GoXml.Xsd
