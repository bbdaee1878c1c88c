import Verif.Model.XsdPipeline
import Verif.Model.GenSource
set_option autoImplicit false

/-! Model of the errors that `Parse` returns for types it cannot read (xsd/walk.go:12-60, and the calls of `stop` in xsd/parse.go).
Each function here follows the one of `Model/XsdParse.lean` whose failure it explains: it returns what the panic carries, or `none`
if there is no panic. What a type was made of so far has no influence on that. -/

namespace GoXml.Xsd
open Wsdl (searchEl)

/-- The texts of errors from elsewhere: of `xmltree.Unmarshal` for an annotation, `strconv.Atoi`, `strconv.ParseFloat`, and
`time.Parse` with the format. -/
structure ErrEnv where
  annotation : Element → Str
  number : Str → Str
  float : Str → Str
  time : Str → Str → Str

/-- `parseError` (xsd/walk.go:13-16). -/
structure Fault where
  message : Str
  path : List Element

/-- `stop` (xsd/walk.go:30-32). -/
def stop (msg : Str) : Option Fault := some ⟨msg, []⟩

/-- One of the `breadcrumbs` (xsd/walk.go:21-24). -/
def crumb (e : Element) : Str :=
  if e.attr [] b!"name" ≠ [] then e.name.loc ++ b!"(" ++ e.attr [] b!"name" ++ b!")" else e.name.loc

/-- `parseError.Error` (xsd/walk.go:18-28). -/
def Fault.text (f : Fault) : Str :=
  b!"Error at " ++ Gen.joinWith b!">" (f.path.reverse.map crumb) ++ b!": " ++ f.message

/-- The first panic in a loop. -/
def firstFault {α : Type} (f : α → Option Fault) : List α → Option Fault
  | [] => none
  | x :: xs => match f x with
    | some e => some e
    | none => firstFault f xs

/-- `walk` (xsd/walk.go:34-53). -/
def walkFault (f : Element → Option Fault) (root : Element) : Option Fault :=
  (firstFault (fun e => if e.name.space ≠ schemaNS then none else f e) root.children).map fun x =>
    { x with path := x.path ++ [root] }

/-- `parseInt` (xsd/parse.go:755-768). -/
def intFault (ee : ErrEnv) (s : Str) : Option Fault :=
  match parseInt s with
  | none => stop (ee.number (trimSpace s))
  | some _ => none

/-- `parseDecimal` (xsd/parse.go:771-782). -/
def decimalFault (env : ParseEnv) (ee : ErrEnv) (s : Str) : Option Fault :=
  match parseDecimal env s with
  | none => stop (ee.float (trimSpace s))
  | some _ => none

/-- `parseBool` (xsd/parse.go:784-793). -/
def boolFault (s : Str) : Option Fault :=
  match parseBool s with
  | none => stop (b!"Invalid boolean value " ++ s)
  | some _ => none

/-- `parsePlural` (xsd/parse.go:795-802). -/
def pluralFault (ee : ErrEnv) (el : Element) : Option Fault :=
  match parseInt (el.attr [] b!"minOccurs") with
  | none => intFault ee (el.attr [] b!"minOccurs")
  | some min => if min > 1 then none else intFault ee (el.attr [] b!"maxOccurs")

/-- `parseAnnotation` (xsd/parse.go:905-910). -/
def annotationFault (env : ParseEnv) (ee : ErrEnv) (el : Element) : Option Fault :=
  match env.annotation el with
  | none => stop (ee.annotation el)
  | some _ => none

/-- The loops over annotations (xsd/parse.go:837-841 and 865-869). -/
def docsFault (env : ParseEnv) (ee : ErrEnv) (el : Element) : Option Fault :=
  walkFault (fun c => if c.name.loc = b!"annotation" then annotationFault env ee c else none) el

/-- `parseElement` (xsd/parse.go:817-848). -/
def elementFault (env : ParseEnv) (ee : ErrEnv) (el : Element) : Option Fault :=
  (boolFault (el.attr [] b!"abstract")).or ((boolFault (el.attr [] b!"nillable")).or ((pluralFault ee el).or
    ((if el.attr [] b!"minOccurs" ≠ [] then intFault ee (el.attr [] b!"minOccurs") else none).or (docsFault env ee el))))

/-- The case of an extension or restriction in `parseComplexContent` (xsd/parse.go:703-726). -/
def derivationFault (env : ParseEnv) (ee : ErrEnv) (el : Element) : Option Fault :=
  (firstFault (pluralFault ee) ((searchEl el schemaNS b!"any").take 1)).or
    ((firstFault (elementFault env ee) (searchEl el schemaNS b!"element")).or
      (firstFault (docsFault env ee) (searchEl el schemaNS b!"attribute")))

/-- `parseComplexContent` (xsd/parse.go:697-736). -/
def complexContentFault (env : ParseEnv) (ee : ErrEnv) (root : Element) : Option Fault :=
  (if root.attr [] b!"mixed" ≠ [] then boolFault (root.attr [] b!"mixed") else none).or
    (walkFault (fun el =>
      if el.name.loc = b!"extension" then derivationFault env ee el
      else if el.name.loc = b!"restriction" then derivationFault env ee el
      else if el.name.loc = b!"annotation" then annotationFault env ee el
      else stop (b!"unexpected element " ++ el.name.loc)) root)

/-- `parseSimpleContent` (xsd/parse.go:674-693). -/
def simpleContentFault (env : ParseEnv) (ee : ErrEnv) (root : Element) : Option Fault :=
  walkFault (fun el =>
    if el.name.loc = b!"annotation" then annotationFault env ee el
    else if el.name.loc = b!"restriction" then none
    else if el.name.loc = b!"extension" then firstFault (docsFault env ee) (searchEl el schemaNS b!"attribute")
    else none) root

/-- `parseComplexType` (xsd/parse.go:646-670). -/
def complexTypeFault (env : ParseEnv) (ee : ErrEnv) (root : Element) : Option Fault :=
  (boolFault (root.attr [] b!"abstract")).or ((boolFault (root.attr [] b!"mixed")).or
    (walkFault (fun el =>
      if el.name.loc = b!"annotation" then annotationFault env ee el
      else if el.name.loc = b!"simpleContent" then simpleContentFault env ee el
      else if el.name.loc = b!"complexContent" then complexContentFault env ee el
      else stop (b!"unexpected element " ++ el.name.loc)) root))

/-- `parseMinMaxRestriction` (xsd/parse.go:967-1005). -/
def minMaxFault (env : ParseEnv) (ee : ErrEnv) (base : Ty) (el : Element) : Option Fault :=
  let v := el.attr [] b!"value"
  match base with
  | .builtin b =>
    if b = 16 then (if env.isDate v then none else stop (ee.time b!"2006-01-02" v))
    else if b = 17 then (if env.isDateTime v then none else stop (ee.time b!"2006-01-02T15:04:05Z07:00" v))
    else decimalFault env ee v
  | .link _ =>
    if env.isDate v then none
    else if env.isDateTime v then none
    else decimalFault env ee v
  | .obj _ => decimalFault env ee v

/-- The body of the loop of `parseSimpleRestriction` (xsd/parse.go:920-961). -/
def facetFault (env : ParseEnv) (ee : ErrEnv) (base : Ty) (el : Element) : Option Fault :=
  let v := el.attr [] b!"value"
  let k := el.name.loc
  if k = b!"enumeration" then none
  else if k = b!"minExclusive" ∨ k = b!"minInclusive" then minMaxFault env ee base el
  else if k = b!"maxExclusive" ∨ k = b!"maxInclusive" then minMaxFault env ee base el
  else if k = b!"length" then intFault ee v
  else if k = b!"maxLength" then intFault ee v
  else if k = b!"minLength" then intFault ee v
  else if k = b!"pattern" then none
  else if k = b!"fractionDigits" then
    match parseInt v with
    | none => intFault ee v
    | some n => if n < 0 then stop (b!"Invalid fractionDigits value " ++ v) else none
  else if k = b!"annotation" then annotationFault env ee el
  else if k = b!"totalDigits" then intFault ee v
  else none

/-- `parseSimpleType` (xsd/parse.go:877-903) with `parseSimpleRestriction` (xsd/parse.go:912-964). -/
def simpleTypeFault (env : ParseEnv) (ee : ErrEnv) (root : Element) : Option Fault :=
  walkFault (fun el =>
    if el.name.loc = b!"restriction" then
      walkFault (facetFault env ee (parseType (resolve el.scope (el.attr [] b!"base")))) el
    else if el.name.loc = b!"list" then none
    else if el.name.loc = b!"union" then none
    else if el.name.loc = b!"annotation" then annotationFault env ee el
    else none) root

/-- `parseTypes` (xsd/parse.go:612-626), with `catchParseError` (xsd/walk.go:56-60). -/
def typesFault (env : ParseEnv) (ee : ErrEnv) (root : Element) : Option Fault :=
  (firstFault (complexTypeFault env ee) (searchEl root schemaNS b!"complexType")).or
    ((firstFault (simpleTypeFault env ee) (searchEl root schemaNS b!"simpleType")).or (complexTypeFault env ee (selfTree root)))

/-- The error that the first loop of `Parse` (xsd/parse.go:147-154) returns, for documents that can be normalized. -/
def parseFault (grow : Nat → Nat → Nat) (n : Nat) (env : ParseEnv) (ee : ErrEnv) (docs : List Element) : Option Fault :=
  (normalize grow n docs).bind (firstFault (typesFault env ee))

end GoXml.Xsd
