import Verif.Spec.Xsdgen
import Verif.Model.XsdgenSpec
set_option autoImplicit false

/-! Vocabulary for the theorems about generated declarations. -/

namespace GoXml.Xsdgen
open Xsd

/-- The Go types of the built-in types of XML Schema. -/
def goTypes : List (Str × Str) :=
  [(b!"anyType", b!"string"), (b!"anySimpleType", b!"string"), (b!"string", b!"string"), (b!"normalizedString", b!"string"),
   (b!"token", b!"string"), (b!"language", b!"string"), (b!"Name", b!"string"), (b!"NCName", b!"string"), (b!"ID", b!"string"),
   (b!"IDREF", b!"string"), (b!"IDREFS", b!"[]string"), (b!"ENTITY", b!"string"), (b!"ENTITIES", b!"[]string"),
   (b!"NMTOKEN", b!"string"), (b!"NMTOKENS", b!"[]string"), (b!"NOTATION", b!"[]string"), (b!"QName", b!"xml.Name"),
   (b!"anyURI", b!"string"), (b!"duration", b!"string"), (b!"boolean", b!"bool"),
   (b!"base64Binary", b!"[]byte"), (b!"hexBinary", b!"[]byte"),
   (b!"decimal", b!"float64"), (b!"double", b!"float64"), (b!"float", b!"float32"),
   (b!"byte", b!"byte"), (b!"short", b!"int"), (b!"int", b!"int"), (b!"long", b!"int64"), (b!"integer", b!"int"),
   (b!"nonPositiveInteger", b!"int"), (b!"negativeInteger", b!"int"), (b!"nonNegativeInteger", b!"int"),
   (b!"positiveInteger", b!"int"), (b!"unsignedByte", b!"byte"), (b!"unsignedShort", b!"uint"), (b!"unsignedInt", b!"uint"),
   (b!"unsignedLong", b!"uint64"),
   (b!"date", b!"time.Time"), (b!"dateTime", b!"time.Time"), (b!"time", b!"time.Time"), (b!"gDay", b!"time.Time"),
   (b!"gMonth", b!"time.Time"), (b!"gMonthDay", b!"time.Time"), (b!"gYear", b!"time.Time"), (b!"gYearMonth", b!"time.Time")]

/-- The four attributes of the xml namespace. -/
def xmlAttrs : List Str := [b!"lang", b!"space", b!"base", b!"id"]

/-- The smallest and largest values of the integer types of XML Schema; `none` is no bound. -/
def xsdRange : List (Str × Option Int × Option Int) :=
  [(b!"byte", some (-128), some 127), (b!"short", some (-32768), some 32767),
   (b!"int", some (-2147483648), some 2147483647), (b!"long", some (-9223372036854775808), some 9223372036854775807),
   (b!"unsignedByte", some 0, some 255), (b!"unsignedShort", some 0, some 65535), (b!"unsignedInt", some 0, some 4294967295),
   (b!"unsignedLong", some 0, some 18446744073709551615), (b!"integer", none, none), (b!"nonPositiveInteger", none, some 0),
   (b!"negativeInteger", none, some (-1)), (b!"nonNegativeInteger", some 0, none), (b!"positiveInteger", some 1, none)]

/-- An integer is a value of a type of XML Schema with the range given. -/
def InRange (r : Option Int × Option Int) (i : Int) : Prop := (∀ m, r.1 = some m → m ≤ i) ∧ (∀ m, r.2 = some m → i ≤ m)

/-- The smallest and largest values of the integer types of Go on a 64 bit machine. -/
def goRange : List (Str × Int × Int) :=
  [(b!"byte", 0, 255), (b!"int", -9223372036854775808, 9223372036854775807), (b!"int64", -9223372036854775808, 9223372036854775807),
   (b!"uint", 0, 18446744073709551615), (b!"uint64", 0, 18446744073709551615)]

/-- The field of an element: a slice if the element may occur more than once, tagged with its name and
namespace, or `any` for a wildcard. The items of a wildcard of any type are strings. -/
def ElemField (env : Env) (cfg : Config) (H : THeap) (el : XElem) (f : Field) : Prop :=
  ∃ item, exprOf env cfg H el.type = .ok item ∧
    (let item := if el.wildcard = true ∧ el.type = .builtin AnyType then GoExpr.ident b!"string" else item
     f.type = if el.plural then .array item else item) ∧
    (el.wildcard = true → f.tag = b!"xml:\",any\"" ∧ f.name = (if el.plural then b!"Items" else b!"Item")) ∧
    (el.wildcard = false → el.optional = true ∨ el.nillable = true →
      f.tag = b!"xml:\"" ++ el.name.space ++ b!" " ++ el.name.loc ++ b!",omitempty\"") ∧
    (el.wildcard = false → el.optional = false ∧ el.nillable = false →
      f.tag = b!"xml:\"" ++ el.name.space ++ b!" " ++ el.name.loc ++ b!"\"")

/-- The field of an attribute: tagged with its name, and with its namespace if it is declared qualified. -/
def AttrField (env : Env) (cfg : Config) (H : THeap) (a : XAttr) (f : Field) : Prop :=
  exprOf env cfg H a.type = .ok f.type ∧
  ∃ ns, ((∃ x ∈ a.attr, x.name = ⟨[], b!"form"⟩ ∧ x.value = b!"qualified") → ns = a.name.space ++ b!" ") ∧
    ((∀ x ∈ a.attr, x.name = ⟨[], b!"form"⟩ → x.value ≠ b!"qualified") → ns = []) ∧
    f.tag = b!"xml:\"" ++ ns ++ a.name.loc ++ (if a.optional then b!",attr,omitempty\"" else b!",attr\"")

/-- The field for text: at most one. -/
def TextField (fs : List Field) : Prop := fs = [] ∨ ∃ f, fs = [f] ∧ f.tag = b!"xml:\",chardata\""

/-- How names of fields are chosen, for fields after some that have names already: the Go name of the element or
attribute, with something appended if one before it has this name. -/
def NamedInTurn (env : Env) (cfg : Config) (suffix : Str → Prop) : List Str → List XName → List Str → Prop
  | _, [], [] => True
  | before, n :: ns, f :: fs => (publicName env cfg n ∉ before → f = publicName env cfg n) ∧
      (publicName env cfg n ∈ before → ∃ x, suffix x ∧ f = publicName env cfg n ++ x) ∧ NamedInTurn env cfg suffix (before ++ [f]) ns fs
  | _, _, _ => False

end GoXml.Xsdgen
