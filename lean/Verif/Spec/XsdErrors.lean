import Verif.Spec.XsdParse
import Verif.Model.XsdErrors
set_option autoImplicit false

/-! What the error of `Parse` should tell (C146). -/

namespace GoXml.Xsd
open Wsdl (attrNamed allNamed below)

/-- The message tells what is wrong with an attribute, the kind or the content of element `e` itself. -/
inductive Wrong (env : ParseEnv) (ee : ErrEnv) (e : Element) : Str → Prop
  | boolean (k : Str) : k = b!"abstract" ∨ k = b!"nillable" ∨ k = b!"mixed" → (∀ b, ¬ BoolText (attrNamed e k) b) →
      Wrong env ee e (b!"Invalid boolean value " ++ attrNamed e k)
  | number (k t : Str) : k = b!"minOccurs" ∨ k = b!"maxOccurs" ∨ k = b!"value" → Malformed (attrNamed e k) →
      Gen.TrimmedTo (attrNamed e k) t → Wrong env ee e (ee.number t)
  | decimal (t : Str) : Gen.TrimmedTo (attrNamed e b!"value") t → t ≠ [] → env.isFloat t = false → Wrong env ee e (ee.float t)
  | date : env.isDate (attrNamed e b!"value") = false → Wrong env ee e (ee.time b!"2006-01-02" (attrNamed e b!"value"))
  | dateTime : env.isDateTime (attrNamed e b!"value") = false →
      Wrong env ee e (ee.time b!"2006-01-02T15:04:05Z07:00" (attrNamed e b!"value"))
  | negative (n : Int) : e.name = ⟨w3cSchemaNS, b!"fractionDigits"⟩ → Means (attrNamed e b!"value") n → n < 0 →
      Wrong env ee e (b!"Invalid fractionDigits value " ++ attrNamed e b!"value")
  | unexpected : e.name.space = w3cSchemaNS →
      e.name.loc ∉ [b!"annotation", b!"simpleContent", b!"complexContent"] ∨
        e.name.loc ∉ [b!"annotation", b!"extension", b!"restriction"] → Wrong env ee e (b!"unexpected element " ++ e.name.loc)
  | annotation : e.name = ⟨w3cSchemaNS, b!"annotation"⟩ → env.annotation e = none → Wrong env ee e (ee.annotation e)

/-- `trail` is a list of elements around `e`, each inside the one before, the first being `top`; it is empty only if `e` is `top`. -/
inductive Trail : Element → List Element → Element → Prop
  | here (e : Element) : Trail e [] e
  | inside {top next e : Element} {trail : List Element} : next ∈ below top → Trail next trail e → Trail top (top :: trail) e

/-- How an element is named in an error: its kind, and its name if it has one. -/
def called (e : Element) : Str :=
  e.name.loc ++ (if attrNamed e b!"name" = [] then [] else b!"(" ++ attrNamed e b!"name" ++ b!")")

/-- The text of an error. -/
def errorText (places : List Str) (msg : Str) : Str :=
  b!"Error at " ++ List.intercalate b!">" places ++ b!": " ++ msg

/-- The definition of a type. -/
def TypeDef (root T : Element) : Prop :=
  T ∈ allNamed root w3cSchemaNS b!"complexType" ∨ T ∈ allNamed root w3cSchemaNS b!"simpleType"

end GoXml.Xsd
