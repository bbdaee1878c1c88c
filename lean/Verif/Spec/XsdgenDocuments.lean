import Verif.Spec.XsdSchema
import Verif.Spec.XsdgenName
set_option autoImplicit false

/-! What schemas have to be like for the types that `Parse` makes of them to meet the conditions of the theorems about
xsdgen and wsdlgen. -/

namespace GoXml.Xsd
open Wsdl (attrNamed allNamed below defines refersTo)

/-- The names of the types of a schema: those that are defined there, and that of the document. -/
def typeNames (root : Element) : List XName := (typeDecls root).map (defines (target root)) ++ [selfName root]

/-- Schemas that do not get in each other's way. -/
structure Orderly (roots : List Element) : Prop where
  /-- They have different target namespaces. -/
  targets : (roots.map target).Nodup
  /-- No schema defines a type twice, or one that is named like the document. -/
  types : ∀ r ∈ roots, (typeNames r).Nodup
  /-- Types and top-level elements belong to the target namespace. -/
  spaces : ∀ r ∈ roots, ∀ n, n ∈ typeNames r ∨ Alias r n → n.space = target r
  /-- Without a target namespace, there is no default namespace either. -/
  unnamed : ∀ r ∈ roots, target r = [] → Wsdl.denoted r.scope b!"_self" = selfName r
  /-- No type and no top-level element is named like a built-in type. -/
  own : ∀ r ∈ roots, ∀ n, n ∈ typeNames r ∨ Alias r n → ∀ b, n ≠ builtinName b
  /-- No top-level element is named like the document or has its type. -/
  elements : ∀ r ∈ roots, ∀ el ∈ r.children, el.name = ⟨w3cSchemaNS, b!"element"⟩ →
    (defines (target r) el).loc ≠ b!"_self" ∧ (refersTo el b!"type").loc ≠ b!"_self"

/-- A part of the definition of a simple type that says what the type is based on: it is a restriction, a list, or the
union of some types. -/
def GivesBase (c : Element) : Prop :=
  c.name = ⟨w3cSchemaNS, b!"restriction"⟩ ∨ c.name = ⟨w3cSchemaNS, b!"list"⟩ ∨
  (c.name = ⟨w3cSchemaNS, b!"union"⟩ ∧ ∃ x ∈ attrNamed c b!"memberTypes", x ∉ ([9, 10, 11, 12, 13, 32] : Str))

/-- Schemas that refer to types as they should. -/
structure Regular (roots : List Element) : Prop where
  /-- Every simple type is based on something. -/
  based : ∀ r ∈ roots, ∀ d ∈ allNamed r w3cSchemaNS b!"simpleType", ∃ c ∈ d.children, GivesBase c
  /-- Nothing refers to the type of a document. -/
  quiet : ∀ r ∈ roots, ∀ d ∈ below r, ∀ a ∈ [b!"type", b!"base", b!"itemType"], (refersTo d a).loc ≠ b!"_self"
  /-- No type is derived from a type that the package `xsd` has for an attribute of XML, like `xMLLang`. -/
  derived : ∀ r ∈ roots, ∀ d ∈ below r, ∀ a ∈ [b!"base", b!"itemType"], (refersTo d a).space ≠ b!"http://www.w3.org/2009/01/xml.xsd"
  /-- No top-level element has such a type. -/
  typed : ∀ r ∈ roots, ∀ el ∈ r.children, (refersTo el b!"type").space ≠ b!"http://www.w3.org/2009/01/xml.xsd"

end GoXml.Xsd
