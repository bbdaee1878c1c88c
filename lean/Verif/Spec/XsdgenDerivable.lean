import Verif.Spec.XsdgenDocuments
import Verif.Spec.XsdgenSucceeds
import Verif.Spec.XsdParse
import Verif.Spec.XsdDecls
set_option autoImplicit false

/-! What schemas have to say about their types for code to be generated for them (C153). -/

namespace GoXml.Xsd
open Wsdl (attrNamed allNamed below defines refersTo)

/-- A definition of a type says that the type is derived from the type of this name, or that it is a list of such items. The values of a union are of
any simple type. -/
inductive DerivesFrom (e : Element) : XName → Prop
  | content (c d : Element) : c ∈ e.children → c.name = ⟨w3cSchemaNS, b!"complexContent"⟩ ∨ c.name = ⟨w3cSchemaNS, b!"simpleContent"⟩ → d ∈ c.children →
      d.name = ⟨w3cSchemaNS, b!"extension"⟩ ∨ d.name = ⟨w3cSchemaNS, b!"restriction"⟩ → DerivesFrom e (refersTo d b!"base")
  | restriction (c : Element) : c ∈ e.children → c.name = ⟨w3cSchemaNS, b!"restriction"⟩ → DerivesFrom e (refersTo c b!"base")
  | list (c : Element) : c ∈ e.children → c.name = ⟨w3cSchemaNS, b!"list"⟩ → DerivesFrom e (refersTo c b!"itemType")
  | union (c : Element) : c ∈ e.children → c.name = ⟨w3cSchemaNS, b!"union"⟩ → DerivesFrom e ⟨w3cSchemaNS, b!"anySimpleType"⟩

/-- By the definitions in the schemas, the second name is the first, or that of a type that it is derived from. -/
inductive ComesFrom (roots : List Element) : XName → XName → Prop
  | self (n : XName) : ComesFrom roots n n
  | step {r e : Element} {m n : XName} : r ∈ roots → e ∈ typeDecls r → DerivesFrom e m → ComesFrom roots m n → ComesFrom roots (defines (target r) e) n

/-- Schemas whose types are derived from built-in types. -/
structure Grounded (roots : List Element) : Prop where
  /-- Every complex type has content of one kind, given by an extension or a restriction. -/
  shaped : ∀ r ∈ roots, ∀ e ∈ allNamed r w3cSchemaNS b!"complexType", ∃ el, ContentModel e el ∨ SimpleModel e el
  /-- Nothing has a type that the package `xsd` has for an attribute of XML. -/
  typed : ∀ r ∈ roots, ∀ d ∈ below r, (refersTo d b!"type").space ≠ b!"http://www.w3.org/2009/01/xml.xsd"
  /-- No type is derived from itself. -/
  founded : ∀ r ∈ roots, ∀ e ∈ typeDecls r, ∀ m, DerivesFrom e m → ¬ ComesFrom roots m (defines (target r) e)

/-- A simple type is a list of items of a type that xsdgen makes no lists of. -/
def Unlisted (roots : List Element) (r e : Element) : Prop :=
  r ∈ roots ∧ e ∈ allNamed r w3cSchemaNS b!"simpleType" ∧ (∃ c ∈ e.children, c.name = ⟨w3cSchemaNS, b!"list"⟩) ∧
    ∃ loc ∈ Xsdgen.unlisted, ComesFrom roots (defines (target r) e) ⟨w3cSchemaNS, loc⟩

/-- Schemas whose types are derived as they should be, for xsdgen. -/
structure Derivable (roots : List Element) : Prop extends Grounded roots where
  /-- The items of lists are of types that xsdgen makes lists of. -/
  listed : ∀ r e, ¬ Unlisted roots r e

instance (roots : List Element) : Coe (Derivable roots) (Grounded roots) := ⟨fun h => h.toGrounded⟩

end GoXml.Xsd
