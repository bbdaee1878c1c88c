import Verif.Spec.XsdResolve
import Verif.Spec.Wsdl
set_option autoImplicit false

/-! Specifications for sets of schemas (C37, C38, C40, C72). -/

namespace GoXml.Xsd
open Wsdl (attrNamed allNamed below defines refersTo)

/-- The target namespace of a schema. -/
def target (root : Element) : Str := attrNamed root b!"targetNamespace"

/-- The type declarations of a schema, complex types first. -/
def typeDecls (root : Element) : List Element :=
  allNamed root w3cSchemaNS b!"complexType" ++ allNamed root w3cSchemaNS b!"simpleType"

/-- The name of the type that stands for the document itself. -/
def selfName (root : Element) : XName := ⟨target root, b!"_self"⟩

/-- `n` is the name of a top-level element that has a name and a type attribute. -/
def Alias (root : Element) (n : XName) : Prop :=
  ∃ el ∈ root.children, el.name = ⟨w3cSchemaNS, b!"element"⟩ ∧ n = defines (target root) el ∧
    n.loc ≠ [] ∧ (refersTo el b!"type").loc ≠ []

/-- `o` is `o0` after links have been replaced and the flag for mixed content may have changed. -/
def Evolved (o0 o : TObj) : Prop := ∃ (f : Ty → Ty) (m : Bool), (∀ t, t.isLink = false → f t = t) ∧ o = (o0.mapTy f).withMixed m

/-- A schema has a type of this name. The type `_self` has the name that `_self` denotes. -/
def HasType (root : Element) (n : XName) : Prop :=
  (∃ e ∈ typeDecls root, n = defines (target root) e) ∨
  n = (if target root ≠ [] then selfName root else Wsdl.denoted root.scope b!"_self")

/-- A schema names a type: as the base or item type of another, as the type of a top-level element, or
as the base of `_self`. -/
def NamesType (root : Element) (n : XName) : Prop :=
  (∃ d ∈ below root, n = refersTo d b!"base" ∨ n = refersTo d b!"itemType") ∨
  (∃ el ∈ root.children, el.name = ⟨w3cSchemaNS, b!"element"⟩ ∧ n = refersTo el b!"type") ∨
  n = Wsdl.denoted root.scope (prefixOf root.scope ⟨w3cSchemaNS, b!"anyType"⟩)

/-- No schema names a type of a later one. -/
def InOrder (roots : List Element) : Prop :=
  ∀ (i j : Nat) r r', i < j → roots[i]? = some r → roots[j]? = some r' → ∀ n, NamesType r n → ¬ HasType r' n

end GoXml.Xsd
