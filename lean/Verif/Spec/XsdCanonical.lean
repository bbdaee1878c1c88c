import Verif.Spec.XsdExpand
import Verif.Spec.Xsd
import Verif.Spec.Wsdl
set_option autoImplicit false

/-! Schemas in canonical form. -/

namespace GoXml.Xsd
open Wsdl

/-- Something that need not occur. -/
def Lackable (e : Element) : Prop := attrNamed e b!"minOccurs" = b!"0"

instance (e : Element) : Decidable (Lackable e) := inferInstanceAs (Decidable (_ = _))

/-- The form that `Normalize` promises: elements and attributes have types, types have names, complex types have
explicit content, there are no references and no groups inside types. Alternatives of choices are optional. -/
structure Canonical (t : Element) : Prop where
  schema : IsXs b!"schema" t
  typed : ∀ x ∈ below t, IsXs b!"attribute" x ∨ IsXs b!"element" x → attrNamed x b!"type" ≠ []
  named : ∀ x ∈ below t, ∀ k ∈ x.children, IsXs b!"complexType" k ∨ IsXs b!"simpleType" k → attrNamed k b!"name" ≠ []
  choices : ∀ c ∈ below t, IsXs b!"choice" c → ∀ s ∈ c.children,
    (IsXs b!"sequence" s → ∀ x ∈ s.children, Lackable x) ∧ (¬ IsXs b!"sequence" s → Lackable s)
  full : ∀ x ∈ below t, ¬ Shorthand x
  noRef : ∀ x ∈ below t, attrNamed x b!"ref" = []
  noGroup : ∀ x ∈ below t, ∀ k ∈ x.children, ¬ IsXs b!"group" k ∧ ¬ IsXs b!"attributeGroup" k

end GoXml.Xsd
