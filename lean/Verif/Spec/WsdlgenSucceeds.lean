import Verif.Spec.WsdlgenFile
import Verif.Spec.XsdgenSucceeds
import Verif.Spec.XsdLinked
set_option autoImplicit false

/-! Operations that wsdlgen can generate functions for. -/

namespace GoXml.Wsdl
open Xsd Xsdgen

/-- The part names a type, or an element that a schema declares at the top level. -/
def Described (schemas : List Schema) (H : THeap) (p : Part) : Prop :=
  p.type.loc ≠ [] ∨ p.element.loc ≠ [] ∧ ∃ t, Declares schemas H p.element t

/-- The operation has an input and an output, whose messages are in the document and have described parts. -/
def Answered (d : Definition) (schemas : List Schema) (H : THeap) (op : Operation) : Prop :=
  ∃ i o, d.message.get op.input = some i ∧ d.message.get op.output = some o ∧ ∀ p ∈ i.parts ++ o.parts, Described schemas H p

/-- The part names a type, or an element that a schema document declares at the top level, with a type that is built in or from the same namespace. -/
def DescribedIn (roots : List Element) (p : Part) : Prop :=
  p.type.loc ≠ [] ∨ p.element.loc ≠ [] ∧ ∃ r ∈ roots, p.element.space = target r ∧ ∃ v ∈ r.children, v.name = ⟨w3cSchemaNS, b!"element"⟩ ∧
    defines (target r) v = p.element ∧ Homely (target r) v

/-- The operation has an input and an output, whose messages are in the document and have parts that the schema documents describe. -/
def AnsweredIn (d : Definition) (roots : List Element) (op : Operation) : Prop :=
  ∃ i o, d.message.get op.input = some i ∧ d.message.get op.output = some o ∧ ∀ p ∈ i.parts ++ o.parts, DescribedIn roots p

end GoXml.Wsdl
