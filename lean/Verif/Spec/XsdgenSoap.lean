import Verif.Model.XsdgenConfig
import Verif.Spec.XmlTree
set_option autoImplicit false

/-! SOAP arrays, as declared in a schema. -/

namespace GoXml.Xsdgen
open Xsd

/-- The attribute `arrayType` in the namespace of WSDL. -/
def wsdlArrayType : XName := ⟨b!"http://schemas.xmlsoap.org/wsdl/", b!"arrayType"⟩

/-- The attribute declaration says that the items are of type `item`: `wsdl:arrayType="p:l[]"`, where the
prefix `p` stands for the namespace of `item`. -/
def DeclaresItems (v : XAttr) (item : XName) : Prop :=
  v.name.loc = b!"arrayType" ∧ ∃ (as bs : List Attr) (q p : Str),
    v.attr = as ++ ⟨wsdlArrayType, q ++ b!"[]"⟩ :: bs ∧ (∀ a ∈ as, a.name ≠ wsdlArrayType) ∧
    QNameParts q p item.loc ∧ p ≠ b!"xml" ∧ p ≠ b!"xmlns" ∧ Innermost v.scope p item.space ∧
    item.loc ≠ [] ∧ ∀ c ∈ item.loc, isSpace c = false

/-- The first wildcard among the elements of a type, and then of the types it is derived from, at
most `k` steps up. -/
inductive FirstWildcard (H : THeap) : Nat → Ty → XElem → Prop
  | here {k id : Nat} {c : ComplexT} {b : Ty} {as bs : List XElem} {e : XElem} :
      H[id]? = some (.complex c) → c.base = some b → c.elements = as ++ e :: bs → (∀ x ∈ as, x.wildcard = false) →
      e.wildcard = true → FirstWildcard H k (.obj id) e
  | up {k id : Nat} {c : ComplexT} {b : Ty} {e : XElem} :
      H[id]? = some (.complex c) → c.base = some b → (∀ x ∈ c.elements, x.wildcard = false) →
      FirstWildcard H k b e → FirstWildcard H (k + 1) (.obj id) e

/-- The declaration is a struct with one field, a slice of `elt`, made from a complex type whose first wildcard
is of a type named `item`. -/
def ArrayDecl (H : THeap) (s : Spec) (elt : GoExpr) (item : XName) : Prop :=
  ∃ (name tag : Str) (id : Nat) (c : ComplexT) (as bs : List XElem) (e : XElem),
    s.expr = .struct [⟨name, .array elt, tag⟩] ∧ s.xsdType = .obj id ∧ H[id]? = some (.complex c) ∧ c.elements = as ++ e :: bs ∧
    (∀ x ∈ as, x.wildcard = false) ∧ e.wildcard = true ∧ xmlName H e.type = item ∧ item ≠ ⟨[], []⟩

end GoXml.Xsdgen
