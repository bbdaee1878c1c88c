import Verif.Spec.XsdErrors
import Verif.Spec.XsdSchema
import Verif.Model.XsdMissing
set_option autoImplicit false

/-! What the error for a type that is not defined should tell (C147). -/

namespace GoXml.Xsd
open Wsdl (attrNamed denoted)

/-- `text` tells that type `o` refers to `n`, and where. -/
inductive TellsUse (quote : Str → Str) : TObj → XName → Str → Prop
  | base {c : ComplexT} {n : XName} : c.base = some (.link n) →
      TellsUse quote (.complex c) n (b!"complexType " ++ c.name.loc ++ b!": could not find base type " ++ n.loc ++ b!" in namespace " ++ n.space)
  | element {c : ComplexT} {n : XName} {e : XElem} : e ∈ c.elements → e.type = .link n →
      TellsUse quote (.complex c) n (b!"complexType " ++ c.name.loc ++ b!": could not find type " ++ quote n.loc ++ b!" in namespace " ++ n.space ++
        b!" for element " ++ e.name.loc)
  | attr {c : ComplexT} {n : XName} {a : XAttr} : a ∈ c.attributes → a.type = .link n →
      TellsUse quote (.complex c) n (b!"complexType " ++ c.name.loc ++ b!": could not find type " ++ n.loc ++ b!" in namespace " ++ n.space ++
        b!" for attribute " ++ a.name.loc)
  | simpleBase {s : SimpleT} {n : XName} : s.base = some (.link n) →
      TellsUse quote (.simple s) n (b!"simpleType " ++ s.name.loc ++ b!": could not find base type " ++ n.loc ++ b!" in namespace " ++ n.space)
  | member {s : SimpleT} {n : XName} : Ty.link n ∈ s.union →
      TellsUse quote (.simple s) n (b!"simpleType " ++ s.name.loc ++ b!": could not find union memberType " ++ n.loc ++ b!" in namespace " ++ n.space)

/-- `x` tells that a top-level element has type `n`. -/
def TellsElement (tns : Str) (root : Element) (n : XName) (x : Str) : Prop :=
  ∃ el ∈ root.children, el.name = ⟨w3cSchemaNS, b!"element"⟩ ∧ n = Wsdl.refersTo el b!"type" ∧
    x = b!"could not lookup type " ++ prefixOf el.scope n ++ b!" for element " ++ prefixOf el.scope (Wsdl.defines tns el)

/-- No built-in type and none of the types that were read has this name. -/
def Undefined (p0 : GoMap Str Schema) (H0 : THeap) (n : XName) : Prop :=
  (∀ b : Int, 0 ≤ b → b < 50 → builtinName b ≠ n) ∧ ∀ k s m t, p0.get k = some s → s.types.get m = some t → xmlName H0 t ≠ n

end GoXml.Xsd
