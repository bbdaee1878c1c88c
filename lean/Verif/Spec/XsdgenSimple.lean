import Verif.Spec.XsdgenStruct
set_option autoImplicit false

/-! What the type that is generated for a simple type should be, in terms of the schema documents (C157). -/

namespace GoXml.Xsdgen
open Xsd
open Wsdl (attrNamed allNamed defines refersTo)

/-- The Go type for the values of the type of this name: that of the built-in type that it is derived from in the end. As in the code, a list counts as
derived from the type of its items; that restrictions of lists are not declared as slices is C100. -/
def GoTypeUnder (roots : List Element) (n : XName) (x : GoExpr) : Prop :=
  ∃ b : Int, 0 ≤ b ∧ b < 50 ∧ ComesFrom roots n (builtinName b) ∧ builtinExpr b = .ok (some x)

/-- What a simple type that is defined by `el` is declared as: a list as a slice of the type for its items, a union as a string, and a restriction as
the type for what it restricts. -/
def DeclaredAs (roots : List Element) (el : Element) (d : DeclExpr) : Prop :=
  (el.name.loc = b!"list" ∧ ∃ x, GoTypeUnder roots (refersTo el b!"itemType") x ∧ d = .plain (.array x)) ∨
  (el.name.loc = b!"union" ∧ d = .plain (.ident b!"string")) ∨
  (el.name.loc = b!"restriction" ∧ ∃ x, GoTypeUnder roots (refersTo el b!"base") x ∧ d = .plain x)

end GoXml.Xsdgen
