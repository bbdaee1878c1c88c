import Verif.Spec.Tree
import Verif.Spec.XmlTree
import Verif.Spec.Builtin
set_option autoImplicit false

/-! Specification vocabulary for schema documents. Only the data types of the model and the
namespace URI from the XML Schema recommendation are used. -/

namespace GoXml.Xsd

/-- The element is `<xs:loc>`. -/
def IsXs (loc : Str) (e : Element) : Prop := e.name = ⟨w3cSchemaNS, loc⟩

/-- `L` lists, in document order, the positions and elements below `root` that satisfy `P`. There
is only one such list. -/
def DocList (root : Element) (P : List Nat → Element → Prop) (L : List (List Nat × Element)) : Prop :=
  (∀ p e, (p, e) ∈ L ↔ p ≠ [] ∧ root.at? p = some e ∧ P p e) ∧ (L.map (·.1)).Pairwise DocBefore

/-- The element at `p` is inside the `<xs:schema>` element `s`. -/
def InSchema (root : Element) (p : List Nat) (s : Element) : Prop :=
  ∃ q r, p = q ++ r ∧ r ≠ [] ∧ root.at? q = some s ∧ IsXs b!"schema" s

/-- No `<xs:schema>` is inside another. -/
def NoNestedSchema (root : Element) : Prop :=
  ∀ p e, root.at? p = some e → IsXs b!"schema" e → ∀ s, ¬ InSchema root p s

/-- The two trees have elements at the same positions, with the same names, scopes, content and
numbers of children. -/
def SameShape (a b : Element) : Prop :=
  ∀ p, (a.at? p = none ∧ b.at? p = none) ∨ ∃ x y, a.at? p = some x ∧ b.at? p = some y ∧
    x.name = y.name ∧ x.scope = y.scope ∧ x.content = y.content ∧ x.children.length = y.children.length

/-- The attributes at position `p` are those of the other tree. -/
def SameAttrsAt (a b : Element) (p : List Nat) : Prop :=
  (a.at? p).map (·.attrs) = (b.at? p).map (·.attrs)

/-- The attributes at position `p` are those of the other tree, except that the (first) attribute
with local name `loc` now has value `v`; if there was none, it has been added at the end. -/
def OneAttrSetAt (loc v : Str) (a b : Element) (p : List Nat) : Prop :=
  ∃ x y, a.at? p = some x ∧ b.at? p = some y ∧
    ((∃ before t after, x.attrs = before ++ t :: after ∧ t.name.loc = loc ∧ (∀ z ∈ before, z.name.loc ≠ loc) ∧
        y.attrs = before ++ ⟨t.name, v⟩ :: after) ∨
     ((∀ z ∈ x.attrs, z.name.loc ≠ loc) ∧ y.attrs = x.attrs ++ [⟨⟨[], loc⟩, v⟩]))

/-- `p` is the position of an alternative of a choice or, if the alternative is a sequence, of one
of its members. The root is not considered (it is a schema). -/
def InChoice (root : Element) (p : List Nat) : Prop :=
  (∃ q i c e, q ≠ [] ∧ p = q ++ [i] ∧ root.at? q = some c ∧ IsXs b!"choice" c ∧
    root.at? p = some e ∧ ¬ IsXs b!"sequence" e) ∨
  (∃ q i j c s e, q ≠ [] ∧ p = q ++ [i, j] ∧ root.at? q = some c ∧ IsXs b!"choice" c ∧
    root.at? (q ++ [i]) = some s ∧ IsXs b!"sequence" s ∧ root.at? p = some e)

end GoXml.Xsd
