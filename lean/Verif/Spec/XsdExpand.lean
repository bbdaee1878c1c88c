import Verif.Spec.XsdHeap
import Verif.Spec.Tree
set_option autoImplicit false

/-! Specification vocabulary for trees in memory, and the expansion of complex types as a function on trees. -/

namespace GoXml.Xsd

mutual
/-- The memory holds the given tree below an element. -/
def Reads (h : EHeap) : Element → HElem → Prop
  | .mk n a s c ks, e => e.name = n ∧ e.attrs = a ∧ e.scope = s ∧ e.content = c ∧ ReadsAll h ks (h.cells e.kids)
/-- The memory holds the given trees below a list of elements. -/
def ReadsAll (h : EHeap) : List Element → List HElem → Prop
  | [], [] => True
  | k :: ks, c :: cs => Reads h k c ∧ ReadsAll h ks cs
  | _, _ => False
end

/-- The memory holds the given tree at a pointer. -/
def Holds (h : EHeap) (p : Ptr) (t : Element) : Prop := ∃ e, h.get p = some e ∧ Reads h t e

mutual
/-- The number of levels of a tree. -/
def depth : Element → Nat
  | .mk _ _ _ _ ks => depths ks + 1
def depths : List Element → Nat
  | [] => 0
  | k :: ks => max (depth k) (depths ks)
end

/-- A complex type without content written explicitly. -/
def Shorthand (t : Element) : Prop :=
  t.name = ⟨schemaNS, b!"complexType"⟩ ∧
    ∀ k ∈ t.children, k.name ≠ ⟨schemaNS, b!"simpleContent"⟩ ∧ k.name ≠ ⟨schemaNS, b!"complexContent"⟩

instance (t : Element) : Decidable (Shorthand t) := by unfold Shorthand; infer_instance

/-- The children that belong to the content: elements of XML Schema other than annotations. -/
def BelongsToContent (k : Element) : Prop := k.name.space = schemaNS ∧ k.name.loc ≠ b!"annotation"

instance (t : Element) : Decidable (BelongsToContent t) := by unfold BelongsToContent; infer_instance

/-- The canonical form of a shorthand complex type. -/
def canonical : Element → Element
  | .mk n a s _ ks => .mk n a s [] (ks.filter (¬ BelongsToContent ·) ++
      [.mk ⟨schemaNS, b!"complexContent"⟩ [] s []
        [.mk ⟨schemaNS, b!"restriction"⟩ [⟨⟨[], b!"base"⟩, prefixOf s ⟨schemaNS, b!"anyType"⟩⟩] s [] (ks.filter BelongsToContent)]])

mutual
/-- All shorthand complex types in canonical form. -/
def expandTree : Element → Element
  | .mk n a s c ks => if Shorthand (.mk n a s c ks) then canonical (.mk n a s c (expandTrees ks)) else .mk n a s c (expandTrees ks)
def expandTrees : List Element → List Element
  | [] => []
  | k :: ks => expandTree k :: expandTrees ks
end

/-- All shorthand complex types below the root in canonical form. -/
def expandBelow : Element → Element
  | .mk n a s c ks => .mk n a s c (ks.map expandTree)

/-- No shorthand complex type is a child of another one. -/
def NoNestedTypes (t : Element) : Prop :=
  ∀ p x, t.at? p = some x → Shorthand x → ∀ k ∈ x.children, ¬ Shorthand k

end GoXml.Xsd
