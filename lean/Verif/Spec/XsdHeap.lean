import Verif.Model.XsdHeap
import Mathlib.Logic.Relation
set_option autoImplicit false

/-! Specification vocabulary for schema documents in memory. -/

namespace GoXml.Xsd

/-- `p` points to a child of `e`. -/
def KidOf (e : HElem) (p : Ptr) : Prop := p.arr = e.kids.arr ∧ p.idx < e.kids.len

/-- `p` points to an element below the one at `root`. -/
inductive Below (h : EHeap) (root : Ptr) : Ptr → Prop
  | kid {e : HElem} {p : Ptr} : h.get root = some e → KidOf e p → Below h root p
  | step {q : Ptr} {e : HElem} {p : Ptr} : Below h root q → h.get q = some e → KidOf e p → Below h root p

/-- Slices lie within their arrays. -/
def SlicesOk (h : EHeap) : Prop := ∀ p e, h.get p = some e → e.kids.len ≤ ((h[e.kids.arr]?).getD []).length

/-- The element has an attribute `ref` that is not empty. -/
def HasRef (e : HElem) : Prop := e.attr [] b!"ref" ≠ []

/-- The element at `q`, below one of the roots, is of the given kind and has the given name, which is qualified by
the target namespace of the schema. -/
def Declares (h : EHeap) (roots : List Ptr) (q : Ptr) (name kind : XName) : Prop :=
  ∃ root ∈ roots, ∃ r e, h.get root = some r ∧ Below h root q ∧ h.get q = some e ∧ e.name = kind ∧
    e.attr [] b!"name" ≠ [] ∧ resolveDefault e.scope (e.attr [] b!"name") (r.attr [] b!"targetNamespace") = name

/-- The element at `p`, below one of the roots, is a reference to the given name. -/
def RefAt (h : EHeap) (roots : List Ptr) (p : Ptr) (e : HElem) (name : XName) : Prop :=
  (∃ root ∈ roots, Below h root p) ∧ h.get p = some e ∧ HasRef e ∧ resolve e.scope (e.attr [] b!"ref") = name

/-- The reference at `p` may refer to the element at `q`: it has the name and is of the same kind. -/
def RefersTo (h : EHeap) (roots : List Ptr) (p q : Ptr) : Prop :=
  ∃ e name, RefAt h roots p e name ∧ Declares h roots q name e.name

/-- References can be followed to an end. -/
def AcyclicRefs (h : EHeap) (roots : List Ptr) : Prop :=
  ∀ p, ¬ Relation.TransGen (RefersTo h roots) p p

/-- No child of an element that is referred to is itself a reference. -/
def PlainTargets (h : EHeap) (roots : List Ptr) : Prop :=
  ∀ p q e c d, RefersTo h roots p q → h.get q = some e → KidOf e c → h.get c = some d → ¬ HasRef d

/-- Every attribute of a reference with local name `ref` is without namespace. -/
def PlainRefs (h : EHeap) (roots : List Ptr) : Prop :=
  ∀ root ∈ roots, ∀ p e, Below h root p → h.get p = some e → HasRef e → ∀ a ∈ e.attrs, a.name.loc = b!"ref" → a.name.space = []

end GoXml.Xsd
