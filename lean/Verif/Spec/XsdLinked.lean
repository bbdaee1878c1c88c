import Verif.Spec.XsdDecls
import Verif.Spec.XsdgenDocuments
set_option autoImplicit false

/-! Specifications for the types that names stand for in the result of `Parse` (C155). -/

namespace GoXml.Xsd
open Wsdl (attrNamed allNamed denoted defines refersTo)

/-- The type that a name stands for in a set of schemas: the built-in type of that name, or else the type that one of
the schemas has under that name, and which has that name itself. -/
def Denotes (ss : List Schema) (H : THeap) (n : XName) (t : Ty) : Prop :=
  (∃ b : Int, 0 ≤ b ∧ b < 50 ∧ builtinName b = n ∧ t = .builtin b) ∨
  (∀ b : Int, 0 ≤ b → b < 50 → builtinName b ≠ n) ∧
    ∃ s ∈ ss, ∃ (id : Nat) (o : TObj), s.types.get n = some (.obj id) ∧ H[id]? = some o ∧ o.name = n ∧ t = .obj id

/-- The type of an element is the one that its declaration names; any type, if it names none. -/
def TypedAs (ss : List Schema) (H : THeap) (v : Element) (t : Ty) : Prop :=
  (attrNamed v b!"type" = [] → t = .builtin 0) ∧ (attrNamed v b!"type" ≠ [] → Denotes ss H (refersTo v b!"type") t)

/-- The type of an element is built in, or from the namespace of its name. -/
def Homely (ns : Str) (v : Element) : Prop :=
  attrNamed v b!"type" = [] ∨ (∃ b : Int, 0 ≤ b ∧ b < 50 ∧ builtinName b = refersTo v b!"type") ∨
  (refersTo v b!"type").space = (defines ns v).space

/-- `es` are the elements that are declared somewhere below `el`, in a schema with the given target namespace, with the types
named there. -/
def ElementsOf (ss : List Schema) (H : THeap) (ns : Str) (el : Element) (es : List XElem) : Prop :=
  (∀ m ∈ es, m.wildcard = false → ∃ v ∈ allNamed el w3cSchemaNS b!"element", m.name.loc = (defines ns v).loc ∧
    (Homely ns v → m.name = defines ns v) ∧ TypedAs ss H v m.type) ∧
  ∀ v ∈ allNamed el w3cSchemaNS b!"element", ∃ m ∈ es, m.wildcard = false ∧ m.name.loc = (defines ns v).loc ∧ (Homely ns v → m.name = defines ns v)

/-- `as` are the attributes that are declared somewhere below `el`, in order, with the types named there. -/
def AttributesOf (ss : List Schema) (H : THeap) (el : Element) (as : List XAttr) : Prop :=
  List.Forall₂ (fun v (a : XAttr) => Denotes ss H (refersTo v b!"type") a.type ∧
    ((58 : UInt8) ∉ attrNamed v b!"name" → a.name.loc = attrNamed v b!"name")) (allNamed el w3cSchemaNS b!"attribute") as

end GoXml.Xsd
