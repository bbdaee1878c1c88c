import Verif.Spec.XsdgenSpec
set_option autoImplicit false

/-! Vocabulary for the theorems about options that select and change types, and about what is declared. -/

namespace GoXml.Xsdgen
open Xsd

/-- A built-in type whose values need methods of their own. -/
def Special (t : Ty) : Prop := ∃ b, t = .builtin b ∧ builtinName b ∈ specialBuiltins.map (XName.mk schemaNS)

/-- The elements of a type that are not ignored. -/
def KeptElem (cfg : Config) (c : ComplexT) (e : XElem) : Prop :=
  e ∈ c.elements ∧ ∀ p, cfg.filterElements = some p → p e = false

/-- The attributes of a type that are not ignored. -/
def KeptAttr (cfg : Config) (c : ComplexT) (a : XAttr) : Prop :=
  a ∈ c.attributes ∧ ∀ p, cfg.filterAttributes = some p → p a = false

/-- The text of a type is of a built-in type: the type is mixed, and is derived from the built-in type without
a simple type in between. -/
def TextOf (H : THeap) (c : ComplexT) (b : Builtin) : Prop :=
  c.mixed = true ∧ ∃ base, c.base = some base ∧ Ancestor H base (.builtin b) ∧
    ∀ id s, Ancestor H base (.obj id) → H[id]? ≠ some (.simple s)

/-- The complex type that a complex type is derived from. -/
def DerivedFrom (H : THeap) (t b : ComplexT) : Prop := ∃ bid, t.base = some (.obj bid) ∧ H[bid]? = some (.complex b)

/-- What a type has in the end: everything it had, the attributes of the type it is derived from whose name it
lacks, and, if it has no wildcard, the first one of that type. -/
structure Inherits (H : THeap) (t c : ComplexT) : Prop where
  same : { c with attributes := t.attributes, elements := t.elements } = t
  alone : (∀ b, ¬ DerivedFrom H t b) → c = t
  attrs : ∀ b, DerivedFrom H t b → c.attributes =
    t.attributes ++ (firsts (·.name) b.attributes).filter (fun a => decide (a.name ∉ t.attributes.map (·.name)))
  elems : ∀ b, DerivedFrom H t b → (∃ e ∈ t.elements, e.wildcard = true) → c.elements = t.elements
  wildcard : ∀ b, DerivedFrom H t b → (∀ e ∈ t.elements, e.wildcard = false) →
    c.elements = t.elements ++ (b.elements.filter (·.wildcard)).take 1

/-- A declaration has a method of the given name. -/
def Spec.hasMethod (s : Spec) (name : Str) : Prop := ∃ m ∈ s.methods, m.name = name

/-- The type of a field of a complex type, with the name of the field. -/
def FieldType (c : ComplexT) (name : XName) (t : Ty) : Prop :=
  (∃ e ∈ c.elements, e.name = name ∧ e.type = t) ∨ (∃ a ∈ c.attributes, a.name = name ∧ a.type = t)

/-- A type is anonymous. -/
def Anonymous (H : THeap) (id : Nat) : Prop :=
  (∃ s, H[id]? = some (.simple s) ∧ s.anonymous = true) ∨ (∃ c, H[id]? = some (.complex c) ∧ c.anonymous = true)

/-- A type with another name, and no longer anonymous. -/
def renamed (name : XName) : TObj → TObj
  | .simple s => .simple { s with name := name, anonymous := false }
  | .complex c => .complex { c with name := name, anonymous := false }

/-- Functions on types one after the other. -/
def inOrder (s : Schema) : List TypeTransform → Option Ty × THeap → Option Ty × THeap
  | [], x => x
  | f :: fs, x => inOrder s fs (f s x.1 x.2)

end GoXml.Xsdgen
