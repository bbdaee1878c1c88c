import Verif.Spec.XsdCanonical
import Verif.Spec.XsdNames
import Verif.Spec.XsdContent
set_option autoImplicit false

/-! Schemas that `Normalize` brings into canonical form. -/

namespace GoXml.Xsd
open Wsdl

/-- The element has a type without a name. -/
def HasAnon (x : Element) : Prop := ∃ k ∈ x.children, AnonType k

instance (x : Element) : Decidable (HasAnon x) := inferInstanceAs (Decidable (∃ k ∈ x.children, AnonType k))

/-- Names in the namespace can be written in this scope. -/
def Speaks (sc : Scope) (ns : Str) : Prop := ns = [] ∨ ∃ d ∈ sc, d.space = ns

instance (sc : Scope) (ns : Str) : Decidable (Speaks sc ns) := inferInstanceAs (Decidable (_ ∨ _))

/-- What is asked of an element of a schema with target namespace `tns`. -/
structure NeatAt (tns : Str) (x : Element) : Prop where
  /-- Only these may have anonymous types, as XML Schema has it. -/
  holder : HasAnon x → ∃ loc ∈ [b!"element", b!"attribute", b!"list", b!"restriction", b!"union"], IsXs loc x
  /-- One anonymous type at most, and none directly inside the children. -/
  one : HasAnon x → (x.children.filter AnonType).length = 1 ∧ ∀ k ∈ x.children, ¬ HasAnon k
  apart : IsXs b!"complexType" x → ∀ k ∈ x.children, ¬ IsXs b!"complexType" k
  /-- The target namespace has been declared, as has the namespace of XML Schema. -/
  speaks : HasAnon x → Speaks x.scope tns
  typedBy : IsXs b!"attribute" x ∨ IsXs b!"element" x → Speaks x.scope w3cSchemaNS
  /-- Names have no prefixes. -/
  plain : HasAnon x → (58 : UInt8) ∉ attrNamed x b!"name"
  noGroup : ∀ k ∈ x.children, ¬ IsXs b!"group" k ∧ ¬ IsXs b!"attributeGroup" k

/-- A schema without groups in which only local declarations have anonymous types. -/
structure Neat (t : Element) : Prop where
  schema : IsXs b!"schema" t
  top : ∀ k ∈ t.children, ¬ HasAnon k
  each : ∀ x ∈ below t, NeatAt (attrNamed t b!"targetNamespace") x

instance (tns : Str) (x : Element) : Decidable (NeatAt tns x) :=
  decidable_of_iff ((HasAnon x → ∃ loc ∈ [b!"element", b!"attribute", b!"list", b!"restriction", b!"union"], IsXs loc x) ∧
    (HasAnon x → (x.children.filter AnonType).length = 1 ∧ ∀ k ∈ x.children, ¬ HasAnon k) ∧
    (IsXs b!"complexType" x → ∀ k ∈ x.children, ¬ IsXs b!"complexType" k) ∧ (HasAnon x → Speaks x.scope tns) ∧
    (IsXs b!"attribute" x ∨ IsXs b!"element" x → Speaks x.scope w3cSchemaNS) ∧ (HasAnon x → (58 : UInt8) ∉ attrNamed x b!"name") ∧
    ∀ k ∈ x.children, ¬ IsXs b!"group" k ∧ ¬ IsXs b!"attributeGroup" k)
    ⟨fun ⟨h1, h2, h3, h4, h5, h6, h7⟩ => ⟨h1, h2, h3, h4, h5, h6, h7⟩, fun h => ⟨h.1, h.2, h.3, h.4, h.5, h.6, h.7⟩⟩

instance (t : Element) : Decidable (Neat t) :=
  decidable_of_iff (IsXs b!"schema" t ∧ (∀ k ∈ t.children, ¬ HasAnon k) ∧ ∀ x ∈ below t, NeatAt (attrNamed t b!"targetNamespace") x)
    ⟨fun ⟨h1, h2, h3⟩ => ⟨h1, h2, h3⟩, fun h => ⟨h.1, h.2, h.3⟩⟩

/-! ### References -/

/-- The element refers to another one. -/
def IsRef (x : Element) : Prop := attrNamed x b!"ref" ≠ []

instance (x : Element) : Decidable (IsRef x) := inferInstanceAs (Decidable (_ ≠ _))

/-- Declarations that can be referred to by name. -/
def Declaration (x : Element) : Prop := IsXs b!"element" x ∨ IsXs b!"attribute" x

instance (x : Element) : Decidable (Declaration x) := inferInstanceAs (Decidable (_ ∨ _))

/-- The attributes have no namespaces, and differ in their names. -/
def PlainAttrs (x : Element) : Prop := (∀ a ∈ x.attrs, a.name.space = []) ∧ (x.attrs.map (·.name.loc)).Nodup

instance (x : Element) : Decidable (PlainAttrs x) := inferInstanceAs (Decidable (_ ∧ _))

/-- The element `y`, in a schema with target namespace `tns`, has the name and is of the kind that `x` refers to. -/
def Meets (tns : Str) (x y : Element) : Prop := y.name = x.name ∧ attrNamed y b!"name" ≠ [] ∧ defines tns y = refersTo x b!"ref"

instance (tns : Str) (x y : Element) : Decidable (Meets tns x y) := inferInstanceAs (Decidable (_ ∧ _))

/-- One of the schemas has a global declaration that `x` refers to. -/
def Finds (ts : List Element) (x : Element) : Prop := ∃ s ∈ ts, attrNamed s b!"targetNamespace" ≠ [] ∧ ∃ y ∈ s.children,
  (58 : UInt8) ∉ attrNamed y b!"name" ∧ Meets (attrNamed s b!"targetNamespace") x y

instance (ts : List Element) (x : Element) : Decidable (Finds ts x) := inferInstanceAs (Decidable (∃ s ∈ ts, _ ∧ ∃ y ∈ s.children, _ ∧ _))

/-- What has the name that `x` refers to, wherever it is, is not itself a reference and has nothing inside it, other than an
anonymous type. -/
def FindsLeaf (ts : List Element) (x : Element) : Prop := ∀ s ∈ ts, ∀ y ∈ below s, Meets (attrNamed s b!"targetNamespace") x y →
  ¬ IsRef y ∧ ∀ k ∈ y.children, AnonType k

instance (ts : List Element) (x : Element) : Decidable (FindsLeaf ts x) := inferInstanceAs (Decidable (∀ s ∈ ts, ∀ y ∈ below s, _ → _ ∧ ∀ k ∈ y.children, _))

/-- Local declarations refer to global ones, and to nothing that refers further or has contents. -/
structure Linked (ts : List Element) : Prop where
  decl : ∀ t ∈ ts, ∀ x ∈ below t, IsRef x → Declaration x ∧ PlainAttrs x
  top : ∀ t ∈ ts, ∀ k ∈ t.children, ¬ IsRef k
  found : ∀ t ∈ ts, ∀ x ∈ below t, IsRef x → Finds ts x
  leaf : ∀ t ∈ ts, ∀ x ∈ below t, IsRef x → FindsLeaf ts x

instance (ts : List Element) : Decidable (Linked ts) :=
  decidable_of_iff ((∀ t ∈ ts, ∀ x ∈ below t, IsRef x → Declaration x ∧ PlainAttrs x) ∧ (∀ t ∈ ts, ∀ k ∈ t.children, ¬ IsRef k) ∧
    (∀ t ∈ ts, ∀ x ∈ below t, IsRef x → Finds ts x) ∧ ∀ t ∈ ts, ∀ x ∈ below t, IsRef x → FindsLeaf ts x)
    ⟨fun ⟨h1, h2, h3, h4⟩ => ⟨h1, h2, h3, h4⟩, fun h => ⟨h.1, h.2, h.3, h.4⟩⟩

/-- What a reference in the schemas may refer to. -/
def Target (ts : List Element) (x y : Element) : Prop :=
  (∃ t ∈ ts, x ∈ below t) ∧ ∃ s ∈ ts, y ∈ below s ∧ Meets (attrNamed s b!"targetNamespace") x y

mutual
/-- The second tree is the first one with every reference replaced by its target, as `deref` does it, which C33 is about. -/
def Relinked (T : Element → Element → Prop) : Element → Element → Prop
  | .mk n a s c ks, t' =>
    (¬ IsRef (.mk n a s c ks) ∧ t'.name = n ∧ t'.attrs = a ∧ t'.scope = s ∧ t'.content = c ∧ RelinkedAll T ks t'.children) ∨
    (IsRef (.mk n a s c ks) ∧ ∃ y, T (.mk n a s c ks) y ∧ t' = deref (.mk n a s c ks) y)
def RelinkedAll (T : Element → Element → Prop) : List Element → List Element → Prop
  | [], [] => True
  | k :: ks, k' :: ks' => Relinked T k k' ∧ RelinkedAll T ks ks'
  | _, _ => False
end

/-- The same for a whole schema, whose root stays. -/
structure DocRelinked (T : Element → Element → Prop) (t t' : Element) : Prop where
  name : t'.name = t.name
  attrs : t'.attrs = t.attrs
  scope : t'.scope = t.scope
  content : t'.content = t.content
  kids : List.Forall₂ (Relinked T) t.children t'.children

/-- The schemas of a document: the root, if it is one, and the schemas inside it otherwise, as in a WSDL document. -/
def schemasIn (t : Element) : List Element := if t.name = ⟨w3cSchemaNS, b!"schema"⟩ then [t] else allNamed t w3cSchemaNS b!"schema"

/-- No schema is inside another. -/
def SchemasApart (t : Element) : Prop := ∀ x ∈ schemasIn t, ∀ y ∈ below x, ¬ IsXs b!"schema" y

instance (t : Element) : Decidable (SchemasApart t) := inferInstanceAs (Decidable (∀ x ∈ schemasIn t, ∀ y ∈ below x, ¬ IsXs b!"schema" y))

/-- Of the same kind, and with the same name. -/
def Kin (k k' : Element) : Prop := k'.name = k.name ∧ attrNamed k' b!"name" = attrNamed k b!"name"

/-- The declarations of `t` are there in `t'`, in the same order, and types follow. -/
structure Survives (t t' : Element) : Prop where
  name : t'.name = t.name
  tns : attrNamed t' b!"targetNamespace" = attrNamed t b!"targetNamespace"
  decls : ∃ old new, t'.children = old ++ new ∧ List.Forall₂ Kin t.children old ∧ ∀ k ∈ new, IsXs b!"complexType" k ∨ IsXs b!"simpleType" k

end GoXml.Xsd
