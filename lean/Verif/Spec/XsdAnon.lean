import Verif.Spec.XsdNormal
set_option autoImplicit false

/-! What becomes of anonymous types. -/

namespace GoXml.Xsd
open Wsdl

/-- Of the same kind, in the same scope, and with the same attributes, except those that are `free`. -/
def SameBut (free : Str → Prop) (x x' : Element) : Prop :=
  x'.name = x.name ∧ x'.scope = x.scope ∧ ∀ loc, ¬ free loc → attrNamed x' loc = attrNamed x loc

/-- The element `x'` refers to the type with this name where `x` has an anonymous type. A union also refers to the types
that it referred to before. -/
def CallsFor (tns : Str) (x x' : Element) (name : Str) : Prop :=
  ∃ q, resolve x'.scope q = ⟨tns, name⟩ ∧
    attrNamed x' (referrer x.name.loc) = (if x.name.loc = b!"union" then attrNamed x b!"memberTypes" ++ b!" " else []) ++ q

/-- The element `x'` stands for `x`, given definitions of types: it has the same attributes and the same
children, where a reference to a type may stand for an anonymous type, provided the definition of that type stands for
the anonymous one. -/
inductive Stands (tns : Str) (types : List Element) : (Str → Prop) → Element → Element → Prop
  | same {free : Str → Prop} {x x' : Element} (h : SameBut free x x') (hc : x'.content = x.content) (hl : x'.children.length = x.children.length)
      (hk : ∀ (i : Nat) k k', x.children[i]? = some k → x'.children[i]? = some k' → Stands tns types (fun _ => False) k k') :
      Stands tns types free x x'
  | moved {free : Str → Prop} {x x' k k' : Element} {i : Nat} (h : SameBut (fun loc => free loc ∨ loc = referrer x.name.loc) x x')
      (hi : x.children[i]? = some k) (ha : AnonType k) (hd : k' ∈ types) (hr : CallsFor tns x x' (attrNamed k' b!"name"))
      (hs : Stands tns types (fun loc => loc = b!"name" ∨ loc = b!"_isAnonymous") k k') (hn : ∀ j ∈ x'.children, ¬ AnonType j)
      (hl : x'.children.length = (x.children.eraseIdx i).length)
      (hk : ∀ (j : Nat) y y', (x.children.eraseIdx i)[j]? = some y → x'.children[j]? = some y' → Stands tns types (fun _ => False) y y') :
      Stands tns types free x x'

/-- Names in the namespace can be written in this scope, and are understood: no prefix has two meanings. -/
structure Clear (sc : Scope) (tns : Str) : Prop where
  ns : tns ≠ [] ∧ tns ≠ xmlLangURI ∧ tns ≠ xmlNamespaceURI
  pre : ∀ d ∈ sc, (58 : UInt8) ∉ d.loc ∧ d.loc ≠ b!"xml" ∧ d.loc ≠ b!"xmlns"
  one : (sc.map (·.loc)).Nodup
  decl : ∃ d ∈ sc, d.space = tns

instance (sc : Scope) (tns : Str) : Decidable (Clear sc tns) :=
  decidable_of_iff ((tns ≠ [] ∧ tns ≠ xmlLangURI ∧ tns ≠ xmlNamespaceURI) ∧ (∀ d ∈ sc, (58 : UInt8) ∉ d.loc ∧ d.loc ≠ b!"xml" ∧ d.loc ≠ b!"xmlns") ∧
    (sc.map (·.loc)).Nodup ∧ ∃ d ∈ sc, d.space = tns) ⟨fun ⟨a, b, c, d⟩ => ⟨a, b, c, d⟩, fun h => ⟨h.1, h.2, h.3, h.4⟩⟩

/-- The definitions of types of a schema. -/
def typesOf (t : Element) : List Element := t.children.filter fun k => decide (IsXs b!"complexType" k ∨ IsXs b!"simpleType" k)

/-- A name that `Normalize` may give to a type. -/
def Numbered (name : Str) : Prop := ∃ j : Nat, name = b!"_anon" ++ natStr j

/-- The types that a schema defines have different names, none of which has a prefix, and nothing has a name that
`Normalize` may give. -/
structure WellNamed (t : Element) : Prop where
  distinct : ((typesOf t).map (attrNamed · b!"name")).Nodup
  plain : ∀ k ∈ typesOf t, attrNamed k b!"name" ≠ [] ∧ (58 : UInt8) ∉ attrNamed k b!"name"
  others : ∀ x ∈ below t, ¬ Numbered (attrNamed x b!"name")

end GoXml.Xsd
