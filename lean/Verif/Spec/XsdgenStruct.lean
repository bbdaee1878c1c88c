import Verif.Spec.XsdgenDerivable
import Verif.Spec.XsdLinked
import Verif.Spec.XsdgenMeaning
set_option autoImplicit false

/-! What the struct that is generated for a complex type should be, in terms of the schema documents (C156). -/

namespace GoXml.Xsd
open Wsdl (attrNamed allNamed defines refersTo)

/-- An element may occur more than once. -/
def Repeated (v : Element) : Prop :=
  ∃ lo, Means (attrNamed v b!"minOccurs") lo ∧ (1 < lo ∨ ∃ hi, Means (attrNamed v b!"maxOccurs") hi ∧ (hi < 0 ∨ 1 < hi))

/-- An element may be absent or without a value. -/
def Lacking (v : Element) : Prop :=
  (attrNamed v b!"minOccurs" ≠ [] ∧ Means (attrNamed v b!"minOccurs") 0) ∨ attrNamed v b!"default" ≠ [] ∨ BoolText (attrNamed v b!"nillable") true

/-- The name of the type of an element or attribute: any type, if none is given. -/
def typeNamed (v : Element) : XName := if attrNamed v b!"type" = [] then ⟨w3cSchemaNS, b!"anyType"⟩ else refersTo v b!"type"

/-- A type whose content is built on any content, by extensions and restrictions. -/
inductive Composed (roots : List Element) : XName → Prop
  | any {r e el : Element} : r ∈ roots → e ∈ allNamed r w3cSchemaNS b!"complexType" → ContentModel e el →
      refersTo el b!"base" = ⟨w3cSchemaNS, b!"anyType"⟩ → Composed roots (defines (target r) e)
  | step {r e el : Element} : r ∈ roots → e ∈ allNamed r w3cSchemaNS b!"complexType" → ContentModel e el →
      Composed roots (refersTo el b!"base") → Composed roots (defines (target r) e)

/-- The local names of elements and attributes to be left out. -/
structure Omitted where
  elements : List Str := []
  attributes : List Str := []

/-- An attribute that is not left out. -/
def Stated (om : Omitted) (v : Element) : Prop :=
  om.attributes = [] ∨ ((58 : UInt8) ∉ attrNamed v b!"name" ∧ attrNamed v b!"name" ∉ om.attributes)

/-- A complex type to which attributes are declared that are not left out, by a derivation that keeps them. -/
def Attributes (om : Omitted) (e el : Element) : Prop :=
  (ContentModel e el ∨ SimpleModel e el ∧ el.name.loc = b!"extension") ∧ ∃ v ∈ allNamed el w3cSchemaNS b!"attribute", Stated om v

/-- A restriction of the length of values, by a bound that is not 0. -/
def Bounded (el : Element) : Prop :=
  ∃ k ∈ [b!"minLength", b!"maxLength"], ∀ n, NumberFacet (facetValues el [k]) n → n ≠ 0

/-- A simple type that is more than another name for its base: a list, a union with members that are named, an enumeration, or a restriction of the length. -/
def Refined (e : Element) : Prop :=
  kidsNamed e [b!"list"] ≠ [] ∨ (∃ u ∈ kidsNamed e [b!"union"], ∀ ws, Words (attrNamed u b!"memberTypes") ws → ws ≠ []) ∨
  ∃ el, schemaKids e = [el] ∧ el.name.loc = b!"restriction" ∧ (kidsNamed el [b!"enumeration"] ≠ [] ∨ Bounded el)

/-- A type that the documents say more about than that it is another name. -/
def Lasting (roots : List Element) (om : Omitted) (n : XName) : Prop :=
  Composed roots n ∨ (∃ r ∈ roots, ∃ e ∈ allNamed r w3cSchemaNS b!"complexType", ∃ el, n = defines (target r) e ∧ Attributes om e el) ∨
  ∃ r ∈ roots, ∃ e ∈ allNamed r w3cSchemaNS b!"simpleType", n = defines (target r) e ∧ Refined e

end GoXml.Xsd

namespace GoXml.Xsdgen
open Xsd
open Wsdl (attrNamed allNamed defines refersTo)

/-- The configuration leaves out these elements and attributes, as the options `IgnoreElements` and `IgnoreAttributes` ask for. -/
def Omits (cfg : Config) (om : Omitted) : Prop :=
  (cfg.filterElements = none ∧ om.elements = [] ∨ cfg.filterElements = some fun e => decide (e.name.loc ∈ om.elements)) ∧
  (cfg.filterAttributes = none ∧ om.attributes = [] ∨ cfg.filterAttributes = some fun a => decide (a.name.loc ∈ om.attributes))

/-- The Go type of this name: the one for a built-in type, or else that of the Go name. -/
def GoTypeNamed (env : Env) (cfg : Config) (n : XName) (x : GoExpr) : Prop :=
  (∃ b : Int, 0 ≤ b ∧ b < 50 ∧ builtinName b = n ∧ builtinExpr b = .ok (some x)) ∨
  (∀ b : Int, builtinName b ≠ n) ∧ x = .ident (publicName env cfg n)

/-- A Go type for the values of the type of this name: that of the type, or of one that it is derived from if the type may be no more than another
name for it. -/
def GoTypeFor (env : Env) (cfg : Config) (roots : List Element) (om : Omitted) (n : XName) (x : GoExpr) : Prop :=
  ∃ m, ComesFrom roots n m ∧ (Lasting roots om n → m = n) ∧ GoTypeNamed env cfg m x

/-- The field for an element, which is declared together with others in a schema with the given target namespace. It is a slice if the element
may occur more than once, and is left out when empty if the element may be absent. -/
def FieldOfElement (env : Env) (cfg : Config) (roots : List Element) (om : Omitted) (ns : Str) (vs : List Element) (v : Element) (f : Field) : Prop :=
  ∃ (sp : Str) (x : GoExpr) (v0 : Element) (plural absent : Bool), (Homely ns v → sp = (defines ns v).space) ∧
    v0 ∈ vs ∧ (defines ns v0).loc = (defines ns v).loc ∧ GoTypeFor env cfg roots om (typeNamed v0) x ∧
    f.type = (if plural then .array x else x) ∧
    f.tag = b!"xml:\"" ++ sp ++ b!" " ++ (defines ns v).loc ++ (if absent then b!",omitempty\"" else b!"\"") ∧
    (Repeated v → plural = true) ∧ ((∀ w ∈ vs, (defines ns w).loc = (defines ns v).loc → ¬ Repeated w) → plural = false) ∧
    (Lacking v → absent = true) ∧ ((∀ w ∈ vs, (defines ns w).loc = (defines ns v).loc → ¬ Lacking w) → absent = false)

/-- The field for an attribute. -/
def FieldOfAttribute (env : Env) (cfg : Config) (roots : List Element) (om : Omitted) (ns : Str) (v : Element) (f : Field) : Prop :=
  ∃ (sp loc : Str), GoTypeFor env cfg roots om (refersTo v b!"type") f.type ∧ ((58 : UInt8) ∉ attrNamed v b!"name" → loc = attrNamed v b!"name") ∧
    ((∃ x ∈ v.attrs, x.name = ⟨[], b!"form"⟩ ∧ x.value = b!"qualified") → sp = ns ++ b!" ") ∧
    ((∀ x ∈ v.attrs, x.name = ⟨[], b!"form"⟩ → x.value ≠ b!"qualified") → sp = []) ∧
    f.tag = b!"xml:\"" ++ sp ++ loc ++ (if attrNamed v b!"use" = b!"required" then b!",attr\"" else b!",attr,omitempty\"")

/-- The fields of the struct for a type, which is defined by `el` in a schema with the given target namespace: one for every element and attribute
that is declared there and not to be left out, and none but those, one for text, and those for wildcards, elements and attributes that are declared
for the type or for one that it is derived from and not to be left out. -/
def FieldsOf (env : Env) (cfg : Config) (roots : List Element) (om : Omitted) (ns : Str) (name : XName) (el : Element) (fields : List Field) : Prop :=
  (∀ v ∈ allNamed el w3cSchemaNS b!"element", (defines ns v).loc ∉ om.elements →
    ∃ f ∈ fields, FieldOfElement env cfg roots om ns (allNamed el w3cSchemaNS b!"element") v f) ∧
  (∀ v ∈ allNamed el w3cSchemaNS b!"attribute", Stated om v → ∃ f ∈ fields, FieldOfAttribute env cfg roots om ns v f) ∧
  ∀ f ∈ fields, f.tag = b!"xml:\",chardata\"" ∨ ∃ r ∈ roots, ∃ e ∈ allNamed r w3cSchemaNS b!"complexType", ∃ el',
    (ContentModel e el' ∨ SimpleModel e el') ∧ ComesFrom roots name (defines (target r) e) ∧
    (f.tag = b!"xml:\",any\"" ∧ allNamed el' w3cSchemaNS b!"any" ≠ [] ∨
     (∃ v ∈ allNamed el' w3cSchemaNS b!"element", (defines (target r) v).loc ∉ om.elements ∧ FieldOfElement env cfg roots om (target r) (allNamed el' w3cSchemaNS b!"element") v f) ∨
     ∃ v ∈ allNamed el' w3cSchemaNS b!"attribute", ((58 : UInt8) ∉ attrNamed v b!"name" → attrNamed v b!"name" ∉ om.attributes) ∧
       FieldOfAttribute env cfg roots om (target r) v f)

end GoXml.Xsdgen
