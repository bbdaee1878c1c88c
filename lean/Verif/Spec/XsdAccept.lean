import Verif.Spec.XsdAnon
import Verif.Spec.XsdParse
import Verif.Spec.XsdDecls
import Verif.Spec.XsdSchema
set_option autoImplicit false

/-! Schemas that should be accepted. -/

namespace GoXml.Xsd
open Wsdl

/-- Annotations can be read. -/
def ReadsNotes (env : ParseEnv) : Prop := ∀ ⦃e : Element⦄, e.name = ⟨w3cSchemaNS, b!"annotation"⟩ → (env.annotation e).isSome = true

/-- The name of a built-in type. -/
def BuiltIn (n : XName) : Prop := ∃ b : Int, 0 ≤ b ∧ b < 50 ∧ builtinName b = n

/-- The schema defines a type of this name. -/
def Offers (t : Element) (n : XName) : Prop := ∃ k ∈ typesOf t, n = ⟨attrNamed t b!"targetNamespace", attrNamed k b!"name"⟩

/-- A facet that limits the values of an ordered type. -/
def Limit (k : Element) : Prop := ∃ loc ∈ [b!"minInclusive", b!"minExclusive", b!"maxInclusive", b!"maxExclusive"], IsXs loc k

instance (k : Element) : Decidable (Limit k) := inferInstanceAs (Decidable (∃ loc ∈ _, IsXs loc k))

/-- The text is a number, or empty. -/
def Numeric (env : ParseEnv) (v : Str) : Prop := ∃ t, Gen.TrimmedTo v t ∧ (t = [] ∨ env.isFloat t = true)

/-- The limit for a restriction of this type is one that can be read: a date for dates, a time for times, a number
otherwise, and any of these if the type is not built in. -/
def Readable (env : ParseEnv) (base : XName) (v : Str) : Prop :=
  if base = ⟨w3cSchemaNS, b!"date"⟩ then env.isDate v = true
  else if base = ⟨w3cSchemaNS, b!"dateTime"⟩ then env.isDateTime v = true
  else Numeric env v ∨ ¬ BuiltIn base ∧ (env.isDate v = true ∨ env.isDateTime v = true)

/-- What is asked of an element of a schema; `known` are the types that it may refer to, `before` those that others may be
derived from. -/
structure SoundAt (env : ParseEnv) (known before : XName → Prop) (x : Element) : Prop where
  flags : ∀ a ∈ [b!"abstract", b!"nillable", b!"mixed"], ∃ b, BoolText (attrNamed x a) b
  counts : ∀ a ∈ [b!"minOccurs", b!"maxOccurs"], ∃ n, Means (attrNamed x a) n
  sizes : ∀ loc ∈ [b!"length", b!"minLength", b!"maxLength", b!"totalDigits", b!"fractionDigits"], IsXs loc x → ∃ n, 0 ≤ n ∧ Means (attrNamed x b!"value") n
  limits : IsXs b!"restriction" x → ∀ k ∈ x.children, Limit k → Readable env (refersTo x b!"base") (attrNamed k b!"value")
  /-- The content of complex types is as XML Schema has it. -/
  content : IsXs b!"complexType" x → ∀ k ∈ x.children, ¬ Limit k ∧
    (Shorthand x ∨ (k.name.space = w3cSchemaNS → k.name.loc ∈ [b!"annotation", b!"simpleContent", b!"complexContent"]))
  derivation : IsXs b!"complexContent" x → ∀ k ∈ x.children, k.name.space = w3cSchemaNS → k.name.loc ∈ [b!"annotation", b!"restriction", b!"extension"]
  /-- The names of types have no prefixes. -/
  plain : IsXs b!"complexType" x ∨ IsXs b!"simpleType" x → (58 : UInt8) ∉ attrNamed x b!"name"
  type : IsXs b!"element" x ∨ IsXs b!"attribute" x ∨ IsXs b!"any" x → attrNamed x b!"type" ≠ [] → known (refersTo x b!"type")
  base : attrNamed x b!"base" ≠ [] → before (refersTo x b!"base")
  based : IsXs b!"restriction" x ∨ IsXs b!"extension" x → attrNamed x b!"base" = [] → HasAnon x
  item : attrNamed x b!"itemType" ≠ [] → before (refersTo x b!"itemType")
  listed : IsXs b!"list" x → attrNamed x b!"itemType" = [] → HasAnon x
  /-- There is no white space in prefixes. -/
  prefixes : ∀ d ∈ x.scope, ∀ c ∈ d.loc, isSpace c = false
  members : IsXs b!"union" x → ∀ ws, Words (attrNamed x b!"memberTypes") ws → ∀ q ∈ ws, known (denoted x.scope q)
  /-- Declarations have no attributes that derive types. -/
  bare : IsXs b!"element" x ∨ IsXs b!"attribute" x → attrNamed x b!"base" = [] ∧ attrNamed x b!"itemType" = []

/-- What is asked of a schema. -/
structure SoundSchema (env : ParseEnv) (known before : XName → Prop) (t : Element) : Prop where
  flags : ∀ a ∈ [b!"abstract", b!"mixed"], ∃ b, BoolText (attrNamed t a) b
  /-- Names in the target namespace and in that of XML Schema can be written everywhere. -/
  clear : ∀ x ∈ t :: below t, Clear x.scope (attrNamed t b!"targetNamespace") ∧ Clear x.scope w3cSchemaNS
  own : ∀ n, BuiltIn n → n.space ≠ attrNamed t b!"targetNamespace"
  named : ∀ k ∈ typesOf t, attrNamed k b!"name" ≠ []
  /-- The types of global elements are needed before those of local ones. -/
  top : ∀ k ∈ t.children, IsXs b!"element" k → attrNamed k b!"type" ≠ [] → before (refersTo k b!"type")
  each : ∀ x ∈ below t, SoundAt env known before x

/-- The schemas refer to types that are built in or that one of them defines; types are derived from, and global elements
have, types that are built in or that the same schema or one before it defines. -/
structure SoundSet (env : ParseEnv) (ss : List Element) : Prop where
  apart : (ss.map target).Nodup
  each : ∀ (i : Nat) t, ss[i]? = some t → SoundSchema env (fun n => BuiltIn n ∨ ∃ s ∈ ss, Offers s n)
    (fun n => BuiltIn n ∨ ∃ (j : Nat) (s : Element), j ≤ i ∧ ss[j]? = some s ∧ Offers s n) t

end GoXml.Xsd
