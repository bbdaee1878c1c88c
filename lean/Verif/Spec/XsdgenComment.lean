import Verif.Spec.XsdgenStruct
set_option autoImplicit false

/-! What the comment on a simple type should say, in terms of the schema documents (C159). -/

namespace GoXml.Xsdgen
open Xsd
open Wsdl (attrNamed allNamed defines refersTo)

/-- The built-in types that xsdgen has types with methods for. -/
def withMethods : List Str :=
  [b!"base64Binary", b!"hexBinary", b!"date", b!"time", b!"dateTime", b!"gDay", b!"gMonth", b!"gMonthDay", b!"gYear", b!"gYearMonth"]

/-- The simple type is derived by the restriction `el`, and is not derived from one of those. -/
def Restricts (roots : List Element) (r e el : Element) : Prop :=
  schemaKids e = [el] ∧ el.name.loc = b!"restriction" ∧ ∀ loc ∈ withMethods, ¬ ComesFrom roots (defines (target r) e) ⟨w3cSchemaNS, loc⟩

/-- The comment on the declaration of a type that the restriction derives: it tells the enumerated values; without any, and without patterns, the greatest
length; without that, the least length. -/
def TellsFacets (el : Element) (doc : Str) : Prop :=
  (kidsNamed el [b!"enumeration"] ≠ [] → doc = b!"May be one of " ++ b!", ".intercalate (facetValues el [b!"enumeration"])) ∧
  (kidsNamed el [b!"enumeration", b!"pattern"] = [] → ∀ m, NumberFacet (facetValues el [b!"maxLength"]) m →
    (m ≠ 0 → ∃ w, IntText w m ∧ doc = b!"May be no more than " ++ w ++ b!" items long") ∧
    (m = 0 → ∀ k, NumberFacet (facetValues el [b!"minLength"]) k → k ≠ 0 → ∃ w, IntText w k ∧ doc = b!"Must be at least " ++ w ++ b!" items long"))

end GoXml.Xsdgen
