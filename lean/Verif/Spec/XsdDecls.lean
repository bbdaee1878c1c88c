import Verif.Spec.XsdParse
import Verif.Spec.XsdResolve
import Mathlib.Data.List.Forall2
set_option autoImplicit false

/-! Specifications for declarations of types and attributes (C81 to C86). -/

namespace GoXml.Xsd
open Wsdl (attrNamed allNamed denoted refersTo)

/-- The type that a name refers to before names are looked up: a built-in type, or the name itself. -/
def Named (n : XName) (t : Ty) : Prop :=
  (∃ b : Int, 0 ≤ b ∧ b < 50 ∧ builtinName b = n ∧ t = .builtin b) ∨
  (∀ b : Int, 0 ≤ b → b < 50 → builtinName b ≠ n) ∧ t = .link n

/-- The children of an element with one of the given names, all in the XML Schema namespace. -/
def kidsNamed (root : Element) (ks : List Str) : List Element :=
  root.children.filter fun c => decide (c.name.space = w3cSchemaNS ∧ c.name.loc ∈ ks)

/-- The values of the facets with one of the given names, in document order. -/
def facetValues (root : Element) (ks : List Str) : List Str := (kidsNamed root ks).map fun c => attrNamed c b!"value"

/-- The number given by a facet: the last one counts, and 0 is used without one. -/
def NumberFacet (vs : List Str) (n : Int) : Prop :=
  match vs.getLast? with
  | none => n = 0
  | some v => Means v n

/-- Whether a bound is to be read as a date. The base type may not be known yet; then the text decides. -/
def AsDate (env : ParseEnv) (base : Ty) (v : Str) : Prop :=
  match base with
  | .builtin b => b = 16 ∨ b = 17
  | .link _ => env.isDate v = true ∨ env.isDateTime v = true
  | .obj _ => False

/-- The date and number given by the bounds `vs`, of which the last one counts. Both are kept as texts. -/
def Bound (env : ParseEnv) (base : Ty) (vs : List Str) (date num : Str) : Prop :=
  match vs.getLast? with
  | none => date = [] ∧ num = []
  | some v => (AsDate env base v → date = v ∧ num = []) ∧ (¬ AsDate env base v → date = [] ∧ Gen.TrimmedTo v num)

/-- The text of a bound can be read. -/
def GoodBound (env : ParseEnv) (base : Ty) (v : Str) : Prop :=
  let number := ∃ t, Gen.TrimmedTo v t ∧ (t = [] ∨ env.isFloat t = true)
  match base with
  | .builtin b => if b = 16 then env.isDate v = true else if b = 17 then env.isDateTime v = true else number
  | .link _ => env.isDate v = true ∨ env.isDateTime v = true ∨ number
  | .obj _ => number

/-- A facet that cannot be read. -/
def BadFacet (env : ParseEnv) (base : Ty) (c : Element) : Prop :=
  c.name.loc ∈ [b!"length", b!"minLength", b!"maxLength", b!"totalDigits", b!"fractionDigits"] ∧ Malformed (attrNamed c b!"value") ∨
  c.name.loc = b!"fractionDigits" ∧ (∃ n < 0, Means (attrNamed c b!"value") n) ∨
  c.name.loc ∈ [b!"minExclusive", b!"minInclusive", b!"maxExclusive", b!"maxInclusive"] ∧ ¬ GoodBound env base (attrNamed c b!"value") ∨
  c.name.loc = b!"annotation" ∧ env.annotation c = none

/-- `s` consists of the words `ws` with white space between and around them. -/
inductive Words : Str → List Str → Prop
  | none {s : Str} : (∀ c ∈ s, isSpace c = true) → Words s []
  | one {a w s : Str} {ws : List Str} : (∀ c ∈ a, isSpace c = true) → w ≠ [] → (∀ c ∈ w, isSpace c = false) →
      (∀ c, s.head? = some c → isSpace c = true) → Words s ws → Words (a ++ w ++ s) (w :: ws)

/-- `ts` are the types that a list of names refers to. -/
def MemberTypes (u : Element) (ts : List Ty) : Prop :=
  ∃ ws, Words (attrNamed u b!"memberTypes") ws ∧ List.Forall₂ (fun w t => Named (denoted u.scope w) t) ws ts

/-- `el` is the only extension or restriction in the only simpleContent of a complexType. -/
def SimpleModel (root el : Element) : Prop :=
  ∃ sc, schemaKids root = [sc] ∧ sc.name.loc = b!"simpleContent" ∧ schemaKids sc = [el] ∧
    (el.name.loc = b!"extension" ∨ el.name.loc = b!"restriction")

end GoXml.Xsd
