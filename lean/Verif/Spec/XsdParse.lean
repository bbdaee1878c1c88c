import Verif.Model.XsdParse
import Verif.Spec.Gen
import Verif.Spec.Wsdl
import Verif.Spec.Builtin
set_option autoImplicit false

/-! Specifications for reading types from schema trees (C35, C36). -/

namespace GoXml.Xsd
open Wsdl (attrNamed allNamed)

/-! ### Numbers -/

/-- The value of a string of decimal digits, least significant digit last. -/
def decimalValue (ds : Str) : Nat := ((ds.reverse.zipIdx).map fun d => (d.1.toNat - 48) * 10 ^ d.2).sum

/-- A non-empty string of decimal digits. -/
def IsDecimal (ds : Str) : Prop := ds ≠ [] ∧ ∀ c ∈ ds, 48 ≤ c ∧ c ≤ 57

/-- `s` is an integer literal with value `n`, which fits into 64 bits. -/
def IntText (s : Str) (n : Int) : Prop :=
  ∃ ds, IsDecimal ds ∧ ((s = ds ∨ s = b!"+" ++ ds) ∧ n = decimalValue ds ∨ s = b!"-" ++ ds ∧ n = -(decimalValue ds : Int)) ∧
    -(2 ^ 63) ≤ n ∧ n < 2 ^ 63

/-- The number of occurrences that an attribute value means: a blank one stands for 0, `unbounded`
for −1. -/
def Means (s : Str) (n : Int) : Prop :=
  ∃ t, Gen.TrimmedTo s t ∧ (t = [] ∧ n = 0 ∨ t = b!"unbounded" ∧ n = -1 ∨ IntText t n)

/-- Neither blank, `unbounded` nor an integer. -/
def Malformed (s : Str) : Prop := ∀ n, ¬ Means s n

/-- The boolean that an attribute value means. -/
def BoolText (s : Str) (b : Bool) : Prop :=
  b = true ∧ (s = b!"true" ∨ s = b!"1") ∨ b = false ∧ (s = b!"false" ∨ s = b!"0" ∨ s = [])

/-- An element's annotation that cannot be decoded. -/
def BadAnnotation (env : ParseEnv) (el : Element) : Prop :=
  ∃ c ∈ el.children, c.name = ⟨w3cSchemaNS, b!"annotation"⟩ ∧ env.annotation c = none

/-! ### Repeated elements -/

/-- The distinct values in a list, in the order of their first occurrences. -/
def firsts {α : Type} [DecidableEq α] : List α → List α
  | [] => []
  | x :: xs => x :: (firsts xs).filter fun y => decide (y ≠ x)

/-- `e` is what several declarations of the same element amount to: the flags of an element that may
be any of them, the default if they agree on one, the documentation of all of them, and the rest from
the first. -/
structure IsMerge (ds : List XElem) (e : XElem) : Prop where
  first : ∃ d, ds.head? = some d ∧ e.name = d.name ∧ e.type = d.type ∧ e.wildcard = d.wildcard ∧ e.attr = d.attr ∧ e.scope = d.scope
  plural : e.plural = true ↔ ∃ d ∈ ds, d.plural = true
  optional : e.optional = true ↔ ∃ d ∈ ds, d.optional = true
  nillable : e.nillable = true ↔ ∃ d ∈ ds, d.nillable = true
  abstract : e.abstract = true ↔ ∀ d ∈ ds, d.abstract = true
  same_default : ∀ v, (∀ d ∈ ds, d.dflt = v) → e.dflt = v
  other_default : (∃ d ∈ ds, ∃ d' ∈ ds, d.dflt ≠ d'.dflt) → e.dflt = []
  doc : e.doc = List.intercalate b!"\n" ((ds.map (·.doc)).dropWhile fun s => decide (s = []))

/-- The children that matter: those of the XML Schema namespace except annotations. -/
def schemaKids (e : Element) : List Element :=
  e.children.filter fun c => decide (c.name.space = w3cSchemaNS ∧ c.name.loc ≠ b!"annotation")

/-- `el` is the only extension or restriction in the only complexContent of a complexType. -/
def ContentModel (root el : Element) : Prop :=
  ∃ cc, schemaKids root = [cc] ∧ cc.name.loc = b!"complexContent" ∧ schemaKids cc = [el] ∧
    (el.name.loc = b!"extension" ∨ el.name.loc = b!"restriction")

end GoXml.Xsd
