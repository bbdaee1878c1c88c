import Verif.Spec.XsdParse
import Verif.Spec.Xsd
set_option autoImplicit false

/-! Which elements may occur how often, read off the content models of XML Schema (part 1, 3.8 and 3.9). Words
are sequences of the local names of declared elements; what matches a wildcard is left out of them. -/

namespace GoXml.Xsd
open Wsdl

/-- Something may occur `k` times: `minOccurs` and `maxOccurs` are both 1 if they are left out. -/
def Occurs (e : Element) (k : Nat) : Prop :=
  (attrNamed e b!"minOccurs" = [] ∧ 1 ≤ k ∨
    ∃ t, ∃ n : Nat, Gen.TrimmedTo (attrNamed e b!"minOccurs") t ∧ IntText t n ∧ n ≤ k) ∧
  (attrNamed e b!"maxOccurs" = [] ∧ k ≤ 1 ∨ Gen.TrimmedTo (attrNamed e b!"maxOccurs") b!"unbounded" ∨
    ∃ t, ∃ n : Nat, Gen.TrimmedTo (attrNamed e b!"maxOccurs") t ∧ IntText t n ∧ k ≤ n)

def IsGroup (e : Element) : Prop := IsXs b!"sequence" e ∨ IsXs b!"all" e ∨ IsXs b!"choice" e

def IsParticle (e : Element) : Prop := IsXs b!"element" e ∨ IsGroup e

instance (loc : Str) (e : Element) : Decidable (IsXs loc e) := inferInstanceAs (Decidable (_ = _))
instance (e : Element) : Decidable (IsGroup e) := inferInstanceAs (Decidable (_ ∨ _))
instance (e : Element) : Decidable (IsParticle e) := inferInstanceAs (Decidable (_ ∨ _))

mutual
/-- The words that match what is written at a place in a schema. -/
def Allows : Element → List Str → Prop
  | .mk n as sc ct cs, w =>
    (IsXs b!"element" (.mk n as sc ct cs) ∧ ∃ k, Occurs (.mk n as sc ct cs) k ∧
      w = List.replicate k (attrNamed (.mk n as sc ct cs) b!"name")) ∨
    (IsXs b!"sequence" (.mk n as sc ct cs) ∧ ∃ ws : List (List Str), Occurs (.mk n as sc ct cs) ws.length ∧
      (∀ v ∈ ws, InTurn cs v) ∧ w = ws.flatten) ∨
    (IsXs b!"all" (.mk n as sc ct cs) ∧ ∃ ws : List (List Str), Occurs (.mk n as sc ct cs) ws.length ∧
      (∀ v ∈ ws, ∃ u, InTurn cs u ∧ u.Perm v) ∧ w = ws.flatten) ∨
    (IsXs b!"choice" (.mk n as sc ct cs) ∧ ∃ ws : List (List Str), Occurs (.mk n as sc ct cs) ws.length ∧
      (∀ v ∈ ws, OneOf cs v) ∧ w = ws.flatten) ∨
    (¬ IsParticle (.mk n as sc ct cs) ∧ w = [])
/-- The words of the places, one after the other. -/
def InTurn : List Element → List Str → Prop
  | [], w => w = []
  | c :: cs, w => ∃ u v, Allows c u ∧ InTurn cs v ∧ w = u ++ v
/-- The words of one of the places. -/
def OneOf : List Element → List Str → Prop
  | [], _ => False
  | c :: cs, w => (IsParticle c ∨ IsXs b!"any" c) ∧ Allows c w ∨ OneOf cs w
end

/-- The words that a restriction or an extension describes. -/
def Content (el : Element) (w : List Str) : Prop := InTurn el.children w

/-- A type's elements can hold what the content model allows: those that may be repeated are plural, those that
may be left out are optional. -/
def Covers (el : Element) (t : ComplexT) : Prop :=
  ∀ w, Content el w → ∀ e ∈ t.elements, e.wildcard = false →
    (2 ≤ w.count e.name.loc → e.plural = true) ∧ (e.name.loc ∉ w → e.optional = true)

/-- Content models that the code interprets correctly: no group is repeated or may be left out as a whole, every
name is declared once, and a sequence among the alternatives of a choice has no sequence in it. -/
structure Ordinary (el : Element) : Prop where
  grouped : ∀ g ∈ below el, (∃ c ∈ g.children, IsParticle c) → IsGroup g
  once : ∀ g ∈ below el, IsGroup g → attrNamed g b!"minOccurs" = [] ∧ attrNamed g b!"maxOccurs" = []
  distinct : ((allNamed el w3cSchemaNS b!"element").map (attrNamed · b!"name")).Nodup
  plain : ∀ d ∈ allNamed el w3cSchemaNS b!"element", 58 ∉ attrNamed d b!"name"
  shallow : ∀ c ∈ below el, IsXs b!"choice" c → ∀ s ∈ c.children, ¬ IsXs b!"all" s ∧
    (IsXs b!"sequence" s → ∀ x ∈ s.children, ¬ IsXs b!"sequence" x ∧ ¬ IsXs b!"all" x)

end GoXml.Xsd
