import Verif.Spec.Source
set_option autoImplicit false

/-! Documents that can be written again. -/

namespace GoXml

/-- Every prefix that some tag declares for the namespace still stands for it, and makes a name with `loc`. -/
def Lasting (u : Lex.Unicode) (chain : List (List Attr)) (ns loc : Str) : Prop :=
  ns ∉ [[], b!"http://www.w3.org/XML/1998/namespace", b!"http://www.w3.org/2000/xmlns/"] ∧
  ∀ as ∈ chain, ∀ a ∈ as, ∀ q, DeclAttr a q ns → Binds chain q ns ∧ QualName u q loc ∧ q ≠ b!"xmlns" ∧ (q = [] → loc ≠ b!"xmlns")

/-- No tag declares the namespace as the default. -/
def NeverDefault (chain : List (List Attr)) (ns : Str) : Prop := ∀ as ∈ chain, ∀ a ∈ as, ¬ DeclAttr a [] ns

/-- Element names with this prefix can be written again: they have the prefix `xml`, or no namespace, or one whose prefixes last. -/
def ElemLasts (u : Lex.Unicode) (chain : List (List Attr)) (pre loc : Str) : Prop :=
  ∀ ns, ElemSpace chain pre ns → pre = b!"xml" ∨ (pre = [] ∧ ns = []) ∨ Lasting u chain ns loc

/-- The same for attributes, whose names do not use the default namespace. -/
def AttrLasts (u : Lex.Unicode) (chain : List (List Attr)) (pre loc : Str) : Prop :=
  ∀ ns, AttrSpace chain pre ns → pre = b!"xml" ∨ pre = [] ∨ (Lasting u chain ns loc ∧ NeverDefault chain ns)

/-- The names in a tag can be written again, and the values of the attributes contain neither double quotes nor `<` nor `&`, nor carriage
returns (which only character references give). -/
structure TagLasts (u : Lex.Unicode) (chain : List (List Attr)) (pre loc : Str) (attrs : List SrcAttr) : Prop where
  element : ElemLasts u chain pre loc
  attributes : ∀ a ∈ attrs, a.declares = false → AttrLasts u chain a.pre a.loc
  values : ∀ a ∈ attrs, ∀ c ∈ a.value, c ≠ 34 ∧ c ≠ 60 ∧ c ≠ 38 ∧ c ≠ 13

/-- This is so for all tags of the piece, inside tags with the attributes `chain`. -/
inductive Rewritable (u : Lex.Unicode) : List (List Attr) → Src → Prop
  | misc {chain : List (List Attr)} {s : Src} : s.isMisc = true → Rewritable u chain s
  | empty {chain : List (List Attr)} {pre loc : Str} {attrs : List SrcAttr} {space : Str} :
      TagLasts u (attrs.map SrcAttr.toAttr :: chain) pre loc attrs → Rewritable u chain (.empty pre loc attrs space)
  | elem {chain : List (List Attr)} {pre loc : Str} {attrs : List SrcAttr} {space : Str} {kids : List Src} {endSpace : Str} :
      TagLasts u (attrs.map SrcAttr.toAttr :: chain) pre loc attrs → (∀ k ∈ kids, Rewritable u (attrs.map SrcAttr.toAttr :: chain) k) →
      Rewritable u chain (.elem pre loc attrs space kids endSpace)

end GoXml
