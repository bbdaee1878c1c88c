import Verif.Model.Lexer
import Verif.Spec.XmlTree
set_option autoImplicit false

/-!
Which element trees can be written in XML, and when two trees are the same. Used for the
round-trip theorems C14 and C66.
-/

namespace GoXml

open Lex

/-- `q` is a QName the tokenizer accepts, with prefix `p` (empty if there is none) and local part `l`. -/
structure QOk (u : Unicode) (q p l : Str) : Prop where
  shape : q = if p = [] then l else p ++ b!":" ++ l
  bytes : ∀ c ∈ q, isNameByte c = true
  name : u.okName q = true
  pcolon : (58 : UInt8) ∉ p
  lcolon : (58 : UInt8) ∉ l
  lne : l ≠ []

/-- The element name can be written in scope `sc`: what `Prefix` gives for it is a QName which
resolves to it. -/
def ElemNameOk (u : Unicode) (sc : Scope) (name : XName) : Prop :=
  ∃ p l, QOk u (prefixOf sc name) p l ∧ p ≠ b!"xmlns" ∧ ¬ (p = [] ∧ l = b!"xmlns") ∧
    resolve sc (prefixOf sc name) = name

/-- The attribute name can be written in scope `sc`. Unprefixed attributes are in no namespace. -/
def AttrNameOk (u : Unicode) (sc : Scope) (name : XName) : Prop :=
  name.space ≠ b!"xmlns" ∧ name.loc ≠ b!"xmlns" ∧
  ∃ p l, QOk u (prefixOf sc name) p l ∧ p ≠ b!"xmlns" ∧ l ≠ b!"xmlns" ∧
    ((p = [] ∧ name = ⟨[], l⟩) ∨ (p ≠ [] ∧ resolve sc (prefixOf sc name) = name))

/-- The value needs no escaping between double quotes. -/
def ValueOk (u : Unicode) (v : Str) : Prop :=
  u.okText v = true ∧ ∀ c ∈ v, c ≠ 34 ∧ c ≠ 60 ∧ c ≠ 38 ∧ c ≠ 13

/-- The namespace declaration can be written. -/
def DeclOk (u : Unicode) (d : XName) : Prop :=
  ValueOk u d.space ∧ (58 : UInt8) ∉ d.loc ∧ (∀ c ∈ d.loc, isNameByte c = true) ∧
  u.okName (b!"xmlns" ++ (if d.loc = [] then [] else b!":" ++ d.loc)) = true

/-- Text that the tokenizer reads as one token other than a tag, when followed by markup. -/
def OtherPiece (u : Unicode) (t : Str) : Prop :=
  t ≠ [] ∧ ∀ stack ns rest, token u ⟨t ++ 60 :: rest, stack, ns, none⟩ =
    some (.other, ⟨60 :: rest, stack, ns, none⟩)

/-- The same whatever follows, as with comments. -/
def MarkupPiece (u : Unicode) (t : Str) : Prop :=
  t ≠ [] ∧ ∀ stack ns rest, token u ⟨t ++ rest, stack, ns, none⟩ = some (.other, ⟨rest, stack, ns, none⟩)

/-- Content without elements: pieces of text, comments and the like, where text is followed by
markup only. -/
inductive Misc (u : Unicode) : List Str → Prop
  | nil : Misc u []
  | cons {t : Str} {ts : List Str} : OtherPiece u t → (∀ t' ∈ ts.head?, ∃ r, t' = 60 :: r) → Misc u ts →
      Misc u (t :: ts)
  | markup {t : Str} {ts : List Str} : MarkupPiece u t → Misc u ts → Misc u (t :: ts)

mutual
/-- The element, placed below a parent with scope `ps`, can be written in XML. -/
inductive Wf (u : Unicode) : Scope → Element → Prop
  | leaf {ps own : Scope} {name : XName} {attrs : List Attr} {pieces : List Str} :
      (∀ d ∈ own, DeclOk u d) → ElemNameOk u (ps ++ own) name →
      (∀ a ∈ attrs, AttrNameOk u (ps ++ own) a.name ∧ ValueOk u a.value) →
      Misc u pieces →
      Wf u ps (.mk name attrs (ps ++ own) pieces.flatten [])
  | node {ps own : Scope} {name : XName} {attrs : List Attr} {content : Str} {k : Element} {ks : List Element} :
      (∀ d ∈ own, DeclOk u d) → ElemNameOk u (ps ++ own) name →
      (∀ a ∈ attrs, AttrNameOk u (ps ++ own) a.name ∧ ValueOk u a.value) →
      WfL u (ps ++ own) (k :: ks) →
      Wf u ps (.mk name attrs (ps ++ own) content (k :: ks))
/-- The same for a list of siblings. -/
inductive WfL (u : Unicode) : Scope → List Element → Prop
  | nil {ps : Scope} : WfL u ps []
  | cons {ps : Scope} {k : Element} {ks : List Element} : Wf u ps k → WfL u ps ks → WfL u ps (k :: ks)
end

mutual
/-- Nesting depth of an element tree. -/
def Element.height : Element → Nat
  | .mk _ _ _ _ ks => elHeightL ks + 1
def elHeightL : List Element → Nat
  | [] => 0
  | k :: ks => max k.height (elHeightL ks)
end

mutual
/-- Two trees have the same names and attributes, scopes related by `R`, children that correspond
in order, and the same content where there are no children. -/
inductive SameTree (R : Scope → Scope → Prop) : Element → Element → Prop
  | mk {name : XName} {attrs : List Attr} {s s' : Scope} {c c' : Str} {ks ks' : List Element} :
      R s s' → (ks = [] → c = c') → SameTreeL R ks ks' →
      SameTree R (.mk name attrs s c ks) (.mk name attrs s' c' ks')
inductive SameTreeL (R : Scope → Scope → Prop) : List Element → List Element → Prop
  | nil : SameTreeL R [] []
  | cons {k k' : Element} {ks ks' : List Element} :
      SameTree R k k' → SameTreeL R ks ks' → SameTreeL R (k :: ks) (k' :: ks')
end

mutual
/-- The declarations each element adds to its parent's scope are in the order `sort.Sort` would
put them, with distinct sort keys: the form `Parse` produces. -/
inductive SortedDecls : Scope → Element → Prop
  | mk {ps own : Scope} {name : XName} {attrs : List Attr} {c : Str} {ks : List Element} :
      own.Pairwise (fun a b => strLt (a.space ++ a.loc) (b.space ++ b.loc) = true) →
      SortedDeclsL (ps ++ own) ks → SortedDecls ps (.mk name attrs (ps ++ own) c ks)
inductive SortedDeclsL : Scope → List Element → Prop
  | nil {ps : Scope} : SortedDeclsL ps []
  | cons {ps : Scope} {k : Element} {ks : List Element} :
      SortedDecls ps k → SortedDeclsL ps ks → SortedDeclsL ps (k :: ks)
end

mutual
/-- No element of the tree declares a prefix twice in its own tag. For a tree that is part of a
larger document and is written on its own, the whole scope of the root counts as declared in the
root's tag, so the scope must not shadow a prefix. -/
inductive DistinctPrefixes : Scope → Element → Prop
  | mk {ps own : Scope} {name : XName} {attrs : List Attr} {c : Str} {ks : List Element} :
      (∀ x ∈ own, ∀ y ∈ own, x.loc = y.loc → x = y) →
      DistinctPrefixesL (ps ++ own) ks → DistinctPrefixes ps (.mk name attrs (ps ++ own) c ks)
inductive DistinctPrefixesL : Scope → List Element → Prop
  | nil {ps : Scope} : DistinctPrefixesL ps []
  | cons {ps : Scope} {k : Element} {ks : List Element} :
      DistinctPrefixes ps k → DistinctPrefixesL ps ks → DistinctPrefixesL ps (k :: ks)
end

end GoXml
