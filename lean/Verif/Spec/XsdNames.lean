import Verif.Spec.XsdExpand
import Mathlib.Data.List.Forall2
set_option autoImplicit false

/-! Specification vocabulary for the naming of anonymous types: which tree results, and which arrays a tree in
memory uses. -/

namespace GoXml.Xsd

/-! ### Trees with their own memory -/

mutual
/-- The memory holds the given tree below an element, with the children in the arrays of the list, the array
of the element first. -/
def Owns (h : EHeap) : Element → HElem → List Nat → Prop
  | .mk n a s c ks, e, fp => e.name = n ∧ e.attrs = a ∧ e.scope = s ∧ e.content = c ∧ e.kids.arr < h.length ∧
      e.kids.len = ks.length ∧ ∃ fps, fp = e.kids.arr :: fps ∧ OwnsAll h ks (h.cells e.kids) fps
/-- The same for a list of elements. -/
def OwnsAll (h : EHeap) : List Element → List HElem → List Nat → Prop
  | [], [], fp => fp = []
  | k :: ks, c :: cs, fp => ∃ f g, fp = f ++ g ∧ Owns h k c f ∧ OwnsAll h ks cs g
  | _, _, _ => False
end

/-- The memory holds the tree at a pointer, and no array is used for the children of two elements, nor for the
root. -/
def HoldsApart (h : EHeap) (p : Ptr) (t : Element) : Prop :=
  ∃ e fp, h.get p = some e ∧ Owns h t e fp ∧ fp.Nodup ∧ p.arr ∉ fp

/-! ### Anonymous types -/

/-- A type without a name. -/
def AnonType (t : Element) : Prop :=
  (t.name = ⟨schemaNS, b!"complexType"⟩ ∨ t.name = ⟨schemaNS, b!"simpleType"⟩) ∧ t.attr [] b!"name" = []

instance (t : Element) : Decidable (AnonType t) := by unfold AnonType; infer_instance

/-- How an anonymous type is moved: the attribute by which its parent refers to it afterwards, the value of this
attribute, and the attributes of the type afterwards. -/
structure Move where
  attr : Str
  value : Str
  rename : List Attr → List Attr

/-- The element with other attributes. -/
def withAttrs (f : List Attr → List Attr) : Element → Element
  | .mk n a s c ks => .mk n (f a) s c ks

/-- A pass over a document in document order that moves anonymous types: which elements are looked at, given
that they have an anonymous type, and what is done with them, depending on a state. -/
structure Plan (σ : Type) where
  cand : Element → Bool
  move : σ → Element → σ × Option Move

/-- The index of the anonymous type of an element that the pass looks at. -/
def Plan.pick {σ : Type} (P : Plan σ) (t : Element) : Option Nat :=
  if P.cand t then t.children.findIdx? AnonType else none

mutual
/-- The tree that remains, the types that were moved out of it, and the new state. -/
def hoist {σ : Type} (P : Plan σ) : Element → σ → Element × List Element × σ
  | .mk n a s c ks, st => match P.pick (.mk n a s c ks) with
    | none => let r := hoistAll P ks st
      (.mk n a s c r.1, r.2)
    | some i => match P.move st (.mk n a s c ks) with
      | (st, none) => let r := hoistAll P ks st
        (.mk n a s c r.1, r.2)
      | (st, some m) => let r := hoistAll P ks st
        (.mk n (attrSet [] m.attr m.value a) s [] (r.1.eraseIdx i),
          ((r.1[i]?).map (withAttrs m.rename)).toList ++ r.2.1, r.2.2)
def hoistAll {σ : Type} (P : Plan σ) : List Element → σ → List Element × List Element × σ
  | [], st => ([], [], st)
  | k :: ks, st =>
    let r := hoist P k st
    let q := hoistAll P ks r.2.2
    (r.1 :: q.1, r.2.1 ++ q.2.1, q.2.2)
end

/-- The document afterwards: the types follow the other children of the root. -/
def hoistRoot {σ : Type} (P : Plan σ) : Element → σ → Element × σ
  | .mk n a s c ks, st =>
    let r := hoistAll P ks st
    (.mk n a s c (r.1 ++ r.2.1), r.2.2)

/-- Every element that the pass looks at has one anonymous type, and the other children are not themselves looked
at. -/
def Tidy {σ : Type} (P : Plan σ) (t : Element) : Prop :=
  ∀ p x, t.at? p = some x → P.pick x ≠ none → (x.children.filter AnonType).length = 1 ∧ ∀ k ∈ x.children, P.pick k = none

/-- So is every child of the root, which moreover has no anonymous type itself. -/
def TidyDoc {σ : Type} (P : Plan σ) (t : Element) : Prop := ∀ k ∈ t.children, P.pick k = none ∧ Tidy P k

/-! ### The two passes -/

/-- The attribute that refers to a type, for each kind of element that may have an anonymous type. -/
def referrer (loc : Str) : Str :=
  if loc = b!"list" then b!"itemType" else if loc = b!"restriction" then b!"base" else if loc = b!"union" then b!"memberTypes" else b!"type"

/-- Numbered names: the state is the number of the last name given. A union keeps the types it has. -/
def numbered (tns : Str) : Plan Nat where
  cand := fun _ => true
  move := fun k x =>
    if x.name.space = schemaNS then
      (k + 1, some
        { attr := referrer x.name.loc
          value := (if x.name.loc = b!"union" then x.attr [] b!"memberTypes" ++ b!" " else []) ++ prefixOf x.scope ⟨tns, b!"_anon" ++ natStr (k + 1)⟩
          rename := fun a => attrSet [] b!"_isAnonymous" b!"true" (attrSet [] b!"name" (b!"_anon" ++ natStr (k + 1)) a) })
    else (k, none)

/-- Names of elements and attributes: the state is the list of names that are taken. -/
def byElement (tns : Str) : Plan (List XName) where
  cand := fun x => decide ((x.name = ⟨schemaNS, b!"element"⟩ ∨ x.name = ⟨schemaNS, b!"attribute"⟩) ∧ x.attr [] b!"name" ≠ [])
  move := fun used x =>
    let name := resolveDefault x.scope (x.attr [] b!"name") tns
    if name ∈ used then (used, none)
    else (name :: used, some
      { attr := b!"type"
        value := prefixOf x.scope name
        rename := attrSet [] b!"name" (x.attr [] b!"name") })

/-! ### Several documents -/

/-- The memory holds the trees at their pointers, and no array is used for the children of two elements, or for
the children of an element and a root. -/
def HoldsDocs (h : EHeap) (docs : List (Ptr × Element)) : Prop :=
  ∃ fps : List (List Nat), List.Forall₂ (fun d fp => ∃ e, h.get d.1 = some e ∧ Owns h d.2 e fp) docs fps ∧ fps.flatten.Nodup ∧
    (docs.map (·.1)).Nodup ∧ ∀ d ∈ docs, d.1.arr ∉ fps.flatten

/-- The documents with numbered types, and the number of the last one. -/
def numberDocs : List (Ptr × Element) → Nat → List (Ptr × Element) × Nat
  | [], k => ([], k)
  | d :: ds, k =>
    let r := hoistRoot (numbered (d.2.attr [] b!"targetNamespace")) d.2 k
    let q := numberDocs ds r.2
    ((d.1, r.1) :: q.1, q.2)

/-- The types that are moved to the top of the documents. -/
def movedTypes : List (Ptr × Element) → Nat → List Element
  | [], _ => []
  | d :: ds, k =>
    let r := hoistAll (numbered (d.2.attr [] b!"targetNamespace")) d.2.children k
    r.2.1 ++ movedTypes ds r.2.2

/-- The elements that may have an anonymous type according to XML Schema. -/
def TypeHolders (t : Element) : Prop :=
  ∀ p x, t.at? p = some x → p ≠ [] → x.name.space = schemaNS → (∃ k ∈ x.children, AnonType k) →
    x.name.loc ∈ [b!"element", b!"attribute", b!"list", b!"restriction", b!"union"]

end GoXml.Xsd
