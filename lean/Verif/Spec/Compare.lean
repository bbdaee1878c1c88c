import Verif.Spec.Wf
set_option autoImplicit false

/-! Vocabulary for `Equal`. -/

namespace GoXml

/-- Attributes that are not namespace declarations. -/
def Plain (a : Attr) : Prop := a.name.space ≠ b!"xmlns" ∧ a.name.loc ≠ b!"xmlns"

/-- No attribute name occurs with two values (XML forbids repeated attributes; the tokenizer lets
them pass). -/
def NoConflict (as : List Attr) : Prop := ∀ a ∈ as, ∀ b ∈ as, Plain a → a.name = b.name → a.value = b.value

/-- `P` holds for the element and all elements below it. -/
inductive Everywhere (P : Element → Prop) : Element → Prop
  | mk {e : Element} : P e → (∀ c ∈ e.children, Everywhere P c) → Everywhere P e

/-- Two trees that differ only in the order of sub-elements, at any level. -/
inductive Reordered : Element → Element → Prop
  | mk {name : XName} {attrs : List Attr} {s : Scope} {c : Str} {ks ms ks' : List Element} :
      ks.length = ms.length →
      (∀ (i : Nat) (x y : Element), ks[i]? = some x → ms[i]? = some y → Reordered x y) →
      ms.Perm ks' →
      Reordered (.mk name attrs s c ks) (.mk name attrs s c ks')

/-- The sort key of an element: namespace and local name joined. -/
def sortKeyOf (e : Element) : Str := e.name.space ++ e.name.loc

/-- The children have pairwise different sort keys. -/
def DistinctKids (e : Element) : Prop := (e.children.map sortKeyOf).Nodup

/-- Equality of trees up to white space, order of sub-elements, namespace declarations, and
attributes of the first that the second lacks. -/
inductive Covers : Element → Element → Prop
  | mk {a b : Element} {as bs : List Element} :
      a.name = b.name →
      (∀ y ∈ b.attrs, Plain y → ∃ x ∈ a.attrs, x.name = y.name ∧ x.value = y.value) →
      (a.children = [] → trimSpace a.content = trimSpace b.content) →
      as.Perm a.children → bs.Perm b.children → as.length = bs.length →
      (∀ (i : Nat) (x y : Element), as[i]? = some x → bs[i]? = some y → Covers x y) →
      Covers a b

end GoXml
