import Verif.Spec.XsdgenSpec
import Verif.Spec.XsdgenClosed
set_option autoImplicit false

/-! Vocabulary for the theorems that relate the generated declarations to the types of the schema. -/

namespace GoXml.Xsdgen
open Xsd

/-- A type that is neither built in nor derived from anything. -/
def DeadEnd (H : THeap) (t : Ty) : Prop := baseOf H t = none ∧ ∀ b, t ≠ .builtin b

/-- The second type may stand for the first: it is the same or one that the first is derived from. If the chain of
types that it is derived from does not reach a built-in type, the type of any content counts as its end. -/
def Stands (H : THeap) (t a : Ty) : Prop := Ancestor H t a ∨ (a = .builtin AnyType ∧ ∃ d, Ancestor H t d ∧ DeadEnd H d)

/-- What may take the place of the base of a type. -/
def Below (H : THeap) (j : Nat) (t : Ty) : Prop :=
  (∃ b, baseOf H (.obj j) = some b ∧ Stands H b t) ∨ (baseOf H (.obj j) = none ∧ t = .builtin AnyType)

/-- A type that is worth a declaration. -/
def Deserving (cfg : Config) (H : THeap) (k : Nat) : Prop := ∃ o, H[k]? = some o ∧ Worth cfg H k o

/-- A type that may take the place of another: it stands for it, and is the same if that one is among those to be kept. -/
def Replaces (W : Nat → Prop) (H : THeap) (t a : Ty) : Prop := Stands H t a ∧ ∀ k, W k → t = .obj k → a = t

/-- An element but for its type, which takes the place of the one of the original. -/
def LikeElem (W : Nat → Prop) (H : THeap) (e e' : XElem) : Prop := { e' with type := e.type } = e ∧ Replaces W H e.type e'.type

/-- An attribute but for its type, which takes the place of the one of the original. -/
def LikeAttr (W : Nat → Prop) (H : THeap) (a a' : XAttr) : Prop := { a' with type := a.type } = a ∧ Replaces W H a.type a'.type

/-- A field is left out by the configuration. -/
def ElemIgnored (cfg : Config) (e : XElem) : Prop := ∃ p, cfg.filterElements = some p ∧ p e = true
def AttrIgnored (cfg : Config) (a : XAttr) : Prop := ∃ p, cfg.filterAttributes = some p ∧ p a = true

/-- What a simple type is declared as: a list as a slice of what stands for its items, a union as a string, and any
other type as what stands for its base. -/
def SimpleMeans (env : Env) (cfg : Config) (H : THeap) (id : Nat) (s : SimpleT) (d : DeclExpr) : Prop :=
  (s.list = true → ∃ t item, Below H id t ∧ exprOf env cfg H t = .ok item ∧ d = .plain (.array item)) ∧
  (s.list = false → s.union ≠ [] → d = .plain (.ident b!"string")) ∧
  (s.list = false → s.union = [] → ∃ t item, Below H id t ∧ exprOf env cfg H t = .ok item ∧ d = .plain item)

/-- What a complex type is declared as: a struct that has a field for each of its elements and attributes that is not
ignored, and no field but those, fields for text, and fields for elements and attributes of types that it is derived from. The types of fields that
are worth a declaration are not replaced. -/
def ComplexMeans (env : Env) (cfg : Config) (H : THeap) (id : Nat) (c : ComplexT) (d : DeclExpr) : Prop :=
  ∃ fields, d = .struct fields ∧
    (∀ e ∈ c.elements, ∃ e', LikeElem (Deserving cfg H) H e e' ∧ (ElemIgnored cfg e' ∨ ∃ f ∈ fields, ElemField env cfg H e' f)) ∧
    (∀ a ∈ c.attributes, ∃ a', LikeAttr (Deserving cfg H) H a a' ∧ (AttrIgnored cfg a' ∨ ∃ f ∈ fields, AttrField env cfg H a' f)) ∧
    ∀ f ∈ fields, f.tag = b!"xml:\",chardata\"" ∨
      ∃ k c', Ancestor H (.obj id) (.obj k) ∧ H[k]? = some (.complex c') ∧
        ((∃ e ∈ c'.elements, ∃ e', LikeElem (Deserving cfg H) H e e' ∧ ¬ ElemIgnored cfg e' ∧ ElemField env cfg H e' f) ∨
         ∃ a ∈ c'.attributes, ∃ a', LikeAttr (Deserving cfg H) H a a' ∧ ¬ AttrIgnored cfg a' ∧ AttrField env cfg H a' f)

/-- What a type is declared as. -/
def Means (env : Env) (cfg : Config) (H : THeap) (id : Nat) (d : DeclExpr) : Prop :=
  (∀ s, H[id]? = some (.simple s) → SimpleMeans env cfg H id s d) ∧ (∀ c, H[id]? = some (.complex c) → ComplexMeans env cfg H id c d)

/-- The values of a simple type are lists: it is declared as a list or is derived from such a type. -/
inductive IsList (H : THeap) : Nat → Prop
  | here {id : Nat} {s : SimpleT} (h : H[id]? = some (.simple s)) (hl : s.list = true) : IsList H id
  | step {id b : Nat} {s : SimpleT} (h : H[id]? = some (.simple s)) (hb : s.base = some (.obj b)) (hl : IsList H b) : IsList H id

end GoXml.Xsdgen
