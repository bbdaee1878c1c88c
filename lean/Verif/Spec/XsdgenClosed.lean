import Verif.Spec.XsdgenDecls
set_option autoImplicit false

/-! Vocabulary for the theorems about whether what is generated is complete. -/

namespace GoXml.Xsdgen
open Xsd

/-- The name in a Go type expression. -/
def leafName : GoExpr → Str
  | .ident s => s
  | .array e => leafName e

/-- The names of types in a type declaration. -/
def DeclExpr.uses : DeclExpr → List Str
  | .plain e => [leafName e]
  | .struct fs => fs.map fun f => leafName f.type

/-- The Go types that are used without a declaration: predeclared ones and two of the standard library. -/
def predeclared : List Str :=
  [b!"string", b!"bool", b!"byte", b!"int", b!"int64", b!"uint", b!"uint64", b!"float32", b!"float64", b!"time.Time", b!"xml.Name"]

/-- Every type that a declaration uses is predeclared or declared. -/
def Closed (ds : List GoDecl) : Prop :=
  ∀ doc name e, GoDecl.type doc name e ∈ ds → ∀ x ∈ e.uses, x ∈ predeclared ∨ ∃ doc' e', GoDecl.type doc' x e' ∈ ds

/-- Every name of a type has been replaced by the type. -/
def Resolved (H : THeap) : Prop := ∀ (id : Nat) c, H[id]? = some (.complex c) →
  (∀ e ∈ c.elements, ∀ n, e.type ≠ .link n) ∧ (∀ a ∈ c.attributes, ∀ n, a.type ≠ .link n) ∧ ∀ n, c.base ≠ some (.link n)

/-- A complex type that is derived from a simple one, directly or not, has text. -/
def TextKept (H : THeap) : Prop := ∀ (id sid : Nat) c s, H[id]? = some (.complex c) → Ancestor H (.obj id) (.obj sid) →
  H[sid]? = some (.simple s) → c.mixed = true

/-- No type has the name of a built-in type. -/
def OwnNames (H : THeap) : Prop := ∀ (id : Nat) o, H[id]? = some o → ∀ b, o.name ≠ builtinName b

/-- A type that cannot be replaced by a built-in one: a list, a union, a restriction by values, a pattern or length,
a type with any content, or with an attribute that is not ignored, whatever its type. -/
def HasContent (cfg : Config) : TObj → Prop
  | .simple s => s.list = true ∨ s.union ≠ [] ∨ s.restriction.enum ≠ [] ∨ s.restriction.pattern ≠ none ∨
      s.restriction.minLength ≠ 0 ∨ s.restriction.maxLength ≠ 0
  | .complex c => c.base = some (.builtin AnyType) ∨
      ∃ a ∈ c.attributes, ∀ p, cfg.filterAttributes = some p → ∀ t, p { a with type := t } = false

/-- A type that is derived from the type of any content, through complex types only. -/
inductive FromAny (H : THeap) : Nat → Prop
  | base {id : Nat} {c : ComplexT} : H[id]? = some (.complex c) → c.base = some (.builtin AnyType) → FromAny H id
  | step {id bid : Nat} {c : ComplexT} : H[id]? = some (.complex c) → c.base = some (.obj bid) → FromAny H bid → FromAny H id

/-- A type that is worth a declaration: one with content of its own, a simple type whose values have a special
encoding, or a complex type derived from the type of any content. -/
def Worth (cfg : Config) (H : THeap) (id : Nat) (o : TObj) : Prop :=
  HasContent cfg o ∨ ((∃ s, o = .simple s) ∧ ∃ t, Special t ∧ Ancestor H (.obj id) t) ∨ FromAny H id

/-! ### Types that use themselves -/

/-- A complex type that is more than another name for a built-in type. -/
def Structured (H : THeap) (a : Nat) : Prop := ∃ c, H[a]? = some (.complex c) ∧
  ¬ (c.elements = [] ∧ c.attributes = [] ∧ ∃ b, b ≠ AnyType ∧ c.base = some (.builtin b))

/-- Such types have any content, an attribute that is not ignored, or are derived from such types. -/
def Solid (cfg : Config) (H : THeap) : Prop := ∀ (a : Nat) c, H[a]? = some (.complex c) → Structured H a →
  HasContent cfg (.complex c) ∨ ∃ b, c.base = some (.obj b) ∧ Structured H b

/-- From one type to another in the given number of steps, each from a structured type to one that it refers to. -/
inductive Steps (H : THeap) : Nat → Nat → Nat → Prop
  | zero (a : Nat) : Steps H 0 a a
  | succ {k a b c : Nat} : Structured H a → Structured H b → Uses H a b → Steps H k b c → Steps H (k + 1) a c

/-- What can be reached at all can be reached in less than 1000 steps. -/
def Reachable (H : THeap) : Prop := ∀ k a b, Steps H k a b → ∃ k' < 1000, Steps H k' a b

/-! ### The places of a complex type where a type stands -/

inductive Place where
  | elem (i : Nat)
  | attr (i : Nat)
  | base
  deriving DecidableEq

/-- The type that stands there. -/
def slotTy (H : THeap) (a : Nat) : Place → Option Ty
  | .elem i => elemType H a i
  | .attr i => attrType H a i
  | .base => baseOf H (.obj a)

/-- A structured type refers to one such type in one place at most. -/
def OneWay (H : THeap) : Prop := ∀ a σ τ b c, Structured H a → slotTy H a σ = some (.obj b) → Structured H b →
  slotTy H a τ = some (.obj c) → Structured H c → σ = τ

/-- Complex types have less fields than the number. -/
def FewFields (f : Nat) (H : THeap) : Prop := ∀ (id : Nat) c, H[id]? = some (.complex c) → c.elements.length + c.attributes.length < f

end GoXml.Xsdgen
