import Verif.Model.XsdParse
import Verif.Spec.Builtin
set_option autoImplicit false

/-! Specifications for linking types (C37, C38, C39, C40, C72). -/

namespace GoXml.Xsd

/-! ### Types mentioned by a type -/

/-- The types that an object mentions: its base and those of its elements and attributes, or its base
and the members of the union. -/
def TObj.tys : TObj → List Ty
  | .complex c => c.base.toList ++ c.elements.map (·.type) ++ c.attributes.map (·.type)
  | .simple s => s.base.toList ++ s.union

/-- The same object with each type it mentions replaced. -/
def TObj.mapTy (f : Ty → Ty) : TObj → TObj
  | .complex c => .complex { c with
      base := c.base.map f
      elements := c.elements.map fun e => { e with type := f e.type }
      attributes := c.attributes.map fun a => { a with type := f a.type } }
  | .simple s => .simple { s with base := s.base.map f, union := s.union.map f }

def Ty.isLink : Ty → Bool
  | .link _ => true
  | _ => false

/-- The type that a link stands for, given what names mean. -/
def linkTo (lk : XName → Option Ty) : Ty → Ty
  | .link n => (lk n).getD (.link n)
  | t => t

/-- `u` can be reached from `t` by going from types to types they mention. -/
inductive Reach (H : THeap) : Ty → Ty → Prop
  | refl (t : Ty) : Reach H t t
  | step {t u : Ty} {id : Nat} {o : TObj} : Reach H t (.obj id) → H[id]? = some o → u ∈ o.tys → Reach H t u

/-- What a name means: a built-in type of that name; else a type in the first table; else one in the
second. -/
def Meaning (ext own : XName → Option Ty) (n : XName) (t : Ty) : Prop :=
  (∃ b : Int, 0 ≤ b ∧ b < 50 ∧ builtinName b = n ∧ t = .builtin b) ∨
  (∀ b : Int, 0 ≤ b → b < 50 → builtinName b ≠ n) ∧ (ext n = some t ∨ ext n = none ∧ own n = some t)

/-! ### Base chains -/

/-- Following bases from `t` ends in a built-in type. -/
inductive EndsInBuiltin (H : THeap) : Ty → Prop
  | builtin (b : Builtin) : EndsInBuiltin H (.builtin b)
  | step {id : Nat} {o : TObj} {b : Ty} : H[id]? = some o → o.base = some b → EndsInBuiltin H b → EndsInBuiltin H (.obj id)

/-! ### Mixed content -/

/-- Mixed content: declared, or the base is a simpleType, or an extension of a type with mixed content;
`anyType` has mixed content. -/
inductive IsMixed (H : THeap) : Ty → Prop
  | any : IsMixed H (.builtin 0)
  | declared {id : Nat} {c : ComplexT} : H[id]? = some (.complex c) → c.mixed = true → IsMixed H (.obj id)
  | simpleBase {id b : Nat} {c : ComplexT} {s : SimpleT} : H[id]? = some (.complex c) → c.base = some (.obj b) →
      H[b]? = some (.simple s) → IsMixed H (.obj id)
  | extension {id : Nat} {c : ComplexT} {b : Ty} : H[id]? = some (.complex c) → c.base = some b → c.extends_ = true →
      IsMixed H b → IsMixed H (.obj id)

/-- The base chain of `t` ends, without a link, after at most `n` steps. -/
inductive Chain (H : THeap) : Nat → Ty → Prop
  | builtin (n : Nat) (b : Builtin) : Chain H n (.builtin b)
  | last {n : Nat} {id : Nat} {o : TObj} : H[id]? = some o → o.base = none → Chain H n (.obj id)
  | step {n id : Nat} {o : TObj} {b : Ty} : H[id]? = some o → o.base = some b → Chain H n b → Chain H (n + 1) (.obj id)

/-- `b` is on the base chain of `t`. -/
inductive OnChain (H : THeap) : Ty → Ty → Prop
  | refl (t : Ty) : OnChain H t t
  | step {id : Nat} {o : TObj} {b u : Ty} : H[id]? = some o → o.base = some b → OnChain H b u → OnChain H (.obj id) u

/-- An object with the given flag for mixed content; simple types have none. -/
def TObj.withMixed (m : Bool) : TObj → TObj
  | .complex c => .complex { c with mixed := m }
  | .simple s => .simple s

end GoXml.Xsd
