import Verif.Spec.XsdgenValues
set_option autoImplicit false

/-! Vocabulary for the theorem about types that contain themselves. -/

namespace GoXml.Values
open Xsd Xsdgen

/-- A value of the Go type `s` has one of the type `t` inside. Slices have other values at the end of a pointer. -/
inductive Inside (decls : GoMap Str Spec) : Str → Str → Prop
  | field {s t : Str} {sp : Spec} {fs : List Field} {f : Field} : decls.get s = some sp → sp.expr = .struct fs → f ∈ fs → f.type = .ident t →
      Inside decls s t
  | definition {s t : Str} {sp : Spec} : decls.get s = some sp → sp.expr = .plain (.ident t) → Inside decls s t

/-- Something of the schema type `a` has something of the type `b` inside that is not repeated: an element, an attribute, its text, or itself, if `a` is a
restriction of `b`. -/
inductive Within (cfg : Config) (H : THeap) : Ty → Ty → Prop
  | element {id : Nat} {c : ComplexT} {el : XElem} : H[id]? = some (.complex c) → el ∈ (filterFields cfg c).2 → el.plural = false →
      Within cfg H (.obj id) el.type
  | attr {id : Nat} {c : ComplexT} {a : XAttr} : H[id]? = some (.complex c) → a ∈ (filterFields cfg c).1 → Within cfg H (.obj id) a.type
  | text {id : Nat} {c : ComplexT} {b t : Ty} : H[id]? = some (.complex c) → c.mixed = true → c.base = some b → TextFrom H b t →
      Within cfg H (.obj id) t
  | base {id : Nat} {s : SimpleT} {b : Ty} : H[id]? = some (.simple s) → s.list = false → s.union = [] → s.base = some b → Within cfg H (.obj id) b

/-- Go rejects types whose values have a value of the same type inside. -/
def Recursive (decls : GoMap Str Spec) : Prop := ∃ s, Relation.TransGen (Inside decls) s s

end GoXml.Values
