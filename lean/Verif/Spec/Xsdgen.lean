import Verif.Model.XsdgenTypes
set_option autoImplicit false

/-! Vocabulary for the theorems about xsdgen; independent of how the model computes. -/

namespace GoXml.Xsdgen
open Xsd

/-- Applying an option and then `n` times the option that the last application returned: the
configuration and the option returned last. -/
def undoChain {C O : Type} (apply : O → C → C × O) (o : O) (c : C) : Nat → C × O
  | 0 => apply o c
  | n + 1 => apply (undoChain apply o c n).2 (undoChain apply o c n).1

/-- The returned option undoes the option, the next one does it again, and so on for ever. -/
def Undoable {C O : Type} (apply : O → C → C × O) (o : O) (c : C) : Prop :=
  ∀ n : Nat, (undoChain apply o c (2 * n)).1 = (apply o c).1 ∧ (undoChain apply o c (2 * n + 1)).1 = c

/-- The effect of one replacement rule (pattern, replacement) on a name: none if the pattern is invalid. -/
def ruled (compile : Str → Option Regexp) (s : Str) (rule : Str × Str) : Str :=
  match compile rule.1 with
  | some r => r.replaceAll s rule.2
  | none => s

/-- The local part that a configuration makes of a name, before its first letter is changed. -/
def localName (cfg : Config) (n : XName) : Str :=
  match cfg.nameTransform with
  | some f => (f n).loc
  | none => n.loc

/-- A type is selected by the configuration: allowed if some types are, and not filtered out. -/
def Selected (cfg : Config) (n : XName) : Prop :=
  (∀ m, cfg.allowTypes = some m → GoMap.get m n = some true) ∧ (∀ f, cfg.filterTypes = some f → f n = false)

/-- The elements of a list before which no element has the same key, in their order. -/
def firsts {α κ : Type} [DecidableEq κ] (key : α → κ) (l : List α) : List α :=
  (l.zipIdx.filter fun (p : α × Nat) => decide (∀ q ∈ l.take p.2, key q ≠ key p.1)).map (·.1)

/-- The second type is the first or one that it is derived from, directly or not. -/
inductive Ancestor (H : THeap) : Ty → Ty → Prop
  | self (t : Ty) : Ancestor H t t
  | base {t b a : Ty} : baseOf H t = some b → Ancestor H b a → Ancestor H t a

/-- The chain of bases of a type has at most the given number of members after the type. -/
inductive EndsWithin (H : THeap) : Nat → Ty → Prop
  | none {n : Nat} {t : Ty} : baseOf H t = Option.none → EndsWithin H n t
  | base {n : Nat} {t b : Ty} : baseOf H t = some b → EndsWithin H n b → EndsWithin H (n + 1) t

/-- A complex type and the complex types it is derived from, nearest first. -/
inductive Lineage (H : THeap) : Nat → List ComplexT → Prop
  | top {id : Nat} {c : ComplexT} : H[id]? = some (.complex c) →
      (∀ bid b, c.base = some (.obj bid) → H[bid]? ≠ some (.complex b)) → Lineage H id [c]
  | derived {id bid : Nat} {c : ComplexT} {cs : List ComplexT} : H[id]? = some (.complex c) →
      c.base = some (.obj bid) → Lineage H bid cs → Lineage H id (c :: cs)

/-- The elements of a type with its ancestors (nearest first): those of the most distant ancestor come
first, and one is left out if a type nearer than its own has an element of that name. -/
def inheritedElems (cs : List ComplexT) : List XElem :=
  cs.zipIdx.reverse.flatMap fun (p : ComplexT × Nat) =>
    p.1.elements.filter fun e => decide (∀ d ∈ cs.take p.2, e.name ∉ d.elements.map (·.name))

/-- The attributes, with those of the nearest type first. -/
def inheritedAttrs (cs : List ComplexT) : List XAttr :=
  cs.zipIdx.flatMap fun (p : ComplexT × Nat) =>
    p.1.attributes.filter fun a => decide (∀ d ∈ cs.take p.2, a.name ∉ d.attributes.map (·.name))

/-- A type that has its own fields and all inherited ones. -/
def withInherited (c : ComplexT) (cs : List ComplexT) : ComplexT :=
  { c with
    elements := inheritedElems (c :: cs), attributes := inheritedAttrs (c :: cs)
    extends_ := if cs = [] then c.extends_ else false }

/-- A simple type, the simple types it is derived from (nearest first), and the built-in type at the end. -/
inductive SimpleChain (H : THeap) : Nat → List Nat → Builtin → Prop
  | last {id : Nat} {s : SimpleT} {b : Builtin} : H[id]? = some (.simple s) → s.base = some (.builtin b) →
      SimpleChain H id [] b
  | step {id bid : Nat} {s : SimpleT} {ids : List Nat} {b : Builtin} : H[id]? = some (.simple s) →
      s.base = some (.obj bid) → SimpleChain H bid ids b → SimpleChain H id (bid :: ids) b

/-- The built-in types whose values need methods of their own: binary data and times. -/
def specialBuiltins : List Str :=
  [b!"base64Binary", b!"hexBinary", b!"date", b!"time", b!"dateTime", b!"gDay", b!"gMonth", b!"gMonthDay", b!"gYear",
    b!"gYearMonth"]

/-- A simple type over a built-in says more than the built-in: it is a list or a union, needs methods, or
restricts the values by an enumeration, a pattern or a length. -/
def SaysMore (s : SimpleT) (b : Builtin) : Prop :=
  s.list = true ∨ s.union ≠ [] ∨ builtinName b ∈ specialBuiltins.map (XName.mk schemaNS) ∨
  s.restriction.enum ≠ [] ∨ s.restriction.pattern ≠ none ∨
  s.restriction.length ≠ 0 ∨ s.restriction.minLength ≠ 0 ∨ s.restriction.maxLength ≠ 0

/-- The definition of the first type refers to the second. -/
inductive Uses (H : THeap) : Nat → Nat → Prop
  | base {a b : Nat} : baseOf H (.obj a) = some (.obj b) → Uses H a b
  | elem {a b : Nat} {c : ComplexT} {e : XElem} : H[a]? = some (.complex c) → e ∈ c.elements → e.type = .obj b → Uses H a b
  | attr {a b : Nat} {c : ComplexT} {e : XAttr} : H[a]? = some (.complex c) → e ∈ c.attributes → e.type = .obj b →
      Uses H a b

/-- The second type is the first or is referred to by it, directly or not. -/
inductive Needs (H : THeap) : Nat → Nat → Prop
  | self (a : Nat) : Needs H a a
  | step {a b c : Nat} : Uses H a b → Needs H b c → Needs H a c

end GoXml.Xsdgen
