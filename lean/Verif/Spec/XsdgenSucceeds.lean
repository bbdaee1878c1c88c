import Verif.Spec.XsdgenClosed
import Verif.Model.XsdgenCli
set_option autoImplicit false

/-! Types that Go code should be generated for. -/

namespace GoXml.Xsdgen
open Xsd

/-- A built-in type of XML Schema, as opposed to the types that the package `xsd` has for attributes of XML. -/
def InSchema (b : Builtin) : Prop := 0 ≤ b ∧ b < 50 ∧ (builtinName b).space = schemaNS

/-- The types that xsdgen makes no lists of. -/
def unlisted : List Str :=
  [b!"anyType", b!"ENTITIES", b!"IDREF", b!"IDREFS", b!"NMTOKENS", b!"NOTATION", b!"base64Binary", b!"boolean", b!"float", b!"hexBinary",
    b!"positiveInteger"]

/-- A type of XML Schema or of the heap. -/
def Present (H : THeap) (t : Ty) : Prop := (∃ b, t = .builtin b ∧ InSchema b) ∨ ∃ j, t = .obj j ∧ j < H.length

/-- Types that can be told apart, refer to types that there are, and are derived from built-in ones. -/
structure Coherent (H : THeap) : Prop where
  named : ∀ (i j : Nat) o o', H[i]? = some o → H[j]? = some o' → o.name = o'.name → i = j
  own : OwnNames H
  fields : ∀ (id : Nat) c, H[id]? = some (.complex c) → (∀ e ∈ c.elements, Present H e.type) ∧ ∀ a ∈ c.attributes, Present H a.type
  based : ∀ (id : Nat) o, H[id]? = some o → ∃ b, o.base = some b ∧ Present H b
  /-- No type is derived from itself. -/
  founded : ∀ (id : Nat) b, baseOf H (.obj id) = some b → ¬ Ancestor H b (.obj id)

/-- The items of lists are of types that xsdgen makes lists of. -/
def Listed (H : THeap) : Prop := ∀ (id : Nat) s b, H[id]? = some (.simple s) → s.list = true → Ancestor H (.obj id) (.builtin b) →
  (builtinName b).loc ∉ unlisted

/-- No option changes the types of the schemas before code is generated for them. -/
def Untouched (cfg : Config) (H : THeap) (schemas : List Schema) : Prop := ∀ pre, cfg.preprocessType = some pre →
  ∀ s ∈ schemas, ∀ e ∈ s.types, ∀ all, pre { s with types := all } (some e.2) H = (some e.2, H)

/-- A struct whose only field is a slice. -/
def SliceStruct (d : DeclExpr) : Prop := ∃ f elt, d = .struct [f] ∧ f.type = .array elt

/-- No option changes declarations after they are made, except for structs whose only field is a slice. -/
def Unaltered (cfg : Config) : Prop := ∀ post, cfg.postprocessType = some post → ∀ s : Spec, ¬ SliceStruct s.expr → post s = s

/-- The namespaces that code is generated for: those that are configured, or else those of the documents. -/
def wanted (cfg : Config) (docs : List Doc) : List Str := if cfg.namespaces = [] then lookupTargetNS docs else cfg.namespaces

end GoXml.Xsdgen
