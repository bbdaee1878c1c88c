import Verif.Spec.XsdgenClosed
import Verif.Model.XsdgenName
set_option autoImplicit false

/-! Vocabulary for the theorems about the names of types. -/

namespace GoXml.Xsdgen
open Xsd

/-- The types and the code after any number of calls of `NameOf`. -/
inductive AfterCalls (env : Env) (cfg : Config) (n k : Nat) (H : THeap) (code : Code) : THeap → Code → Prop
  | start : AfterCalls env cfg n k H code H code
  | call {H1 : THeap} {code1 : Code} {name : XName} {r : THeap × Code × Str} : AfterCalls env cfg n k H code H1 code1 →
      nameOf env cfg n k H1 code1 name = .ok r → AfterCalls env cfg n k H code r.1 r.2.1

/-- The text of a Go type that is predeclared or declared in the file. -/
def Usable (ds : List GoDecl) (text : Str) : Prop :=
  ∃ e : GoExpr, text = exprText e ∧ (leafName e ∈ predeclared ∨ ∃ doc d, GoDecl.type doc (leafName e) d ∈ ds)

/-- Every simple type has a base. -/
def Based (H : THeap) : Prop := ∀ (id : Nat) s, H[id]? = some (.simple s) → s.base ≠ none

/-- A complex type that is derived from a simple one, directly or not, has an attribute that is not ignored,
whatever its type. -/
def Attributed (cfg : Config) (H : THeap) : Prop := ∀ (id sid : Nat) c s, H[id]? = some (.complex c) → Ancestor H (.obj id) (.obj sid) →
  H[sid]? = some (.simple s) → ∃ a ∈ c.attributes, ∀ p, cfg.filterAttributes = some p → ∀ t, p { a with type := t } = false

/-- The built-in types that types are derived from are those of XML Schema, not the attributes of XML. -/
def SchemaBased (H : THeap) : Prop := ∀ (id : Nat) b, Ancestor H (.obj id) (.builtin b) → 0 ≤ b ∧ b < 50 ∧ (builtinName b).space = schemaNS

/-- Every type of the schemas stands in one of them under its own name. It may stand under other names, too: those of
the top-level elements of that type. -/
def Keyed (schemas : List Schema) (H : THeap) : Prop :=
  ∀ s ∈ schemas, ∀ e ∈ s.types, ∀ id, e.2 = .obj id → ∃ s' ∈ schemas, (xmlName H e.2, e.2) ∈ s'.types

/-- The name that document types have is used for nothing else: they stand under their own names only, and nothing else
stands under such a name. -/
def DocsKeyed (schemas : List Schema) (H : THeap) : Prop :=
  ∀ s ∈ schemas, ∀ e ∈ s.types, e.1.loc = b!"_self" ∨ (xmlName H e.2).loc = b!"_self" → xmlName H e.2 = e.1

end GoXml.Xsdgen
