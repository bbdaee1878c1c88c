import Verif.Model.Wsdl
import Mathlib.Data.List.Forall2
set_option autoImplicit false

/-! Vocabulary for the functions that wsdlgen generates. -/

namespace GoXml.Wsdl

/-- The private helper types and the types that users see instead. -/
def hiddenTypes : List (Str × Str) :=
  [(b!"xsdDate", b!"time.Time"), (b!"xsdTime", b!"time.Time"), (b!"xsdDateTime", b!"time.Time"),
   (b!"gDay", b!"time.Time"), (b!"gMonth", b!"time.Time"), (b!"gMonthDay", b!"time.Time"),
   (b!"gYear", b!"time.Time"), (b!"gYearMonth", b!"time.Time"),
   (b!"hexBinary", b!"[]byte"), (b!"base64Binary", b!"[]byte"),
   (b!"idrefs", b!"[]string"), (b!"nmtokens", b!"[]string"), (b!"notation", b!"[]string"), (b!"entities", b!"[]string")]

/-- The type a user sees. -/
def shown (t : Str) : Str := ((hiddenTypes.find? fun e => decide (e.1 = t)).map (·.2)).getD t

/-- The Go type of a part: that of its type or, if it has none, of the type of its element. -/
inductive HasType (code : Code) (p : Part) : Str → Prop
  | type (h : p.type.loc ≠ []) : HasType code p (code.nameOf p.type)
  | element (els t rest) (h : p.type.loc = []) (he : p.element.loc ≠ [])
      (hd : code.docType p.element.space = some (els ++ (p.element, t) :: rest))
      (hn : ∀ x ∈ els, x.1 ≠ p.element) : HasType code p (code.nameOf t)

/-- `types` are the Go types of the parts, in order. -/
def HaveTypes (code : Code) (ps : List Part) (types : List Str) : Prop := List.Forall₂ (HasType code) ps types

/-- The name in the text of a parameter, which is before the type. -/
def declaredName (param : Str) : Str := param.takeWhile (· ≠ 32)

/-- The other names that a generated function declares: its receiver and the variables of its body. -/
def localNames : List Str := [b!"c", b!"input", b!"output", b!"err"]

/-- The identifier that the text of a type begins with: the one that is looked up in the function. -/
def rootName (t : Str) : Str := (t.dropWhile (· ∈ b!"[]*")).takeWhile (· ≠ 46)

/-- An ASCII letter, digit or underscore. -/
def IsWord (c : UInt8) : Prop := (48 ≤ c ∧ c ≤ 57) ∨ (65 ≤ c ∧ c ≤ 90) ∨ c = 95 ∨ (97 ≤ c ∧ c ≤ 122)

instance (c : UInt8) : Decidable (IsWord c) := by unfold IsWord; infer_instance

/-- `s` with its first letter in upper case. -/
def capital : Str → Str
  | [] => []
  | c :: cs => (if 97 ≤ c ∧ c ≤ 122 then c - 32 else c) :: cs

/-- An exported Go identifier of ASCII letters, digits and underscores. -/
def Exported (s : Str) : Prop := (∃ c, s.head? = some c ∧ 65 ≤ c ∧ c ≤ 90) ∧ ∀ c ∈ s, IsWord c

end GoXml.Wsdl
