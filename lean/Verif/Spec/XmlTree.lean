import Verif.Model.XmlTree

/-! Specification vocabulary for attributes and scopes. Only the data types of the model are used. -/

namespace GoXml

/-- An attribute is addressed by (space, local): same local name, and same namespace unless the
requested one is empty. -/
def Addressed (space loc : Str) (a : Attr) : Prop :=
  a.name.loc = loc ∧ (space = [] ∨ a.name.space = space)

/-- `q` is the QName `p:l`, split at the first colon; `p` is empty if there is no colon. -/
def QNameParts (q p l : Str) : Prop :=
  (q = p ++ b!":" ++ l ∧ (58 : UInt8) ∉ p) ∨ ((58 : UInt8) ∉ q ∧ p = [] ∧ l = q)

/-- The innermost declaration of prefix `p` in `sc` binds it to `ns`. -/
def Innermost (sc : Scope) (p ns : Str) : Prop :=
  ∃ outer inner, sc = outer ++ ⟨ns, p⟩ :: inner ∧ ∀ d ∈ inner, d.loc ≠ p

/-- Prefix `p` is declared in `sc`. -/
def Declared (sc : Scope) (p : Str) : Prop := ∃ d ∈ sc, d.loc = p

end GoXml
