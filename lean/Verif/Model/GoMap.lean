import Verif.Basic
set_option autoImplicit false

/-! Go maps: association lists without repeated keys. Code that ranges over a map gets the entries in
an arbitrary order, which is modelled by quantifying over all permutations of the list. -/

namespace GoXml

abbrev GoMap (κ α : Type) := List (κ × α)

namespace GoMap
variable {κ α : Type} [DecidableEq κ]

/-- `m[k]` with the boolean. -/
def get (m : GoMap κ α) (k : κ) : Option α := (m.find? fun e => decide (e.1 = k)).map (·.2)

/-- `m[k] = v`. -/
def set (m : GoMap κ α) (k : κ) (v : α) : GoMap κ α := m.filter (fun e => decide (e.1 ≠ k)) ++ [(k, v)]

/-- `delete(m, k)`. -/
def erase (m : GoMap κ α) (k : κ) : GoMap κ α := m.filter fun e => decide (e.1 ≠ k)

end GoMap
end GoXml
