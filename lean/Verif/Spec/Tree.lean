import Verif.Model.XmlTree

/-! Positions in element trees. -/

namespace GoXml

/-- The element at a position (list of child indices from the root). -/
def Element.at? : Element → List Nat → Option Element
  | e, [] => some e
  | e, i :: p => match e.children[i]? with
    | none => none
    | some c => c.at? p

/-- Document order of positions: an element comes before its descendants, and everything below an
earlier sibling comes before everything below a later one. -/
inductive DocBefore : List Nat → List Nat → Prop
  | ancestor (p : List Nat) (i : Nat) (q : List Nat) : DocBefore p (p ++ i :: q)
  | sibling (p : List Nat) (i j : Nat) (q r : List Nat) : i < j → DocBefore (p ++ i :: q) (p ++ j :: r)

end GoXml
