import Verif.Model.XsdgenValues
set_option autoImplicit false

/-! Parts of the content of documents. -/

namespace GoXml.Values

/-- The elements among the pieces. -/
def elemsOf : List XNode → List XNode
  | [] => []
  | .text _ :: ks => elemsOf ks
  | .elem n as l :: ks => .elem n as l :: elemsOf ks

/-- The element at a position below an element. -/
def XNode.at? : XNode → List Nat → Option XNode
  | x, [] => some x
  | .text _, _ :: _ => none
  | .elem _ _ ks, i :: p => match (elemsOf ks)[i]? with
    | none => none
    | some k => k.at? p

mutual
/-- The content without the text beside elements. -/
def XNode.data : XNode → XNode
  | .text s => .text s
  | .elem n as ks => if (elemsOf ks).isEmpty then .elem n as ks else .elem n as (dataL ks)
def dataL : List XNode → List XNode
  | [] => []
  | .text _ :: ks => dataL ks
  | .elem n as l :: ks => (XNode.elem n as l).data :: dataL ks
end

end GoXml.Values
