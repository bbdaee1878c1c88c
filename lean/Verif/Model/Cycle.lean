import Verif.Model.Marshal
set_option autoImplicit false

/-! `encode` on element graphs: elements are addressed by pointers and may contain themselves. -/

namespace GoXml

/-- The fields of an element in memory; children are addresses. -/
structure Cell where
  name : XName
  attrs : List Attr
  scope : Scope
  content : Str
  kids : List Nat

/-- The loop over the children (xmltree/marshal.go:104-110): `none` if one of the calls does not
return. -/
def kidsOut (enc : Nat → Option Str) : List Nat → Option Str
  | [] => some []
  | k :: ks =>
    match enc k with
    | none => none
    | some s => (kidsOut enc ks).map (s ++ ·)

/-- `encoder.encode` (xmltree/marshal.go:83-115) for `Marshal` on an element graph `g`, from the
element at address `id`; `visited` holds the addresses of the elements being written. The number
bounds the depth of recursion, and `none` means that it was not enough. -/
def encodeG (g : Nat → Cell) : Nat → Option Scope → List Nat → Nat → Option Str
  | 0, _, _, _ => none
  | f + 1, parent, visited, id =>
    if visited.length > recursionLimit then some []
    else if id ∈ visited then some b!"<!-- cycle detected -->"
    else
      let c := g id
      let isEmpty := c.kids.isEmpty
      let open' := b!"<" ++ prefixOf c.scope c.name ++ attrsText c.scope c.attrs ++
        nsText (diffScope parent c.scope) ++ (if isEmpty && c.content.isEmpty then b!" />" else b!">")
      if isEmpty then
        (if c.content.isEmpty then some open' else some (open' ++ c.content ++ endText c.name c.scope))
      else
        (kidsOut (encodeG g f (some c.scope) (id :: visited)) c.kids).map fun s =>
          open' ++ s ++ endText c.name c.scope

end GoXml
