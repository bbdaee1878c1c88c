import Verif.Model.Builtin
set_option autoImplicit false

/-! Model of the passes of `xsd/parse.go` that only read the tree or only set attributes, and of the
predicates in `xsd/search.go`. The passes that move elements around are in `Model/XsdHeap.lean`. -/

namespace GoXml

/-- Replaces the element at a position (a list of child indices): what an assignment through a
pointer does as long as no child list is replaced. Positions that do not exist change nothing. -/
def Element.modifyAt (f : Element → Element) : List Nat → Element → Element
  | [], e => f e
  | i :: p, .mk n a s c ks => .mk n a s c (ks.modify i (Element.modifyAt f p))

namespace Xsd

/-! ### Predicates (xsd/search.go) -/

/-- `isElem` (xsd/search.go:41-48). -/
def isElem (space loc : Str) (el : Element) : Bool :=
  if el.name.loc ≠ loc then false else decide (space = [] ∨ el.name.space = space)

/-- `hasAttr` (xsd/search.go:50-54). -/
def hasAttr (space loc : Str) (el : Element) : Bool := decide (el.attr space loc ≠ [])

/-- `hasAttrValue` (xsd/search.go:56-60). -/
def hasAttrValue (space loc value : Str) (el : Element) : Bool := decide (el.attr space loc = value)

/-! ### Imports -/

/-- `Ref` (xsd/parse.go:39-41). -/
structure Ref where
  ns : Str
  location : Str
deriving DecidableEq

/-- The `<schema>` elements of a document (xsd/parse.go:60-65, also 101-105). -/
def schemaElements (root : Element) : List Element :=
  if root.name = ⟨schemaNS, b!"schema"⟩ then [root]
  else (root.search schemaNS b!"schema").map (·.2)

/-- `Imports` (xsd/parse.go:47-76), after the document has been parsed. -/
def imports (root : Element) : List Ref :=
  (root.search schemaNS b!"import").map (fun v => ⟨v.2.attr [] b!"namespace", v.2.attr [] b!"schemaLocation"⟩) ++
  (schemaElements root).flatMap fun tree =>
    (tree.search schemaNS b!"include").map fun v =>
      ⟨tree.attr [] b!"targetNamespace", v.2.attr [] b!"schemaLocation"⟩

/-! ### Default types -/

/-- `el.SetAttr("", loc, value)` on each of the elements at the given positions, in order; the value may depend on the scope of `el`. -/
def setAttrs (loc : Str) (value : Scope → Str) (root : Element) (ps : List (List Nat)) : Element :=
  ps.foldl (fun r p => r.modifyAt (fun e => e.setAttr [] loc (value e.scope)) p) root

/-- `attributeDefaultType` (xsd/parse.go:581-590). -/
def attributeDefaultType (root : Element) : Element :=
  setAttrs b!"type" (fun sc => prefixOf sc ⟨schemaNS, b!"anySimpleType"⟩) root
    ((root.searchFunc fun _ e => isElem schemaNS b!"attribute" e && hasAttrValue [] b!"type" [] e).map (·.1))

/-- `elementDefaultType` (xsd/parse.go:597-606). -/
def elementDefaultType (root : Element) : Element :=
  setAttrs b!"type" (fun sc => prefixOf sc ⟨schemaNS, b!"anyType"⟩) root
    ((root.searchFunc fun _ e => isElem schemaNS b!"element" e && hasAttrValue [] b!"type" [] e).map (·.1))

/-! ### Choices -/

/-- The positions that the two inner loops of `setChoicesOptional` (xsd/parse.go:246-260) set, for
the choice `el` at position `p`: child `i`, or all its children if it is a sequence. -/
def choiceTargets (p : List Nat) : Nat → List Element → List (List Nat)
  | _, [] => []
  | i, t :: ts =>
    (if t.name.space = schemaNS ∧ t.name.loc = b!"sequence" then
      (List.range t.children.length).map fun j => p ++ [i, j]
    else [p ++ [i]]) ++ choiceTargets p (i + 1) ts

/-- `setChoicesOptional` (xsd/parse.go:243-264). The names of elements and the numbers of children
do not change in the loop, so the positions to set are those of the tree before it. -/
def setChoicesOptional (root : Element) : Element :=
  setAttrs b!"minOccurs" (fun _ => b!"0") root
    ((root.searchFunc fun _ e => isElem schemaNS b!"choice" e).flatMap fun pe => choiceTargets pe.1 0 pe.2.children)

/-! ### Dereferencing -/

/-- The attributes whose QNames are converted (xsd/parse.go:413-422): only `type`. -/
def derefAttr (refScope realScope : Scope) (a : Attr) : Attr :=
  if a.name = ⟨[], b!"type"⟩ then { a with value := prefixOf refScope (resolve realScope a.value) } else a

/-- The loop over the reference's attributes (xsd/parse.go:431-435). -/
def overrideAttrs : List Attr → List Attr → List Attr
  | as, [] => as
  | as, r :: rs =>
    overrideAttrs (if r.name ≠ ⟨[], b!"ref"⟩ then attrSet r.name.space r.name.loc r.value as else as) rs

/-- The attributes of `deref(ref, real)` (xsd/parse.go:407-435). -/
def derefAttrs (refScope realScope : Scope) (refAttrs realAttrs : List Attr) : List Attr :=
  overrideAttrs (realAttrs.map (derefAttr refScope realScope)) refAttrs

/-- `deref` (xsd/parse.go:403-438) on values. The children are copied. -/
def deref (ref real : Element) : Element :=
  .mk real.name (derefAttrs ref.scope real.scope ref.attrs real.attrs)
    (if real.children.length > 0 then joinScope real.scope ref.scope else ref.scope)
    real.content real.children

end Xsd
end GoXml
