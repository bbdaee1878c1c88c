import Verif.Model.XmlTree
set_option autoImplicit false

/-! Model of `xmltree/compare.go`. -/

namespace GoXml

/-- `byName.Less` (xmltree/compare.go:18-20). -/
def elemLess (a b : Element) : Bool := strLt (a.name.space ++ a.name.loc) (b.name.space ++ b.name.loc)

/-- The attributes that `equalElement` looks at (xmltree/compare.go:53, 60). -/
def plainAttr (a : Attr) : Bool := !(a.name.space == b!"xmlns" || a.name.loc == b!"xmlns")

/-- Reading the map built in `equalElement` (xmltree/compare.go:51-57): later entries overwrite
earlier ones, so the list is searched from its end (it is given reversed). -/
def attrMapGet (name : XName) : List Attr → Option Str
  | [] => none
  | a :: as => if plainAttr a && a.name = name then some a.value else attrMapGet name as

/-- The second loop of `equalElement` (xmltree/compare.go:59-66). -/
def attrsCovered (as : List Attr) : List Attr → Bool
  | [] => true
  | b :: bs =>
    if !plainAttr b then attrsCovered as bs
    else if attrMapGet b.name as.reverse = some b.value then attrsCovered as bs
    else false

/-- `equalElement` (xmltree/compare.go:47-68). -/
def equalElement (a b : Element) : Bool :=
  if a.name ≠ b.name then false else attrsCovered a.attrs b.attrs

/-- The loop over the sorted children (xmltree/compare.go:39-43). `cmp` is the recursive call: its
result and what it leaves in the two elements. -/
def kidsLoop (cmp : Element → Element → Bool × Element × Element) :
    List Element → List Element → Bool × List Element × List Element
  | a :: as, b :: bs =>
    let (ok, a', b') := cmp a b
    if !ok then (false, a' :: as, b' :: bs)
    else
      let (r, as', bs') := kidsLoop cmp as bs
      (r, a' :: as', b' :: bs')
  | as, bs => (true, as, bs)

/-- The element with other children. -/
def Element.withChildren (e : Element) (ks : List Element) : Element :=
  .mk e.name e.attrs e.scope e.content ks

/-- `equal` (xmltree/compare.go:23-45): the result and the two elements afterwards (their children
are sorted in place). The number is 1001 minus `depth`; it reaches 0 when `depth > maxDepth`. The
two elements are assumed not to share memory. -/
def equalAt (srt : Sorter elemLess) : Nat → Element → Element → Bool × Element × Element
  | 0, a, b => (false, a, b)
  | f + 1, a, b =>
    if !equalElement a b then (false, a, b)
    else if a.children.length ≠ b.children.length then (false, a, b)
    else if a.children.length = 0 then (decide (trimSpace a.content = trimSpace b.content), a, b)
    else
      let (r, as, bs) := kidsLoop (equalAt srt f) (srt.sort a.children) (srt.sort b.children)
      (r, a.withChildren as, b.withChildren bs)

/-- The constant `maxDepth` (xmltree/compare.go:24). -/
def maxDepth : Nat := 1000

/-- `Equal` (xmltree/compare.go:11-13) with the state it leaves behind. -/
def equalRun (srt : Sorter elemLess) (a b : Element) : Bool × Element × Element :=
  equalAt srt (maxDepth + 1) a b

/-- The result of `Equal` (xmltree/compare.go:11-13). -/
def equal (srt : Sorter elemLess) (a b : Element) : Bool := (equalRun srt a b).1

/-- `equal` when both pointers are the same element (as in `Equal(a, a)`): the one list of children
is sorted twice and then each child is compared with itself. -/
def equalSelfAt (srt : Sorter elemLess) : Nat → Element → Bool
  | 0, _ => false
  | f + 1, a =>
    if !equalElement a a then false
    else if a.children.length = 0 then true
    else (srt.sort (srt.sort a.children)).all (equalSelfAt srt f)

/-- `Equal(a, a)`. -/
def equalSelf (srt : Sorter elemLess) (a : Element) : Bool := equalSelfAt srt (maxDepth + 1) a

end GoXml
