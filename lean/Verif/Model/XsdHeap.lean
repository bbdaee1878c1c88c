import Verif.Model.XsdTree
import Verif.Model.Graph
import Verif.Model.GoMap
set_option autoImplicit false

/-! Model of the passes of `xsd/parse.go` that move elements around, with memory: the children of an element
are a slice, that is, a part of a backing array, and a pointer to an element is a position in an array.
Simplifications: attributes, scopes and contents are values (for scopes see `Model/Alias.lean`); the arrays
that were outgrown while a document was parsed are left out. -/

namespace GoXml.Xsd

/-- A slice of elements: backing array and length. All slices here start at the beginning of their array, and
their capacity is the length of the array. -/
structure HSlice where
  arr : Nat
  len : Nat
deriving DecidableEq, Repr

/-- `Element` (xmltree/xmltree.go:42-52) in memory. -/
structure HElem where
  name : XName
  attrs : List Attr
  scope : Scope
  content : Str
  kids : HSlice
deriving DecidableEq, Repr

/-- The memory: backing arrays. -/
abbrev EHeap := List (List HElem)

/-- A pointer to an element. -/
structure Ptr where
  arr : Nat
  idx : Nat
deriving DecidableEq, Repr

/-- The elements in a slice. -/
def EHeap.cells (h : EHeap) (s : HSlice) : List HElem := ((h[s.arr]?).getD []).take s.len

/-- `*p`. -/
def EHeap.get (h : EHeap) (p : Ptr) : Option HElem := (h[p.arr]?).bind fun a => a[p.idx]?

/-- `*p = e`. -/
def EHeap.put (h : EHeap) (p : Ptr) (e : HElem) : EHeap := h.modify p.arr fun a => a.set p.idx e

def zeroElem : HElem := ⟨⟨[], []⟩, [], [], [], ⟨0, 0⟩⟩

/-- The array of a slice made with capacity `cap`, with the elements in it. -/
def padded (cap : Nat) (cells : List HElem) : List HElem := cells ++ List.replicate (cap - cells.length) zeroElem

/-- Go's `append`. If the capacity suffices the elements are written into the array, otherwise a new one is
made; `grow` gives its capacity from the old capacity and the needed length. -/
def appendCells (grow : Nat → Nat → Nat) (h : EHeap) (s : HSlice) (xs : List HElem) : EHeap × HSlice :=
  let need := s.len + xs.length
  let cap := ((h[s.arr]?).getD []).length
  if need ≤ cap then (h.modify s.arr fun a => a.take s.len ++ xs ++ a.drop need, ⟨s.arr, need⟩)
  else (h ++ [padded (max need (grow cap need)) (h.cells s ++ xs)], ⟨h.length, need⟩)

/-- `append(s[:i], s[i+1:]...)`. -/
def removeCell (h : EHeap) (s : HSlice) (i : Nat) : EHeap × HSlice :=
  (h.modify s.arr fun a => a.take i ++ (h.cells s).drop (i + 1) ++ a.drop (s.len - 1), ⟨s.arr, s.len - 1⟩)

/-- The part of an element that predicates on a single element look at. -/
def HElem.tag (e : HElem) : Element := .mk e.name e.attrs e.scope e.content []

def HElem.attr (e : HElem) (space loc : Str) : Str := attrGet space loc e.attrs

def HElem.setAttr (e : HElem) (space loc value : Str) : HElem := { e with attrs := attrSet space loc value e.attrs }

/-! ### Trees in memory -/

/-- The capacity after `n` calls of `append` with one element, starting from nil. -/
def capAfter (grow : Nat → Nat → Nat) : Nat → Nat
  | 0 => 0
  | n + 1 => if n + 1 ≤ capAfter grow n then capAfter grow n else max (n + 1) (grow (capAfter grow n) (n + 1))

mutual
/-- Puts a parsed document into memory (`Element.parse`, xmltree/xmltree.go:253-281). -/
def load (grow : Nat → Nat → Nat) : Element → EHeap → EHeap × HElem
  | .mk n a s c ks, h =>
    let r := loadAll grow ks h
    (r.1 ++ [padded (capAfter grow ks.length) r.2], ⟨n, a, s, c, ⟨r.1.length, ks.length⟩⟩)
def loadAll (grow : Nat → Nat → Nat) : List Element → EHeap → EHeap × List HElem
  | [], h => (h, [])
  | k :: ks, h =>
    let r := load grow k h
    let q := loadAll grow ks r.1
    (q.1, r.2 :: q.2)
end

/-- A document in memory, and the pointer to its root. -/
def loadDoc (grow : Nat → Nat → Nat) (t : Element) (h : EHeap) : EHeap × Ptr :=
  let r := load grow t h
  (r.1 ++ [[r.2]], ⟨r.1.length, 0⟩)

/-- The tree below an element, read to a depth of `n`. -/
def readElem (h : EHeap) : Nat → HElem → Element
  | 0, e => e.tag
  | n + 1, e => .mk e.name e.attrs e.scope e.content ((h.cells e.kids).map (readElem h n))

/-- The tree a pointer leads to. -/
def readPtr (h : EHeap) (n : Nat) (p : Ptr) : Option Element := (h.get p).map (readElem h n)

/-! ### Searching -/

/-- `Element.walk` (xmltree/xmltree.go:285-290) with the closure of `SearchFunc` (xmltree/xmltree.go:326-331),
from index `i` of array `arr`. `none` means that `recur` does not return. -/
def searchCells (recur : HSlice → Option (List Ptr)) (pred : HElem → Bool) (arr i : Nat) : List HElem → Option (List Ptr)
  | [] => some []
  | e :: es => match recur e.kids, searchCells recur pred arr (i + 1) es with
    | some a, some b => some ((if pred e then [⟨arr, i⟩] else []) ++ a ++ b)
    | _, _ => none

/-- `Element.SearchFunc` (xmltree/xmltree.go:322-334) below the element with children `s`; `none` if the calls nest
deeper than `n`. -/
def searchH (h : EHeap) (pred : HElem → Bool) : Nat → HSlice → Option (List Ptr)
  | 0, _ => none
  | n + 1, s => searchCells (searchH h pred n) pred s.arr 0 (h.cells s)

/-- `root.SearchFunc(pred)`. -/
def searchPtr (h : EHeap) (n : Nat) (pred : HElem → Bool) (root : Ptr) : Option (List Ptr) :=
  (h.get root).bind fun e => searchH h pred n e.kids

/-! ### Predicates (xsd/search.go:62-66) -/

def isType (e : HElem) : Bool := isElem schemaNS b!"complexType" e.tag || isElem schemaNS b!"simpleType" e.tag

def isAnonymousType (e : HElem) : Bool := isType e && hasAttrValue [] b!"name" [] e.tag

def hasAnonymousType (h : EHeap) (e : HElem) : Bool := (h.cells e.kids).any isAnonymousType

/-! ### expandComplexShorthand -/

/-- The children that stay children of the complex type (xsd/parse.go:474-481). -/
def staysInType (c : HElem) : Bool := decide (c.name.space ≠ schemaNS ∨ c.name.loc = b!"annotation")

/-- The children that mean that there is no shorthand (xsd/parse.go:482-483). -/
def isContent (c : HElem) : Bool :=
  decide (c.name.space = schemaNS ∧ (c.name.loc = b!"simpleContent" ∨ c.name.loc = b!"complexContent"))

/-- The loop of `expandComplexShorthand` for one element (xsd/parse.go:467-499). -/
def expandAt (grow : Nat → Nat → Nat) (h : EHeap) (p : Ptr) : EHeap :=
  match h.get p with
  | none => h
  | some el =>
    let cs := h.cells el.kids
    if cs.any isContent then h
    else
      let moved := cs.filter (!staysInType ·)
      let kept := cs.filter staysInType
      let restrict : HElem :=
        ⟨⟨schemaNS, b!"restriction"⟩, [⟨⟨[], b!"base"⟩, prefixOf el.scope ⟨schemaNS, b!"anyType"⟩⟩], el.scope, [],
          ⟨h.length, moved.length⟩⟩
      let content : HElem := ⟨⟨schemaNS, b!"complexContent"⟩, [], el.scope, [], ⟨h.length + 1, 1⟩⟩
      let h := h ++ [padded cs.length moved, [restrict], padded cs.length kept]
      let r := appendCells grow h ⟨h.length - 1, kept.length⟩ [content]
      r.1.put p { el with content := [], kids := r.2 }

/-- `expandComplexShorthand` (xsd/parse.go:462-501). -/
def expandComplexShorthand (grow : Nat → Nat → Nat) (n : Nat) (h : EHeap) (root : Ptr) : Option EHeap :=
  (searchPtr h n (fun e => isElem schemaNS b!"complexType" e.tag) root).map fun ps => ps.foldl (expandAt grow) h

/-! ### nameAnonymousTypes -/

/-- The switch (xsd/parse.go:301-318): the attribute to set and the value of `accum`. -/
def typeAttr (loc : Str) : Option (Str × Bool) :=
  if loc = b!"element" ∨ loc = b!"attribute" then some (b!"type", false)
  else if loc = b!"list" then some (b!"itemType", false)
  else if loc = b!"restriction" then some (b!"base", false)
  else if loc = b!"union" then some (b!"memberTypes", true)
  else none

/-- `anonTypeName` (xsd/parse.go:186-188). -/
def anonTypeName (n : Nat) (ns : Str) : XName := ⟨ns, b!"_anon" ++ natStr n⟩

/-- `root.Children = append(root.Children, t)`. -/
def addToRoot (grow : Nat → Nat → Nat) (h : EHeap) (root : Ptr) (t : HElem) : EHeap :=
  match h.get root with
  | none => h
  | some r =>
    let q := appendCells grow h r.kids [t]
    q.1.put root { r with kids := q.2 }

/-- What happens when a type has been given a name (xsd/parse.go:231-234 and 334-337): the parent `el` at `p`
gets the attribute, child `i` is removed from it, and `t` is added to the root. -/
def moveToRoot (grow : Nat → Nat → Nat) (h : EHeap) (root p : Ptr) (el : HElem) (attr qname : Str) (i : Nat) (t : HElem) : EHeap :=
  let r := removeCell h el.kids i
  addToRoot grow (r.1.put p { (el.setAttr [] attr qname) with content := [], kids := r.2 }) root t

/-- The inner loop (xsd/parse.go:319-341) from index `i`; the first number bounds the number of rounds, and
the number of children of the element at the start is enough. -/
def nameLoop (grow : Nat → Nat → Nat) (root p : Ptr) (tns attr : Str) (accum : Bool) : Nat → Nat → EHeap × Nat → EHeap × Nat
  | 0, _, st => st
  | n + 1, i, (h, counter) => match h.get p with
    | none => (h, counter)
    | some el => match (h.cells el.kids)[i]? with
      | none => (h, counter)
      | some t =>
        if isAnonymousType t then
          let name := anonTypeName (counter + 1) tns
          let t := (t.setAttr [] b!"name" name.loc).setAttr [] b!"_isAnonymous" b!"true"
          let qname := prefixOf el.scope name
          let qname := if accum then el.attr [] attr ++ b!" " ++ qname else qname
          let h := moveToRoot grow h root p el attr qname i t
          if accum then nameLoop grow root p tns attr accum n (i + 1) (h, counter + 1) else (h, counter + 1)
        else nameLoop grow root p tns attr accum n (i + 1) (h, counter)

/-- The outer loop (xsd/parse.go:297-342); `none` is an error. -/
def nameTypes (grow : Nat → Nat → Nat) (root : Ptr) (tns : Str) : List Ptr → EHeap × Nat → Option (EHeap × Nat)
  | [], st => some st
  | p :: ps, (h, counter) => match h.get p with
    | none => none
    | some el =>
      if el.name.space ≠ schemaNS then nameTypes grow root tns ps (h, counter)
      else match typeAttr el.name.loc with
        | none => none
        | some (attr, accum) =>
          nameTypes grow root tns ps (nameLoop grow root p tns attr accum el.kids.len 0 (h, counter))

/-- `nameAnonymousTypes` (xsd/parse.go:291-344): the memory and the counter; `none` if there is an error or
the search nests deeper than `n`. -/
def nameAnonymousTypes (grow : Nat → Nat → Nat) (n : Nat) (root : Ptr) (st : EHeap × Nat) : Option (EHeap × Nat) :=
  (st.1.get root).bind fun r =>
    (searchPtr st.1 n (hasAnonymousType st.1) root).bind fun ps => nameTypes grow root (r.attr [] b!"targetNamespace") ps st

/-- The loop of `Normalize` over all documents (xsd/parse.go:111-120). `setChoicesOptional` is left out: it only sets
`minOccurs`, which nothing here looks at. -/
def nameAllTypes (grow : Nat → Nat → Nat) (n : Nat) : List Ptr → EHeap × Nat → Option (EHeap × Nat)
  | [], st => some st
  | root :: roots, st => (nameAnonymousTypes grow n root st).bind (nameAllTypes grow n roots)

/-! ### copyEltNamesToAnonTypes -/

/-- The loop (xsd/parse.go:220-238) for one element; `used` is the set of names in use. -/
def copyNameAt (grow : Nat → Nat → Nat) (root : Ptr) (tns : Str) (st : EHeap × List XName) (p : Ptr) : EHeap × List XName :=
  match st.1.get p with
  | none => st
  | some el =>
    let xmlname := resolveDefault el.scope (el.attr [] b!"name") tns
    if xmlname ∈ st.2 then st
    else match (st.1.cells el.kids).findIdx? isAnonymousType with
      | none => (st.1, xmlname :: st.2)
      | some i => match (st.1.cells el.kids)[i]? with
        | none => (st.1, xmlname :: st.2)
        | some t =>
          (moveToRoot grow st.1 root p el b!"type" (prefixOf el.scope xmlname) i (t.setAttr [] b!"name" (el.attr [] b!"name")),
            xmlname :: st.2)

/-- `copyEltNamesToAnonTypes` (xsd/parse.go:205-239). -/
def copyEltNamesToAnonTypes (grow : Nat → Nat → Nat) (n : Nat) (h : EHeap) (root : Ptr) : Option EHeap :=
  (h.get root).bind fun r =>
    let tns := r.attr [] b!"targetNamespace"
    (searchPtr h n (fun e => isType e && hasAttr [] b!"name" e.tag) root).bind fun named =>
      let used := named.filterMap fun p => (h.get p).map fun e => resolveDefault e.scope (e.attr [] b!"name") tns
      (searchPtr h n (fun e => (isElem schemaNS b!"element" e.tag || isElem schemaNS b!"attribute" e.tag) &&
          hasAttr [] b!"name" e.tag && hasAnonymousType h e) root).map fun ps =>
        (ps.foldl (copyNameAt grow root tns) (h, used)).1

/-! ### flattenRef -/

/-- `schemaIndex` (xsd/index.go:13-18). -/
structure Index where
  eltByID : List Ptr := []
  idByName : GoMap (XName × XName) Nat := []

/-- The inner loop of `indexSchema` (xsd/index.go:38-45) for one element. -/
def indexStep (h : EHeap) (tns : Str) (ix : Index) (p : Ptr) : Index :=
  { eltByID := ix.eltByID ++ [p]
    idByName := match h.get p with
      | some el =>
        if el.attr [] b!"name" ≠ [] then
          GoMap.set ix.idByName (resolveDefault el.scope (el.attr [] b!"name") tns, el.name) ix.eltByID.length
        else ix.idByName
      | none => ix.idByName }

/-- `indexSchema` (xsd/index.go:32-48), continued from an index. -/
def indexSchemas (h : EHeap) (n : Nat) : List Ptr → Index → Option Index
  | [], ix => some ix
  | root :: roots, ix => match h.get root, searchPtr h n (fun _ => true) root with
    | some r, some ps => indexSchemas h n roots (ps.foldl (indexStep h (r.attr [] b!"targetNamespace")) ix)
    | _, _ => none

/-- The name and kind of the element that a reference refers to, if it is one (xsd/parse.go:368-372). -/
def refKey (el : HElem) : Option (XName × XName) :=
  if el.attr [] b!"ref" = [] then none else some (resolve el.scope (el.attr [] b!"ref"), el.name)

/-- The first loop of `flattenRef` (xsd/parse.go:367-378), from number `id`: the dependencies, `none` if there is
an error. -/
def refEdges (h : EHeap) (ix : Index) (id : Nat) : List Ptr → Option (List (Int × Int))
  | [] => some []
  | p :: ps => match (h.get p).bind refKey with
    | none => refEdges h ix (id + 1) ps
    | some key => match ix.idByName.get key, refEdges h ix (id + 1) ps with
      | some dep, some es => some (((id : Int), (dep : Int)) :: es)
      | _, _ => none

/-- `deref` (xsd/parse.go:403-438): the children are copied to a new array. -/
def derefH (h : EHeap) (ref real : HElem) : EHeap × HElem :=
  (h ++ [h.cells real.kids],
    ⟨real.name, derefAttrs ref.scope real.scope ref.attrs real.attrs,
      if (h.cells real.kids).length > 0 then joinScope real.scope ref.scope else ref.scope, real.content,
      ⟨h.length, (h.cells real.kids).length⟩⟩)

/-- The function given to `Flatten` (xsd/parse.go:379-390); `none` is a panic. -/
def derefAt (ix : Index) (h : EHeap) (id : Int) : Option EHeap :=
  (ix.eltByID[id.toNat]?).bind fun p => (h.get p).bind fun el => match refKey el with
    | none => some h
    | some key => (ix.idByName.get key).bind fun dep => (ix.eltByID[dep]?).bind fun q => (h.get q).map fun real =>
      (derefH h el real).1.put p (derefH h el real).2

def derefAll (ix : Index) : EHeap → List Int → Option EHeap
  | h, [] => some h
  | h, id :: ids => (derefAt ix h id).bind fun h => derefAll ix h ids

/-! ### unpackGroups -/

def isGroup (e : HElem) : Bool := isElem schemaNS b!"group" e.tag || isElem schemaNS b!"attributeGroup" e.tag

/-- The loop of `unpackGroups` (xsd/parse.go:446-456) for one element. -/
def unpackAt (h : EHeap) (p : Ptr) : EHeap :=
  match h.get p with
  | none => h
  | some el =>
    let children := (h.cells el.kids).flatMap fun c => if isGroup c then h.cells c.kids else [c]
    EHeap.put (h ++ [children]) p { el with kids := ⟨h.length, children.length⟩ }

/-- `unpackGroups` (xsd/parse.go:442-457). -/
def unpackGroups (n : Nat) (h : EHeap) (root : Ptr) : Option EHeap :=
  (searchPtr h n (fun e => (h.cells e.kids).any isGroup) root).map fun ps => ps.foldl unpackAt h

/-- The loop of `hasCycle` (xsd/parse.go:20-29) over the children with the given indices; `recur` is the recursive
call. -/
def cycleLoop (recur : Ptr → List Ptr → Option (Bool × List Ptr)) (arr : Nat) : List Nat → List Ptr → Option (Bool × List Ptr)
  | [], visited => some (false, visited)
  | i :: is, visited =>
    if ⟨arr, i⟩ ∈ visited then some (true, visited)
    else (recur ⟨arr, i⟩ (⟨arr, i⟩ :: visited)).bind fun r => if r.1 then some r else cycleLoop recur arr is r.2

/-- `hasCycle` (xsd/parse.go:15-32): the result and the visited set; `none` if the calls nest deeper than `n`. -/
def hasCycle (h : EHeap) : Nat → Ptr → List Ptr → Option (Bool × List Ptr)
  | 0, _, _ => none
  | n + 1, p, visited => match h.get p with
    | none => none
    | some el => (cycleLoop (hasCycle h n) el.kids.arr (List.range (h.cells el.kids).length) (p :: visited)).map fun r =>
        if r.1 then r else (false, r.2.filter fun q => decide (q ≠ p))

/-- How `flattenRef` ends; `running`: some calls nest deeper than the number allowed. -/
inductive Flattened where
  | ok (h : EHeap)
  | error
  | panic
  | running

/-- The last loop of `flattenRef` (xsd/parse.go:391-397). -/
def unpackAll (n : Nat) : List Ptr → EHeap → Flattened
  | [], h => .ok h
  | root :: roots, h => match unpackGroups n h root with
    | none => .running
    | some h => match hasCycle h n root [] with
      | none => .running
      | some (true, _) => .error
      | some (false, _) => unpackAll n roots h

/-- `flattenRef` (xsd/parse.go:362-399) up to the last loop. -/
def dereference (n : Nat) (h : EHeap) (roots : List Ptr) : Flattened :=
  match indexSchemas h n roots {} with
  | none => .running
  | some ix => match refEdges h ix 0 ix.eltByID with
    | none => .error
    | some es => match (Dep.Graph.build es).flatten with
      | none => .running
      | some order => match derefAll ix h order with
        | none => .panic
        | some h => .ok h

/-- `flattenRef` (xsd/parse.go:362-399). -/
def flattenRef (n : Nat) (h : EHeap) (roots : List Ptr) : Flattened :=
  match dereference n h roots with
  | .ok h => unpackAll n roots h
  | r => r

end GoXml.Xsd
