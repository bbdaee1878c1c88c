import Verif.Model.XmlTree
set_option autoImplicit false

/-! Scopes with their memory: a slice is a part of a backing array, and `append` may write into it. -/

namespace GoXml.Alias

/-- A slice: which backing array, how many elements are visible, and the capacity. All slices here
start at the beginning of their array. -/
structure Slice where
  arr : Nat
  len : Nat
  cap : Nat
deriving DecidableEq

/-- The memory: backing arrays. -/
abbrev Heap := List (List XName)

/-- What a slice shows. -/
def view (h : Heap) (s : Slice) : Scope := ((h[s.arr]?).getD []).take s.len

/-- Writes `xs` from index `i` on. -/
def writeAt (l : List XName) (i : Nat) (xs : List XName) : List XName :=
  l.take i ++ xs ++ l.drop (i + xs.length)

/-- Go's `append(s, xs...)`. If the capacity suffices the new elements are written into the same
array; otherwise a new array is made. `grow` is the growth policy: the capacity of the new array
from the old capacity and the needed length. -/
def append (grow : Nat → Nat → Nat) (h : Heap) (s : Slice) (xs : List XName) : Heap × Slice :=
  let need := s.len + xs.length
  if need ≤ s.cap then
    (h.set s.arr (writeAt ((h[s.arr]?).getD []) s.len xs), ⟨s.arr, need, s.cap⟩)
  else
    let cap := max need (grow s.cap need)
    (h ++ [view h s ++ xs ++ List.replicate (cap - need) ⟨[], []⟩], ⟨h.length, need, cap⟩)

/-- The memory and all scopes made so far. -/
structure State where
  heap : Heap
  scopes : List Slice

/-- What a program can do with scopes. -/
inductive Op where
  /-- Parsing a start tag with declarations `ns` below an element with scope number `i`
  (`Element.parse` copies the parent's Scope, xmltree/xmltree.go:265; then `pushNS`, 164-188). -/
  | push (i : Nat) (ns : List XName)
  /-- `outer.JoinScope(inner)` (xmltree/xmltree.go:73-75) on scopes number `i` and `j`. -/
  | join (i j : Nat)

/-- `pushNS`'s update of the scope (xmltree/xmltree.go:180-186): append, then limit the capacity. -/
def pushScope (grow : Nat → Nat → Nat) (h : Heap) (s : Slice) (ns : List XName) : Heap × Slice :=
  if ns.length > 0 then
    let (h', s') := append grow h s ns
    (h', ⟨s'.arr, s'.len, s'.len⟩)
  else (h, s)

/-- One operation; it adds a scope. Operations on scopes that do not exist do nothing. -/
def step (grow : Nat → Nat → Nat) (st : State) : Op → State
  | .push i ns =>
    match st.scopes[i]? with
    | none => st
    | some s =>
      let (h, s') := pushScope grow st.heap s ns
      ⟨h, st.scopes ++ [s']⟩
  | .join i j =>
    match st.scopes[i]?, st.scopes[j]? with
    | some s, some t =>
      let (h, s') := append grow st.heap s (view st.heap t)
      ⟨h, st.scopes ++ [s']⟩
    | _, _ => st

/-- The scope of a new document: a nil slice. -/
def start : State := ⟨[[]], [⟨0, 0, 0⟩]⟩

def run (grow : Nat → Nat → Nat) (ops : List Op) : State := ops.foldl (step grow) start

end GoXml.Alias
