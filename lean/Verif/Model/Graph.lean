import Verif.Basic

/-!
Model of `internal/dependency/graph.go`.
-/

namespace GoXml.Dep

/-- `sort.Search`'s loop as used by `sort.SearchInts` (internal/dependency/graph.go:12): binary
search in `a[i:j]` for the first index whose element is `>= x`. The first argument bounds the
number of iterations (each shortens the interval, so the length of the slice is enough).
Out-of-range reads cannot happen for `j ≤ a.length`; they are given the value 0 to keep the
function total. -/
def searchLoop (a : List Int) (x : Int) : Nat → Nat → Nat → Nat
  | 0, i, _ => i
  | n + 1, i, j =>
    if i < j then
      let m := (i + j) / 2
      if a.getD m 0 < x then searchLoop a x n (m + 1) j else searchLoop a x n i m
    else i

/-- `sort.SearchInts(a, x)`. -/
def searchInts (a : List Int) (x : Int) : Nat := searchLoop a x a.length 0 a.length

/-- `insertUnique` (internal/dependency/graph.go:11-19). The `append`/`copy`/assign sequence is
insertion at index `i`. -/
def insertUnique (set : List Int) (x : Int) : List Int :=
  let i := searchInts set x
  if set.length ≤ i ∨ set.getD i 0 ≠ x then set.take i ++ x :: set.drop i else set

/-- `Graph` (internal/dependency/graph.go:22-26). The map is a function; a missing key reads as
the nil slice, as in Go. `once` only guards the map's allocation and is left out. -/
structure Graph where
  targets : List Int
  nodes : Int → List Int

/-- The zero `Graph`. -/
def Graph.empty : Graph := ⟨[], fun _ => []⟩

/-- `Graph.Len` (graph.go:29-31). -/
def Graph.len (g : Graph) : Nat := g.targets.length

/-- `Graph.Add` (graph.go:38-42). -/
def Graph.add (g : Graph) (target dependency : Int) : Graph :=
  { targets := insertUnique g.targets target
    nodes := fun k => if k = target then insertUnique (g.nodes target) dependency else g.nodes k }

/-- State of a traversal: the `visited` map and the arguments `walk` was called with so far. -/
structure WalkSt where
  visited : List Int
  out : List Int

/-- The `for` loop of `Graph.flatten` (graph.go:63-69), with the recursive call as a parameter. -/
def flattenLoop (nodes : Int → List Int) (recur : List Int → WalkSt → Option WalkSt) :
    List Int → WalkSt → Option WalkSt
  | [], st => some st
  | t :: ts, st =>
    if t ∈ st.visited then flattenLoop nodes recur ts st
    else
      match recur (nodes t) ⟨t :: st.visited, st.out⟩ with
      | none => none
      | some st1 => flattenLoop nodes recur ts ⟨st1.visited, st1.out ++ [t]⟩

/-- `Graph.flatten` (graph.go:62-70). The number bounds the recursion depth; `none` means that it
ran out (theorem `C23_flatten_visits_once` shows that this does not happen). -/
def flattenGo (nodes : Int → List Int) : Nat → List Int → WalkSt → Option WalkSt
  | 0 => fun ts st => if ts = [] then some st else none
  | f + 1 => flattenLoop nodes (flattenGo nodes f)

/-- A bound on the recursion depth: one more than the number of entries in the graph. -/
def Graph.fuel (g : Graph) : Nat :=
  (g.targets ++ g.targets.flatMap g.nodes).length + 1

/-- `Graph.Flatten` (graph.go:50-60): the sequence of calls to `walk`. The outer loop has the
same body as `flatten`. -/
def Graph.flatten (g : Graph) : Option (List Int) :=
  (flattenGo g.nodes g.fuel g.targets ⟨[], []⟩).map (·.out)

/-- The graph after a sequence of `Add(target, dependency)` calls on a zero `Graph`. -/
def Graph.build (ops : List (Int × Int)) : Graph :=
  ops.foldl (fun g e => g.add e.1 e.2) Graph.empty

end GoXml.Dep
