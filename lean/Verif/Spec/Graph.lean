import Verif.Basic

/-! Vocabulary for the dependency graph theorems; independent of the model. -/

namespace GoXml.Dep

/-- `d` is reachable from `t` by one or more edges (target, dependency) of the list. -/
inductive Reach (ops : List (Int × Int)) : Int → Int → Prop
  | edge {a b} : (a, b) ∈ ops → Reach ops a b
  | step {a b c} : Reach ops a b → (b, c) ∈ ops → Reach ops a c

/-- `x` is a target or a dependency of some edge. -/
def IsVertex (ops : List (Int × Int)) (x : Int) : Prop :=
  ∃ e ∈ ops, x = e.1 ∨ x = e.2

/-- `a` occurs before `b` in `l`. -/
def Before (a b : Int) (l : List Int) : Prop :=
  ∃ l1 l2 l3, l = l1 ++ a :: (l2 ++ b :: l3)

end GoXml.Dep
