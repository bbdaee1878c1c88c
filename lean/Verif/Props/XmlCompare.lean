import Verif.Proofs.Compare
import Verif.Props.XmlMarshal
set_option autoImplicit false

/-! Property theorems C17-C20 and C69: Equal. -/

namespace GoXml

/-- Insertion sort by name, which is what `sort.Sort` does for up to 12 elements. -/
def elemSorter : Sorter elemLess := Sorter.byKey sortKeyOf

/-- Parses two documents (with the example tables) and applies `f` to the trees. -/
def onDocs {α : Type} (d1 d2 : Str) (f : Element → Element → α) : Option α :=
  match parse asciiTables nsSorter d1, parse asciiTables nsSorter d2 with
  | .ok a, .ok b => some (f a b)
  | _, _ => none

/-! ### C17: reflexivity -/

/-- C17 is false: a document with a repeated attribute is parsed but not equal to itself, whether
it is compared with itself or with a second copy. -/
theorem C17_reflexive_refuted :
    onDocs b!"<a k=\"1\" k=\"2\"/>" b!"<a k=\"1\" k=\"2\"/>" (equal elemSorter) = some false ∧
    onDocs b!"<a k=\"1\" k=\"2\"/>" b!"<a k=\"1\" k=\"2\"/>" (fun a _ => equalSelf elemSorter a) = some false := by
  decide +kernel

/-- C17, partial: exactly which trees are equal to themselves: those at most 1001 levels deep in
which no element has the same attribute with two values. Missing: the rest, for which it is false. -/
theorem C17_reflexive_iff_partial (srt : Sorter elemLess) (a : Element) :
    (equal srt a a = true ↔ a.height ≤ 1001 ∧ Everywhere (fun e => NoConflict e.attrs) a) ∧
    (equalSelf srt a = true ↔ a.height ≤ 1001 ∧ Everywhere (fun e => NoConflict e.attrs) a) :=
  ⟨equalAt_refl_iff srt _ a, equalSelfAt_iff srt _ a⟩

/-- A tree nested 1002 levels deep: an element containing an element containing ... -/
def chainTree : Nat → Element
  | 0 => .mk ⟨[], b!"a"⟩ [] [] [] []
  | n + 1 => .mk ⟨[], b!"a"⟩ [] [] [] [chainTree n]

/-- C17 is also false for deeply nested documents that `Parse` accepts. -/
theorem C17_deep_refuted (srt : Sorter elemLess) :
    equal srt (chainTree 1001) (chainTree 1001) = false ∧ (chainTree 1001).height ≤ recursionLimit + 1 := by
  have hh : ∀ n, (chainTree n).height = n + 1 := by
    intro n
    induction n with
    | zero => rfl
    | succ n ih => simp [chainTree, Element.height, elHeightL, ih]
  refine ⟨?_, by rw [hh]; decide⟩
  cases h : equal srt (chainTree 1001) (chainTree 1001) with
  | false => rfl
  | true =>
    have := ((C17_reflexive_iff_partial srt _).1.mp h).1
    rw [hh] at this
    omega

example : Everywhere (fun e => NoConflict e.attrs) (Element.mk ⟨[], b!"a"⟩ [⟨⟨[], b!"k"⟩, b!"1"⟩, ⟨⟨[], b!"j"⟩, b!"2"⟩] [] [] []) := by
  refine .mk ?_ (by simp [Element.children])
  intro x hx y hy _ hxy
  simp only [Element.attrs, List.mem_cons, List.not_mem_nil, or_false] at hx hy
  rcases hx with rfl | rfl <;> rcases hy with rfl | rfl
  · rfl
  · exact absurd hxy (by decide)
  · exact absurd hxy (by decide)
  · rfl

/-! ### C18: symmetry -/

/-- C18 is false: attributes that only the first tree has are not noticed. In particular `Equal` is
true of two different documents. -/
theorem C18_symmetric_refuted :
    onDocs b!"<a k=\"1\"/>" b!"<a/>" (equal elemSorter) = some true ∧
    onDocs b!"<a/>" b!"<a k=\"1\"/>" (equal elemSorter) = some false := by
  decide +kernel

/-- C18, partial: it holds when elements with the same name have the same attribute names in both
trees, and no attribute is repeated with another value. Missing: the rest, for which it is false. -/
theorem C18_symmetric_partial (srt : Sorter elemLess) (a b : Element)
    (ha : Everywhere (fun e => NoConflict e.attrs) a) (hb : Everywhere (fun e => NoConflict e.attrs) b)
    (hab : Everywhere (fun x => Everywhere (fun y => x.name = y.name →
      ∀ n : XName, (∃ p ∈ x.attrs, p.name = n) ↔ (∃ q ∈ y.attrs, q.name = n)) b) a)
    (hba : Everywhere (fun y => Everywhere (fun x => y.name = x.name →
      ∀ n : XName, (∃ p ∈ y.attrs, p.name = n) ↔ (∃ q ∈ x.attrs, q.name = n)) a) b) :
    equal srt a b = equal srt b a := by
  have h1 : equal srt a b = true → equal srt b a = true := equalAt_symm srt _ a b ha hb hab
  have h2 : equal srt b a = true → equal srt a b = true := equalAt_symm srt _ b a hb ha hba
  cases h : equal srt a b with
  | true => exact (h1 h).symm
  | false =>
    cases h' : equal srt b a with
    | false => rfl
    | true => rw [h2 h'] at h; cases h

/-- Trees without attributes meet the hypotheses. -/
example (srt : Sorter elemLess) (n m : Nat) : equal srt (chainTree n) (chainTree m) = equal srt (chainTree m) (chainTree n) := by
  have key : ∀ (P : Element → Prop) (n : Nat), (∀ i, P (chainTree i)) → Everywhere P (chainTree n) := by
    intro P n hP
    induction n with
    | zero => exact .mk (hP 0) (by simp [chainTree, Element.children])
    | succ n ih => exact .mk (hP (n + 1)) (by simpa [chainTree, Element.children] using ih)
  have hattrs : ∀ i, (chainTree i).attrs = [] := by intro i; cases i <;> rfl
  refine C18_symmetric_partial srt _ _ (key _ _ ?_) (key _ _ ?_) (key _ _ ?_) (key _ _ ?_)
  · intro i; rw [hattrs]; intro a ha; simp at ha
  · intro i; rw [hattrs]; intro a ha; simp at ha
  · intro i; exact key _ _ (fun j _ n => by rw [hattrs, hattrs])
  · intro i; exact key _ _ (fun j _ n => by rw [hattrs, hattrs])

/-! ### C19: order of sub-elements -/

/-- C19 is false: siblings of the same name are compared in document order. -/
theorem C19_order_refuted :
    onDocs b!"<a><b>1</b><b>2</b></a>" b!"<a><b>2</b><b>1</b></a>" (equal elemSorter) = some false ∧
    onDocs b!"<a><b>1</b><b>2</b></a>" b!"<a><b>1</b><b>2</b></a>" (equal elemSorter) = some true := by
  decide +kernel

/-- C19, partial: permuting siblings at any level, in either tree, does not change the result when
no two siblings have the same name (strictly: the same namespace and local name joined). Missing:
siblings of the same name, for which it is false. -/
theorem C19_order_partial (srt : Sorter elemLess) (a a' b b' : Element) (ha : Reordered a a') (hb : Reordered b b')
    (da : Everywhere DistinctKids a) (db : Everywhere DistinctKids b) :
    equal srt a b = equal srt a' b' := by
  have := equalAt_reordered srt (maxDepth + 1) a a' b b' ha hb da db
  unfold equal equalRun
  cases h : (equalAt srt (maxDepth + 1) a' b').1 with
  | true => exact this.mpr h
  | false =>
    cases h' : (equalAt srt (maxDepth + 1) a b).1 with
    | false => rfl
    | true => rw [this.mp h'] at h; cases h

/-- A tree with two differently named children, and the same with the children swapped. -/
def twoKids (x y : Str) : Element :=
  .mk ⟨[], b!"a"⟩ [] [] [] [.mk ⟨[], x⟩ [] [] [] [], .mk ⟨[], y⟩ [] [] [] []]

example : Reordered (twoKids b!"b" b!"c") (twoKids b!"c" b!"b") :=
  .mk (ms := [.mk ⟨[], b!"b"⟩ [] [] [] [], .mk ⟨[], b!"c"⟩ [] [] [] []]) rfl
    (by
      intro i x y hx hy
      rw [hx] at hy; cases hy; exact .refl x)
    (List.Perm.swap _ _ _)
example : Everywhere DistinctKids (twoKids b!"b" b!"c") :=
  .mk (by show ([_, _] : List Str).Nodup; decide)
    (by
      intro c hc
      simp only [twoKids, Element.children, List.mem_cons, List.not_mem_nil, or_false] at hc
      rcases hc with rfl | rfl <;> exact .mk (List.Pairwise.nil) (by simp [Element.children]))

/-! ### C20: no side effects -/

/-- C20 is false: `Equal` sorts the children of both trees. -/
theorem C20_no_mutation_refuted :
    onDocs b!"<a><c/><b/></a>" b!"<a><c/><b/></a>" (fun a b =>
      ((equalRun elemSorter a b).2.1.children.map (fun e => e.name.loc), a.children.map (fun e => e.name.loc))) =
    some ([b!"b", b!"c"], [b!"c", b!"b"]) := by
  decide +kernel

/-- C20, partial: the only change is the order of sub-elements, at any level. Missing: that there
is no change, which is false. -/
theorem C20_only_reorders_partial (srt : Sorter elemLess) (a b : Element) :
    Reordered a (equalRun srt a b).2.1 ∧ Reordered b (equalRun srt a b).2.2 :=
  equalAt_reorders srt _ a b

/-- C20, partial: consequently, if siblings have distinct names everywhere, comparing again (with
anything) gives the same answer as before. -/
theorem C20_repeatable_partial (srt : Sorter elemLess) (a b : Element)
    (da : Everywhere DistinctKids a) (db : Everywhere DistinctKids b) :
    equal srt (equalRun srt a b).2.1 (equalRun srt a b).2.2 = equal srt a b :=
  (C19_order_partial srt a _ b _ (equalAt_reorders srt _ a b).1 (equalAt_reorders srt _ a b).2 da db).symm

/-! ### C69: what Equal decides -/

/-- C69, soundness: when `Equal(a, b)` is true, `b` matches `a` up to white space around content,
order of sub-elements, namespace declarations, and attributes that only `a` has. -/
theorem C69_equal_sound (srt : Sorter elemLess) (a b : Element) (h : equal srt a b = true) : Covers a b :=
  equalAt_covers srt _ a b h

/-- C69, completeness: for trees up to 1001 levels in which siblings have distinct names and no
attribute has two values, `Equal` is true whenever `b` matches `a` in that sense. -/
theorem C69_equal_complete (srt : Sorter elemLess) (a b : Element) (h : Covers a b)
    (hh : a.height ≤ 1001) (hn : Everywhere (fun e => NoConflict e.attrs) a) (hd : Everywhere DistinctKids a) :
    equal srt a b = true :=
  equalAt_complete srt _ a b h hh hn hd

/-- The hypotheses are met by a tree with two children; `Equal` is true although order and white
space differ. -/
example : onDocs b!"<a><c>x</c><b/></a>" b!"<a>\n <b/>\n<c> x\n</c></a>" (equal elemSorter) = some true := by
  decide +kernel

end GoXml
