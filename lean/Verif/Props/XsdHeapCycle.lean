import Verif.Props.XsdHeapRef
import Verif.Proofs.XsdHeapCycle
set_option autoImplicit false

/-! Properties C87 and C88: circular groups, and what references refer to. -/

namespace GoXml.Xsd

/-! ### C87 -/

/-- `flattenRef` returns an error exactly if a reference names something that is not declared. So the error for
cycles is never returned. -/
theorem C87_error_iff (h : EHeap) (n : Nat) (roots : List Ptr) (hs : SlicesOk h) (hf : Finite h n roots) :
    flattenRef n h roots = .error ↔ ∃ p e name, RefAt h roots p e name ∧ ∀ q, ¬ Declares h roots q name e.name := by
  constructor
  · intro he
    refine Classical.byContradiction fun hno => ?_
    have hd : AllDeclared h roots := by
      intro p e name hr
      refine Classical.byContradiction fun hq => hno ⟨p, e, name, hr, fun q hd => hq ⟨q, hd⟩⟩
    obtain ⟨ix, hix⟩ := indexSchemas_finite roots {} hf
    obtain ⟨es, hes⟩ := refEdges_declared hix hd
    obtain ⟨out, hout, _⟩ := Dep.C23_flatten_visits_once es
    unfold flattenRef dereference at he
    rw [hix] at he
    dsimp only at he
    rw [hes] at he
    dsimp only at he
    rw [hout] at he
    dsimp only at he
    cases hd : derefAll ix h out with
    | none => rw [hd] at he; cases he
    | some h1 =>
      rw [hd] at he
      exact unpackAll_no_error roots (slicesOk_derefAll out hs hd) he
  · rintro ⟨p, e, name, hr, hd⟩
    exact C34_missing h n roots hf p e name hr hd

/-- A group that contains itself. -/
def circularDoc : Element :=
  xs b!"schema" [(b!"targetNamespace", b!"urn:t")]
    [xs b!"group" [(b!"name", b!"g")] [xs b!"sequence" [] [xs b!"group" [(b!"ref", b!"t:g")] []]]]

/-- C87 is false of the code: with a group that contains itself `flattenRef` does not return, whatever number of
nested calls there is room for. -/
theorem C87_reported_refuted : ∀ n, flattenRef n (loadDoc doubling circularDoc []).1 [(loadDoc doubling circularDoc []).2] = .running := by
  intro n
  cases hix : indexSchemas (loadDoc doubling circularDoc []).1 n [(loadDoc doubling circularDoc []).2] {} with
  | none => unfold flattenRef dereference; rw [hix]
  | some ix =>
    have hf : Finite (loadDoc doubling circularDoc []).1 9 [(loadDoc doubling circularDoc []).2] := by decide +kernel
    obtain ⟨ix9, hix9⟩ := indexSchemas_finite _ {} hf
    have e1 := indexSchemas_mono (Nat.le_max_left n 9) _ hix
    have e2 := indexSchemas_mono (Nat.le_max_right n 9) _ hix9
    rw [e1] at e2
    cases e2
    have hd : dereference n (loadDoc doubling circularDoc []).1 [(loadDoc doubling circularDoc []).2] =
        dereference 9 (loadDoc doubling circularDoc []).1 [(loadDoc doubling circularDoc []).2] := by
      unfold dereference
      rw [hix, hix9]
    unfold flattenRef
    rw [hd]
    have hc : (match dereference 9 (loadDoc doubling circularDoc []).1 [(loadDoc doubling circularDoc []).2] with
      | .ok h1 => (ptrAt h1 (loadDoc doubling circularDoc []).2 [0, 0, 0]).any fun p => decide (ptrAt h1 p [0, 0] = some p)
      | _ => false) = true := by decide +kernel
    cases hd9 : dereference 9 (loadDoc doubling circularDoc []).1 [(loadDoc doubling circularDoc []).2] with
    | error => rw [hd9] at hc; cases hc
    | panic => rw [hd9] at hc; cases hc
    | running => rfl
    | ok h1 =>
      rw [hd9] at hc
      dsimp only at hc ⊢
      cases hp : ptrAt h1 (loadDoc doubling circularDoc []).2 [0, 0, 0] with
      | none => rw [hp] at hc; cases hc
      | some p =>
        rw [hp] at hc
        have hpp : ptrAt h1 p [0, 0] = some p := by simpa using hc
        rw [unpackAll, unpackGroups, searchPtr_cycle n (ptrAt_below _ hp (Or.inl rfl)) (ptrAt_below _ hpp (Or.inl rfl))]
        rfl

/-- The theorem above applies: documents for which `flattenRef` returns an error, and others. -/
example : SlicesOk (loadDoc doubling missingDoc []).1 ∧ Finite (loadDoc doubling missingDoc []).1 9 [(loadDoc doubling missingDoc []).2] ∧
    SlicesOk (loadDoc doubling chainDoc []).1 ∧ Finite (loadDoc doubling chainDoc []).1 9 [(loadDoc doubling chainDoc []).2] :=
  ⟨slicesOk_of (by decide +kernel), by decide +kernel, slicesOk_of (by decide +kernel), by decide +kernel⟩

/-! ### C88 -/

/-- `q` points to a child of a root. -/
def TopLevel (h : EHeap) (roots : List Ptr) (q : Ptr) : Prop := ∃ root ∈ roots, ∃ r, h.get root = some r ∧ KidOf r q

/-- What was a reference is a copy of the element at `q`. -/
def CopyOf (h1 : EHeap) (p : Ptr) (e0 : HElem) (q : Ptr) : Prop :=
  ∃ e real, h1.get p = some e ∧ h1.get q = some real ∧ ∀ m, readElem h1 (m + 1) e = deref e0.tag (readElem h1 (m + 1) real)

/-- Full statement of C88: a reference is replaced by a top-level declaration of the name, if there is one. -/
def C88_full : Prop :=
  ∀ (h : EHeap) (n : Nat) (roots : List Ptr), SlicesOk h → Finite h n roots → AllDeclared h roots → AcyclicRefs h roots →
    PlainRefs h roots → PlainTargets h roots → ∀ h1, dereference n h roots = .ok h1 → ∀ p e0 name, RefAt h roots p e0 name →
      (∃ q, TopLevel h roots q ∧ Declares h roots q name e0.name) → ∃ q, TopLevel h roots q ∧ Declares h roots q name e0.name ∧ CopyOf h1 p e0 q

/-- C88 if no element below the top level declares a name that is referred to. Missing: names which are also
used by local declarations; see `C88_toplevel_refuted`. -/
theorem C88_toplevel_partial (h : EHeap) (n : Nat) (roots : List Ptr) (hs : SlicesOk h) (hf : Finite h n roots)
    (hd : AllDeclared h roots) (hac : AcyclicRefs h roots) (hpr : PlainRefs h roots) (hpt : PlainTargets h roots)
    (htop : ∀ p q, RefersTo h roots p q → TopLevel h roots q) (h1 : EHeap) (hrun : dereference n h roots = .ok h1)
    (p : Ptr) (e0 : HElem) (name : XName) (hr : RefAt h roots p e0 name) :
    ∃ q, TopLevel h roots q ∧ Declares h roots q name e0.name ∧ CopyOf h1 p e0 q := by
  obtain ⟨h1', hrun', _, hcopy, _⟩ := C34_resolved_partial h n roots hs hf hd hac hpr hpt
  rw [hrun] at hrun'
  cases hrun'
  obtain ⟨q, e, real, g1, g2, g3, _, g4⟩ := hcopy p e0 name hr
  have g5 := htop p q g1
  obtain ⟨e', name', ⟨_, g6, _, g7⟩, g8⟩ := g1
  obtain ⟨_, g9, _, g10⟩ := hr
  rw [g9] at g6; cases g6
  rw [g10] at g7; subst g7
  exact ⟨q, g5, g8, e, real, g2, g3, g4⟩

/-- A global element, a local one of the same name but another type, and a reference. -/
def localDoc : Element :=
  xs b!"schema" [(b!"targetNamespace", b!"urn:t")]
    [xs b!"element" [(b!"name", b!"x"), (b!"type", b!"xs:string")] [],
     xs b!"complexType" [(b!"name", b!"T")] [xs b!"sequence" [] [xs b!"element" [(b!"name", b!"x"), (b!"type", b!"xs:int")] []]],
     xs b!"complexType" [(b!"name", b!"U")] [xs b!"sequence" [] [xs b!"element" [(b!"ref", b!"t:x")] []]]]

/-- The type of the element in `U` is that of the local element. -/
example : (afterFlatten 9 localDoc [2, 0, 0]).map (fun pe => (pe.2.attrs.map fun a => (a.name.loc, a.value))) =
    some [(b!"name", b!"x"), (b!"type", b!"xs:int")] := by decide +kernel

/-- The name and attributes of an element, and those of the element at a position in another memory. -/
def sameAttrs (h1 : EHeap) (p : Ptr) (e0 : HElem) (q : Ptr) : Bool :=
  match h1.get p, h1.get q with
  | some e, some real => decide ((readElem h1 1 e).attrs = (deref e0.tag (readElem h1 1 real)).attrs)
  | _, _ => false

theorem sameAttrs_of_copy {h1 : EHeap} {p q : Ptr} {e0 : HElem} (hc : CopyOf h1 p e0 q) : sameAttrs h1 p e0 q = true := by
  obtain ⟨e, real, g1, g2, g3⟩ := hc
  unfold sameAttrs
  rw [g1, g2]
  simp only [g3 0]
  rfl

/-- C88 is false of the code: local declarations are found as well, and the last declaration in the document is
taken. -/
theorem C88_toplevel_refuted : ¬ C88_full := by
  intro hfull
  have hf : Finite (loadDoc doubling localDoc []).1 9 [(loadDoc doubling localDoc []).2] := by decide +kernel
  have hs : SlicesOk (loadDoc doubling localDoc []).1 := slicesOk_of (by decide +kernel)
  have hd := allDeclared_of hf (by decide +kernel)
  have hac := acyclic_of hf (by decide +kernel)
  have hpr := plainRefs_of hf (by decide +kernel)
  have hpt := plainTargets_of hf (by decide +kernel)
  obtain ⟨h1, hrun, _⟩ := C34_resolved_partial _ 9 _ hs hf hd hac hpr hpt
  generalize hh : (loadDoc doubling localDoc []).1 = h at *
  generalize hroot : (loadDoc doubling localDoc []).2 = root at *
  have hc : (match dereference 9 h [root], ptrAt h root [2, 0, 0], h.get root with
    | .ok h1, some p, some r => (h.get p).any fun e => decide (HasRef e) && decide (resolve e.scope (e.attr [] b!"ref") = ⟨b!"urn:t", b!"x"⟩) &&
        decide (e.name = ⟨schemaNS, b!"element"⟩) &&
        (List.range r.kids.len).all (fun i => (h.get ⟨r.kids.arr, i⟩).all fun d => decide (d.name ≠ e.name) || !sameAttrs h1 p e ⟨r.kids.arr, i⟩) &&
        (h.get ⟨r.kids.arr, 0⟩).any fun d => decide (d.name = ⟨schemaNS, b!"element"⟩) && decide (d.attr [] b!"name" ≠ []) &&
          decide (0 < r.kids.len) &&
          decide (resolveDefault d.scope (d.attr [] b!"name") (r.attr [] b!"targetNamespace") = ⟨b!"urn:t", b!"x"⟩)
    | _, _, _ => false) = true := by rw [← hh, ← hroot]; decide +kernel
  rw [hrun] at hc
  cases hp : ptrAt h root [2, 0, 0] with
  | none => rw [hp] at hc; cases hc
  | some p =>
    cases hr : h.get root with
    | none => rw [hp, hr] at hc; cases hc
    | some r =>
      rw [hp, hr] at hc
      dsimp only at hc
      cases he : h.get p with
      | none => rw [he] at hc; cases hc
      | some e =>
        rw [he, Option.any_some, Bool.and_eq_true, Bool.and_eq_true, Bool.and_eq_true, Bool.and_eq_true] at hc
        obtain ⟨⟨⟨⟨c1, c2⟩, c3⟩, c4⟩, c5⟩ := hc
        have c1 := of_decide_eq_true c1
        have c2 := of_decide_eq_true c2
        have c3 := of_decide_eq_true c3
        have href : RefAt h [root] p e ⟨b!"urn:t", b!"x"⟩ := ⟨⟨root, by simp, ptrAt_below _ hp (Or.inl rfl)⟩, he, c1, c2⟩
        cases hk : h.get ⟨r.kids.arr, 0⟩ with
        | none => rw [hk] at c5; cases c5
        | some d =>
          rw [hk, Option.any_some, Bool.and_eq_true, Bool.and_eq_true, Bool.and_eq_true] at c5
          obtain ⟨⟨⟨d1, d2⟩, d3⟩, d4⟩ := c5
          have d1 := of_decide_eq_true d1
          have d2 := of_decide_eq_true d2
          have d3 := of_decide_eq_true d3
          have d4 := of_decide_eq_true d4
          have htop : TopLevel h [root] ⟨r.kids.arr, 0⟩ := ⟨root, by simp, r, hr, rfl, d3⟩
          have hdec : Declares h [root] ⟨r.kids.arr, 0⟩ ⟨b!"urn:t", b!"x"⟩ e.name :=
            ⟨root, by simp, r, d, hr, .kid hr ⟨rfl, d3⟩, hk, by rw [d1, c3], d2, d4⟩
          obtain ⟨q, ⟨root', g1, r', g2, g3⟩, ⟨_, _, _, d', _, _, g4, g5, _⟩, g6⟩ :=
            hfull h 9 [root] hs hf hd hac hpr hpt h1 hrun p e _ href ⟨_, htop, hdec⟩
          simp only [List.mem_singleton] at g1
          subst g1
          rw [hr] at g2; cases g2
          have := List.all_eq_true.mp c4 q.idx (List.mem_range.mpr g3.2)
          rw [← g3.1] at this
          have hq : (⟨q.arr, q.idx⟩ : Ptr) = q := rfl
          rw [hq, g4, sameAttrs_of_copy g6] at this
          simp [g5] at this

/-- A document for which `C88_toplevel_partial` applies; `chainDoc` declares elements at the top level only. -/
example : ∀ p q, RefersTo (loadDoc doubling chainDoc []).1 [(loadDoc doubling chainDoc []).2] p q →
    TopLevel (loadDoc doubling chainDoc []).1 [(loadDoc doubling chainDoc []).2] q := by
  have hf : Finite (loadDoc doubling chainDoc []).1 9 [(loadDoc doubling chainDoc []).2] := by decide +kernel
  have hc : ∀ p ∈ (searchPtr (loadDoc doubling chainDoc []).1 9 (fun _ => true) (loadDoc doubling chainDoc []).2).getD [],
      ((loadDoc doubling chainDoc []).1.get p).all (fun e => decide (e.attr [] b!"name" = []) ||
        ((loadDoc doubling chainDoc []).1.get (loadDoc doubling chainDoc []).2).any fun r =>
          decide (p.arr = r.kids.arr ∧ p.idx < r.kids.len)) = true := by decide +kernel
  generalize (loadDoc doubling chainDoc []).1 = h at *
  generalize (loadDoc doubling chainDoc []).2 = root at *
  rintro p q ⟨e, name, _, root', g1, r, e', g2, g3, g4, g5, g6, g7⟩
  simp only [List.mem_singleton] at g1
  subst g1
  obtain ⟨ps, hps⟩ := Option.isSome_iff_exists.mp (hf root' (by simp))
  rw [hps] at hc
  have := hc q ((searchPtr_mem hps q).mpr ⟨g3, e', g4, rfl⟩)
  rw [g4, g2, Option.all_some, Option.any_some] at this
  simp only [Bool.or_eq_true, decide_eq_true_eq] at this
  rcases this with h1 | h1
  · exact absurd h1 g6
  · exact ⟨root', by simp, r, g2, h1⟩

end GoXml.Xsd
