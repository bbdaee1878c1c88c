import Verif.Proofs.XsdHeapRef
set_option autoImplicit false

/-! Properties C34, C87 and C88: references are resolved. The statements are about any schema documents in
memory; `Below` and the other notions are in `Spec/XsdHeap.lean`. That `n` is large enough for the search below a root is
expressed by `searchPtr h n (fun _ => true) root ≠ none`. -/

namespace GoXml.Xsd

/-- The search below every root ends. -/
def Finite (h : EHeap) (n : Nat) (roots : List Ptr) : Prop :=
  ∀ root ∈ roots, (searchPtr h n (fun _ => true) root).isSome

theorem indexSchemas_finite {h : EHeap} {n : Nat} (roots : List Ptr) : ∀ ix, Finite h n roots →
    ∃ ix', indexSchemas h n roots ix = some ix' := by
  induction roots with
  | nil => intro ix _; exact ⟨ix, rfl⟩
  | cons root roots ih =>
    intro ix hf
    obtain ⟨ps, hps⟩ := Option.isSome_iff_exists.mp (hf root (by simp))
    cases hg : h.get root with
    | none => unfold searchPtr at hps; rw [hg] at hps; cases hps
    | some r =>
      rw [indexSchemas, hg, hps]
      exact ih _ (fun r hr => hf r (by simp [hr]))

/-- C34, first part: if a reference below one of the roots names something that is not declared, `flattenRef`
returns an error. -/
theorem C34_missing (h : EHeap) (n : Nat) (roots : List Ptr) (hf : Finite h n roots) (p : Ptr) (e : HElem) (name : XName)
    (hr : RefAt h roots p e name) (hd : ∀ q, ¬ Declares h roots q name e.name) : flattenRef n h roots = .error := by
  obtain ⟨ix, hix⟩ := indexSchemas_finite roots {} hf
  obtain ⟨L, hL, hM⟩ := indexed_schemas roots (indexed_nil h) hix
  rw [List.nil_append] at hL
  obtain ⟨⟨root, hroot, hb⟩, hg, href, hname⟩ := hr
  have hnone : refEdges h ix 0 ix.eltByID = none := by
    refine (refEdges_none _).mpr ⟨p, ?_, (name, e.name), ?_, ?_⟩
    · obtain ⟨r, h1, _⟩ := below_iff.mp hb
      rw [hL.ids]
      exact List.mem_map.mpr ⟨(p, r.attr [] b!"targetNamespace"), (hM _ _).mpr ⟨root, hroot, r, h1, rfl, hb, by rw [hg]; rfl⟩, rfl⟩
    · rw [hg, Option.bind_some, refKey_some]
      exact ⟨href, by rw [hname]⟩
    · cases hk : ix.idByName.get (name, e.name) with
      | none => rfl
      | some id =>
        obtain ⟨⟨q, tns⟩, h1, h2⟩ := hL.sound _ _ hk
        obtain ⟨root', h3, r, h4, h5, h6, _⟩ := (hM q tns).mp (List.mem_of_getElem? h1)
        subst h5
        exact absurd (declares_of_key h3 h4 h6 h2) (hd q)
  unfold flattenRef dereference
  rw [hix]
  dsimp only
  rw [hnone]

/-- Every reference names something that is declared. -/
def AllDeclared (h : EHeap) (roots : List Ptr) : Prop :=
  ∀ p e name, RefAt h roots p e name → ∃ q, Declares h roots q name e.name

theorem refEdges_declared {h : EHeap} {n : Nat} {roots : List Ptr} {ix : Index} (hix : indexSchemas h n roots {} = some ix)
    (hd : AllDeclared h roots) : ∃ es, refEdges h ix 0 ix.eltByID = some es := by
  cases he : refEdges h ix 0 ix.eltByID with
  | some es => exact ⟨es, rfl⟩
  | none =>
    exfalso
    obtain ⟨L, hL, hM⟩ := indexed_schemas roots (indexed_nil h) hix
    rw [List.nil_append] at hL
    obtain ⟨p, hp, key, h1, h2⟩ := (refEdges_none _).mp he
    cases hg : h.get p with
    | none => rw [hg] at h1; cases h1
    | some e =>
      rw [hg, Option.bind_some, refKey_some] at h1
      rw [hL.ids] at hp
      obtain ⟨⟨p', tns⟩, h3, h4⟩ := List.mem_map.mp hp
      obtain ⟨root, h5, r, h6, h7, h8, h9⟩ := (hM p' tns).mp h3
      dsimp only at h4
      subst h4
      obtain ⟨q, hq⟩ := hd p' e _ ⟨⟨root, h5, h8⟩, hg, h1.1, rfl⟩
      obtain ⟨root', g1, r', g2, g3, g4, g5⟩ := key_of_declares hq
      have := hL.complete (q, r'.attr [] b!"targetNamespace") ((hM _ _).mpr ⟨root', g1, r', g2, rfl, g3, g4⟩) _ g5
      rw [← h1.2, h2] at this
      cases this

/-- C34 without the condition that the children of targets are not references. Full statement: if all
references are declared and acyclic, then after `flattenRef` no element below a root has a `ref`. -/
def C34_full : Prop :=
  ∀ (h : EHeap) (n : Nat) (roots : List Ptr), SlicesOk h → Finite h n roots → AllDeclared h roots → AcyclicRefs h roots →
    PlainRefs h roots → ∀ h', flattenRef n h roots = .ok h' → ∀ root ∈ roots, ∀ p e, Below h' root p → h'.get p = some e → ¬ HasRef e

/-- C34, second part. If all references are declared and acyclic, and no child of an element that is referred to
is itself a reference, then
* all replacements succeed, and no element below a root is a reference after them, nor after `flattenRef`;
* what has been a reference is, as a tree of any depth, `deref` of it and of a target: the target after its own
  replacement, so that chains are followed to the end.
Missing: references that are children of elements that are referred to; see `C34_stale_refuted`. -/
theorem C34_resolved_partial (h : EHeap) (n : Nat) (roots : List Ptr) (hs : SlicesOk h) (hf : Finite h n roots)
    (hd : AllDeclared h roots) (hac : AcyclicRefs h roots) (hpr : PlainRefs h roots) (hpt : PlainTargets h roots) :
    ∃ h1, dereference n h roots = .ok h1 ∧
      (∀ root ∈ roots, ∀ p e, Below h1 root p → h1.get p = some e → ¬ HasRef e) ∧
      (∀ p e0 name, RefAt h roots p e0 name → ∃ q e real, RefersTo h roots p q ∧ h1.get p = some e ∧ h1.get q = some real ∧
        ¬ HasRef real ∧ ∀ m, readElem h1 (m + 1) e = deref e0.tag (readElem h1 (m + 1) real)) ∧
      (∀ p e, (∃ root ∈ roots, Below h root p) → h.get p = some e → ¬ HasRef e → h1.get p = some e) ∧
      ∀ h', flattenRef n h roots = .ok h' → ∀ root ∈ roots, ∀ p e, Below h' root p → h'.get p = some e → ¬ HasRef e := by
  obtain ⟨ix, hix⟩ := indexSchemas_finite roots {} hf
  obtain ⟨es, hes⟩ := refEdges_declared hix hd
  obtain ⟨h1, hrun, inv⟩ := dereference_run hs hix hes hac hpt hpr
  have sc := scene hix hes
  obtain ⟨hclean, hroots⟩ := clean_of_inv sc inv
  refine ⟨h1, hrun, ?_, ?_, ?_, ?_⟩
  · intro root hroot p e hb hg
    exact (hclean p e (clean_below hclean hroots hroot hb (by rw [hg]; rfl)) hg).1
  · rintro p e0 name ⟨hb, hg, href, hname⟩
    have hp : p ∈ ix.eltByID := (sc.ids p).mpr ⟨hb, by rw [hg]; rfl⟩
    rcases inv.old p hp e0 hg with g1 | ⟨_, e, q, g1, g2, g3, g4, real, g5, g6, g7, g8, g9, g10, g11, g12⟩
    · exfalso
      obtain ⟨k, hk⟩ := List.mem_iff_getElem?.mp hp
      obtain ⟨key, dep, q, _, _, _, _, hedge⟩ := sc.target k p e0 hk hg href
      obtain ⟨e', h4, h5⟩ := inv.done k p ⟨_, hedge, Or.inl rfl⟩ hk
      rw [g1] at h4; cases h4
      exact h5 href
    · refine ⟨q, e, real, g4, g1, g5, g6, ?_⟩
      intro m
      rw [readElem, readElem, deref, g8, g9, g10, g11, g12]
      simp only [Element.name, Element.attrs, Element.scope, Element.content, Element.children, HElem.tag, List.length_map]
  · intro p e hb hg hn
    rcases inv.old p ((sc.ids p).mpr ⟨hb, by rw [hg]; rfl⟩) e hg with g1 | ⟨g1, _⟩
    · exact g1
    · exact absurd g1 hn
  · intro h' hrun' root hroot p e hb hg
    unfold flattenRef at hrun'
    rw [hrun] at hrun'
    obtain ⟨c1, c2⟩ := clean_unpackAll (b := h.length) (fun p hp => Or.inr hp) roots (fun r hr => hr) inv.len hclean hroots hrun'
    exact (c1 p e (clean_below c1 c2 hroot hb (by rw [hg]; rfl)) hg).1

/-! ### Checking conditions on given documents -/

/-- The elements below the roots. -/
def allBelow (h : EHeap) (n : Nat) (roots : List Ptr) : List HElem :=
  roots.flatMap fun r => ((searchPtr h n (fun _ => true) r).getD []).filterMap h.get

theorem mem_allBelow {h : EHeap} {n : Nat} {roots : List Ptr} (hf : Finite h n roots) {root p : Ptr} {e : HElem} (hroot : root ∈ roots)
    (hb : Below h root p) (hg : h.get p = some e) : e ∈ allBelow h n roots := by
  obtain ⟨ps, hps⟩ := Option.isSome_iff_exists.mp (hf root hroot)
  refine List.mem_flatMap.mpr ⟨root, hroot, ?_⟩
  rw [hps]
  exact List.mem_filterMap.mpr ⟨p, (searchPtr_mem hps p).mpr ⟨hb, e, hg, rfl⟩, hg⟩

instance (h : EHeap) (n : Nat) (roots : List Ptr) : Decidable (Finite h n roots) := by unfold Finite; infer_instance
instance (e : HElem) : Decidable (HasRef e) := by unfold HasRef; infer_instance

theorem slicesOk_of {h : EHeap} (hc : ∀ a ∈ h, ∀ e ∈ a, e.kids.len ≤ ((h[e.kids.arr]?).getD []).length) : SlicesOk h := by
  intro p e hg
  unfold EHeap.get at hg
  cases ha : h[p.arr]? with
  | none => rw [ha] at hg; cases hg
  | some a =>
    rw [ha] at hg
    exact hc a (List.mem_of_getElem? ha) e (List.mem_of_getElem? hg)

theorem acyclic_of {h : EHeap} {n : Nat} {roots : List Ptr} (hf : Finite h n roots)
    (hc : ∀ e ∈ allBelow h n roots, e.attr [] b!"name" ≠ [] → ¬ HasRef e) : AcyclicRefs h roots := by
  have hno : ∀ p q r, RefersTo h roots p q → ¬ RefersTo h roots q r := by
    rintro p q r ⟨e, name, _, root, h1, r', e', h2, h3, h4, h5, h6, h7⟩ ⟨e'', name', ⟨_, h8, h9, _⟩, _⟩
    rw [h4] at h8; cases h8
    exact hc e' (mem_allBelow hf h1 h3 h4) h6 h9
  have hno2 : ∀ p q r, RefersTo h roots p q → ¬ Relation.TransGen (RefersTo h roots) q r := by
    intro p q r h1 h2
    obtain ⟨x, h3, _⟩ := Relation.TransGen.head'_iff.mp h2
    exact hno p q x h1 h3
  intro p hp
  obtain ⟨x, h3, h4⟩ := Relation.TransGen.head'_iff.mp hp
  rcases Relation.reflTransGen_iff_eq_or_transGen.mp h4 with h5 | h5
  · subst h5; exact hno _ _ _ h3 h3
  · exact hno2 _ _ _ h3 h5

theorem plainTargets_of {h : EHeap} {n : Nat} {roots : List Ptr} (hf : Finite h n roots)
    (hc : ∀ e ∈ allBelow h n roots, e.attr [] b!"name" ≠ [] → ∀ d ∈ h.cells e.kids, ¬ HasRef d) : PlainTargets h roots := by
  rintro p q e c d ⟨_, _, _, root, h1, r', e', h2, h3, h4, h5, h6, h7⟩ hg hk hd
  rw [hg] at h4; cases h4
  refine hc e (mem_allBelow hf h1 h3 hg) h6 d (mem_cells.mpr ⟨c.idx, hk.2, ?_⟩)
  rw [← hk.1]; exact hd

theorem plainRefs_of {h : EHeap} {n : Nat} {roots : List Ptr} (hf : Finite h n roots)
    (hc : ∀ e ∈ allBelow h n roots, ∀ a ∈ e.attrs, a.name.loc = b!"ref" → a.name.space = []) : PlainRefs h roots :=
  fun _ hroot _ _ hb hg _ => hc _ (mem_allBelow hf hroot hb hg)

theorem allDeclared_of {h : EHeap} {n : Nat} {roots : List Ptr} (hf : Finite h n roots)
    (hc : ((indexSchemas h n roots {}).bind fun ix => refEdges h ix 0 ix.eltByID).isSome) : AllDeclared h roots := by
  intro p e name hr
  refine Classical.byContradiction fun hno => ?_
  have hno' : ∀ q, ¬ Declares h roots q name e.name := fun q hq => hno ⟨q, hq⟩
  obtain ⟨ix, hix⟩ := indexSchemas_finite roots {} hf
  have := C34_missing h n roots hf p e name hr hno'
  rw [hix, Option.bind_some] at hc
  obtain ⟨es, hes⟩ := Option.isSome_iff_exists.mp hc
  obtain ⟨out, hout, _⟩ := Dep.C23_flatten_visits_once es
  unfold flattenRef dereference at this
  rw [hix] at this
  dsimp only at this
  rw [hes] at this
  dsimp only at this
  obtain ⟨⟨root, hroot, hb⟩, hg, href, hname⟩ := hr
  have sc := scene hix hes
  obtain ⟨k, hk⟩ := List.mem_iff_getElem?.mp ((sc.ids p).mpr ⟨⟨root, hroot, hb⟩, by rw [hg]; rfl⟩)
  obtain ⟨key, dep, q, _, _, _, ⟨e', name', ⟨_, g1, _, g2⟩, g3⟩, _⟩ := sc.target k p e hk hg href
  rw [hg] at g1; cases g1
  rw [hname] at g2; subst g2
  exact hno' q g3

/-! ### Documents -/

/-- Go's growth of small slices. -/
def doubling (cap need : Nat) : Nat := max (2 * cap) need

/-- An element of a schema in which the prefixes `xs` and `t` are declared. -/
def xs (loc : Str) (attrs : List (Str × Str)) (kids : List Element) : Element :=
  .mk ⟨schemaNS, loc⟩ (attrs.map fun a => ⟨⟨[], a.1⟩, a.2⟩) [⟨schemaNS, b!"xs"⟩, ⟨b!"urn:t", b!"t"⟩] [] kids

/-- The pointer to the element at a position. -/
def ptrAt (h : EHeap) : Ptr → List Nat → Option Ptr
  | p, [] => some p
  | p, i :: is => match h.get p with
    | none => none
    | some e => if i < e.kids.len then ptrAt h ⟨e.kids.arr, i⟩ is else none

theorem ptrAt_below {h : EHeap} {root : Ptr} (is : List Nat) : ∀ {r q : Ptr} {i : Nat}, ptrAt h r (i :: is) = some q →
    (r = root ∨ Below h root r) → Below h root q := by
  induction is with
  | nil =>
    intro r q i hq hr
    rw [ptrAt] at hq
    cases hg : h.get r with
    | none => rw [hg] at hq; cases hq
    | some e =>
      rw [hg] at hq
      dsimp only at hq
      split at hq
      · rename_i hi
        simp only [ptrAt, Option.some.injEq] at hq
        subst hq
        rcases hr with rfl | hr
        · exact .kid hg ⟨rfl, hi⟩
        · exact .step hr hg ⟨rfl, hi⟩
      · cases hq
  | cons j is ih =>
    intro r q i hq hr
    rw [ptrAt] at hq
    cases hg : h.get r with
    | none => rw [hg] at hq; cases hq
    | some e =>
      rw [hg] at hq
      dsimp only at hq
      split at hq
      · rename_i hi
        refine ih hq (Or.inr ?_)
        rcases hr with rfl | hr
        · exact .kid hg ⟨rfl, hi⟩
        · exact .step hr hg ⟨rfl, hi⟩
      · cases hq

/-- Where the element at a position is and what it is, after `flattenRef` on one document. -/
def afterFlatten (n : Nat) (t : Element) (path : List Nat) : Option (Ptr × HElem) :=
  let m := loadDoc doubling t []
  match flattenRef n m.1 [m.2] with
  | .ok h => (ptrAt h m.2 path).bind fun p => (h.get p).map fun e => (p, e)
  | _ => none

/-- A type that uses an attribute group which is declared after it and contains a reference. -/
def staleDoc : Element :=
  xs b!"schema" [(b!"targetNamespace", b!"urn:t")]
    [xs b!"complexType" [(b!"name", b!"T")]
      [xs b!"complexContent" [] [xs b!"restriction" [(b!"base", b!"xs:anyType")] [xs b!"attributeGroup" [(b!"ref", b!"t:g")] []]]],
     xs b!"attributeGroup" [(b!"name", b!"g")] [xs b!"attribute" [(b!"ref", b!"t:a")] []],
     xs b!"attribute" [(b!"name", b!"a"), (b!"type", b!"xs:string")] []]

/-- C34 is false of the code: in the type above a `ref` is left. -/
theorem C34_stale_refuted : ¬ C34_full := by
  intro hfull
  have hf : Finite (loadDoc doubling staleDoc []).1 9 [(loadDoc doubling staleDoc []).2] := by decide +kernel
  have hok : ∃ pe, afterFlatten 9 staleDoc [0, 0, 0, 0] = some pe ∧ HasRef pe.2 := by
    have : ((afterFlatten 9 staleDoc [0, 0, 0, 0]).any fun pe => decide (HasRef pe.2)) = true := by decide +kernel
    cases hpe : afterFlatten 9 staleDoc [0, 0, 0, 0] with
    | none => rw [hpe] at this; cases this
    | some pe => rw [hpe] at this; exact ⟨pe, rfl, by simpa using this⟩
  obtain ⟨⟨p, e⟩, hpe, href⟩ := hok
  unfold afterFlatten at hpe
  dsimp only at hpe
  cases hrun : flattenRef 9 (loadDoc doubling staleDoc []).1 [(loadDoc doubling staleDoc []).2] with
  | ok h' =>
    rw [hrun] at hpe
    dsimp only at hpe
    obtain ⟨q, h1, h2⟩ := Option.bind_eq_some_iff.mp hpe
    obtain ⟨e', h3, h4⟩ := Option.map_eq_some_iff.mp h2
    cases h4
    refine hfull _ 9 _ (slicesOk_of (by decide +kernel)) hf (allDeclared_of hf (by decide +kernel)) (acyclic_of hf (by decide +kernel))
      (plainRefs_of hf (by decide +kernel)) h' hrun _ (by simp) p e (ptrAt_below _ h1 (Or.inl rfl)) h3 href
  | error => rw [hrun] at hpe; cases hpe
  | panic => rw [hrun] at hpe; cases hpe
  | running => rw [hrun] at hpe; cases hpe

/-- A document with a chain of references, to which `C34_resolved_partial` applies. -/
def chainDoc : Element :=
  xs b!"schema" [(b!"targetNamespace", b!"urn:t")]
    [xs b!"complexType" [(b!"name", b!"T")] [xs b!"sequence" [] [xs b!"group" [(b!"ref", b!"t:g")] []]],
     xs b!"group" [(b!"name", b!"g")] [xs b!"sequence" [] [xs b!"element" [(b!"ref", b!"t:a"), (b!"minOccurs", b!"0")] []]],
     xs b!"element" [(b!"name", b!"a"), (b!"type", b!"xs:string")] []]

example : ∃ h1, dereference 9 (loadDoc doubling chainDoc []).1 [(loadDoc doubling chainDoc []).2] = .ok h1 ∧
    ∀ p e, Below h1 (loadDoc doubling chainDoc []).2 p → h1.get p = some e → ¬ HasRef e := by
  have hf : Finite (loadDoc doubling chainDoc []).1 9 [(loadDoc doubling chainDoc []).2] := by decide +kernel
  obtain ⟨h1, h2, h3, _⟩ := C34_resolved_partial _ 9 _ (slicesOk_of (by decide +kernel)) hf (allDeclared_of hf (by decide +kernel))
    (acyclic_of hf (by decide +kernel)) (plainRefs_of hf (by decide +kernel)) (plainTargets_of hf (by decide +kernel))
  exact ⟨h1, h2, h3 _ (by simp)⟩

/-- What the element in the type above is in the end. -/
example : (afterFlatten 9 chainDoc [0, 0, 0, 0]).map (fun pe => (pe.2.attrs.map fun a => (a.name.loc, a.value))) =
    some [(b!"name", b!"a"), (b!"type", b!"xs:string"), (b!"minOccurs", b!"0")] := by decide +kernel

/-- A reference to something that is not declared. -/
def missingDoc : Element := xs b!"schema" [] [xs b!"element" [(b!"ref", b!"t:b")] []]

example : flattenRef 9 (loadDoc doubling missingDoc []).1 [(loadDoc doubling missingDoc []).2] = .error := by
  have hf : Finite (loadDoc doubling missingDoc []).1 9 [(loadDoc doubling missingDoc []).2] := by decide +kernel
  have hp : ∃ p, ptrAt (loadDoc doubling missingDoc []).1 (loadDoc doubling missingDoc []).2 [0] = some p := by
    apply Option.isSome_iff_exists.mp; decide +kernel
  obtain ⟨p, hp⟩ := hp
  have he : ∃ e, (loadDoc doubling missingDoc []).1.get p = some e ∧ HasRef e ∧
      resolve e.scope (e.attr [] b!"ref") = ⟨b!"urn:t", b!"b"⟩ := by
    have : (ptrAt (loadDoc doubling missingDoc []).1 (loadDoc doubling missingDoc []).2 [0]).any (fun p =>
        ((loadDoc doubling missingDoc []).1.get p).any fun e =>
          decide (HasRef e ∧ resolve e.scope (e.attr [] b!"ref") = ⟨b!"urn:t", b!"b"⟩)) = true := by decide +kernel
    rw [hp, Option.any_some] at this
    cases hg : (loadDoc doubling missingDoc []).1.get p with
    | none => rw [hg] at this; cases this
    | some e => rw [hg] at this; exact ⟨e, rfl, by simpa using this⟩
  obtain ⟨e, hg, href, hname⟩ := he
  refine C34_missing _ 9 _ hf p e ⟨b!"urn:t", b!"b"⟩ ⟨⟨_, by simp, ptrAt_below [] hp (Or.inl rfl)⟩, hg, href, hname⟩ ?_
  rintro q ⟨root, h1, r, e, h2, h3, h4, h5, h6, h7⟩
  exact absurd h6 ((by decide +kernel : ∀ e ∈ allBelow (loadDoc doubling missingDoc []).1 9 [(loadDoc doubling missingDoc []).2],
    ¬ e.attr [] b!"name" ≠ []) e (mem_allBelow hf h1 h3 h4))

end GoXml.Xsd
