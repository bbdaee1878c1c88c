import Verif.Proofs.XsdExpand
import Verif.Props.XsdHeapRef
set_option autoImplicit false

/-! Property C31: complex type shorthand is expanded. `expandTree` (Spec/XsdExpand.lean) says what the result has
to be, `Holds` that the memory holds a tree. -/

namespace GoXml.Xsd

/-- Full statement of C31: whatever schema tree there is in memory, afterwards there is the one in which all
shorthand complex types are expanded. -/
def C31_full : Prop :=
  ∀ (grow : Nat → Nat → Nat) (h : EHeap) (n : Nat) (root : Ptr) (t : Element), SlicesOk h → Holds h root t → depth t ≤ n →
    ∃ h', expandComplexShorthand grow n h root = some h' ∧ Holds h' root (expandBelow t)

/-- C31 for trees without a shorthand complex type that is directly inside another one. Missing: those trees,
which are not valid schemas; see `C31_nested_refuted`. -/
theorem C31_expanded_partial (grow : Nat → Nat → Nat) (h : EHeap) (n : Nat) (root : Ptr) (t : Element) (hs : SlicesOk h) (hr : Holds h root t)
    (hno : NoNestedTypes t) (hn : depth t ≤ n) :
    ∃ h', expandComplexShorthand grow n h root = some h' ∧ Holds h' root (expandBelow t) := by
  obtain ⟨ps, hps⟩ := searchPtr_reads (fun e => isElem schemaNS b!"complexType" e.tag) hr hn
  obtain ⟨r, hg, hrd⟩ := hr
  refine ⟨ps.foldl (expandAt grow) h, by unfold expandComplexShorthand; rw [hps]; rfl, ?_⟩
  have hmem : ∀ p, p ∈ ps ↔ Below h root p ∧ ∃ e, h.get p = some e ∧ e.name = ⟨schemaNS, b!"complexType"⟩ := by
    intro p
    rw [searchPtr_mem hps p]
    simp only [isElem_iff]
  have inv := expInv_fold grow hs ps (by
    intro p hp
    obtain ⟨hb, e, h1, h2⟩ := (hmem p).mp hp
    refine ⟨e, h1, h2, ?_⟩
    intro hsh c hc
    obtain ⟨i, path, x, h3, h4⟩ := reads_below hb hg hrd h1
    obtain ⟨j, hj⟩ := List.mem_iff_getElem?.mp hc
    obtain ⟨k, h5, h6⟩ := forall2_mem_left (reads_iff.mp h4).2.2.2.2 hj
    have := hno _ x h3 ((shorthand_iff h4).mpr hsh) k (List.mem_of_getElem? h5)
    rw [shorthand_iff h6] at this
    simpa using this)
    (h := h) (D := fun _ => False) ⟨Nat.le_refl _, fun _ _ h _ => h, fun _ _ _ h => h.elim⟩
  obtain ⟨h1, _⟩ := reads_final hs inv t hno root r hg hrd (fun c hb d hd hn => Or.inr ((hmem c).mpr ⟨hb, d, hd, hn⟩))
  refine ⟨r, inv.same root r hg ?_, h1⟩
  rintro ⟨hh | hh, _⟩
  · exact hh
  · exact acc_not_below (acc_of_searchPtr hps) ((hmem root).mp hh).1

/-- C31 for documents as they are after parsing. -/
theorem C31_documents_partial (grow : Nat → Nat → Nat) (t : Element) (hno : NoNestedTypes t) (n : Nat) (hn : depth t ≤ n) :
    ∃ h', expandComplexShorthand grow n (loadDoc grow t []).1 (loadDoc grow t []).2 = some h' ∧ Holds h' (loadDoc grow t []).2 (expandBelow t) := by
  obtain ⟨h1, h2⟩ := loadDoc_holds grow t (h := []) (by intro p e hg; simp [EHeap.get] at hg)
  exact C31_expanded_partial grow _ n _ t h1 h2 hno hn

/-- The element is a complex type with explicit content. -/
def ExplicitContent (x : Element) : Prop :=
  ∃ k ∈ x.children, k.name = ⟨schemaNS, b!"simpleContent"⟩ ∨ k.name = ⟨schemaNS, b!"complexContent"⟩

theorem explicit_of_not {x : Element} (hx : x.name = ⟨schemaNS, b!"complexType"⟩) (hn : ¬ Shorthand x) : ExplicitContent x := by
  refine Classical.byContradiction fun hno => hn ⟨hx, fun k hk => ⟨fun h1 => hno ⟨k, hk, Or.inl h1⟩, fun h1 => hno ⟨k, hk, Or.inr h1⟩⟩⟩

theorem explicit_iff {x : Element} (hx : ExplicitContent x) : ¬ Shorthand x := by
  rintro ⟨_, h⟩
  obtain ⟨k, hk, h1 | h1⟩ := hx
  · exact (h k hk).1 h1
  · exact (h k hk).2 h1

theorem at_cons {e x : Element} {i : Nat} {p : List Nat} (h : e.at? (i :: p) = some x) : ∃ k, e.children[i]? = some k ∧ k.at? p = some x := by
  rw [Element.at?] at h
  cases hk : e.children[i]? with
  | none => rw [hk] at h; cases h
  | some k => rw [hk] at h; exact ⟨k, rfl, h⟩

/-- All complex types in the result have explicit content. -/
theorem C31_explicit (t : Element) : ∀ p x, (expandTree t).at? p = some x → x.name = ⟨schemaNS, b!"complexType"⟩ → ExplicitContent x := by
  induction t using Element.ind with
  | hP n a s c ks ih =>
    intro p x hp hx
    rw [expandTree_eq] at hp
    by_cases hsh : Shorthand (.mk n a s c ks)
    · rw [if_pos hsh] at hp
      simp only [expandBelow, canonical] at hp
      cases p with
      | nil =>
        simp only [Element.at?, Option.some.injEq] at hp
        subst hp
        exact ⟨_, List.mem_append_right _ (List.mem_singleton.mpr rfl), Or.inr rfl⟩
      | cons i p =>
        obtain ⟨k, hk, hp⟩ := at_cons hp
        simp only [Element.children] at hk
        rcases List.mem_append.mp (List.mem_of_getElem? hk) with hm | hm
        · obtain ⟨k0, h1, rfl⟩ := List.mem_map.mp (List.mem_filter.mp hm).1
          exact ih k0 h1 p x hp hx
        · simp only [List.mem_singleton] at hm
          subst hm
          cases p with
          | nil => simp only [Element.at?, Option.some.injEq] at hp; subst hp; exact absurd hx (by simp only [Element.name]; decide)
          | cons j p =>
            obtain ⟨k, hk, hp⟩ := at_cons hp
            have hm := List.mem_of_getElem? hk
            simp only [Element.children, List.mem_singleton] at hm
            subst hm
            cases p with
            | nil => simp only [Element.at?, Option.some.injEq] at hp; subst hp; exact absurd hx (by simp only [Element.name]; decide)
            | cons l p =>
              obtain ⟨k, hk, hp⟩ := at_cons hp
              have hm := List.mem_of_getElem? hk
              simp only [Element.children] at hm
              obtain ⟨k0, h1, rfl⟩ := List.mem_map.mp (List.mem_filter.mp hm).1
              exact ih k0 h1 p x hp hx
    · rw [if_neg hsh] at hp
      simp only [expandBelow] at hp
      cases p with
      | nil =>
        simp only [Element.at?, Option.some.injEq] at hp
        subst hp
        refine explicit_of_not hx fun hs => hsh ⟨hs.1, fun k hk => ?_⟩
        have := hs.2 (expandTree k) (List.mem_map_of_mem hk)
        rwa [expandTree_name] at this
      | cons i p =>
        obtain ⟨k, hk, hp⟩ := at_cons hp
        simp only [Element.children] at hk
        obtain ⟨k0, h1, rfl⟩ := List.mem_map.mp (List.mem_of_getElem? hk)
        exact ih k0 h1 p x hp hx

/-- Expanding what has been expanded changes nothing in memory. -/
theorem C31_again (grow : Nat → Nat → Nat) (h : EHeap) (n : Nat) (root : Ptr) (t : Element) (hr : Holds h root (expandBelow t))
    (hn : depth (expandBelow t) ≤ n) : expandComplexShorthand grow n h root = some h := by
  obtain ⟨ps, hps⟩ := searchPtr_reads (fun e => isElem schemaNS b!"complexType" e.tag) hr hn
  obtain ⟨r, hg, hrd⟩ := hr
  unfold expandComplexShorthand
  rw [hps, Option.map_some]
  congr 1
  have hnone : ∀ p ∈ ps, expandAt grow h p = h := by
    intro p hp
    obtain ⟨hb, e, h1, h2⟩ := (searchPtr_mem hps p).mp hp
    rw [isElem_iff] at h2
    obtain ⟨i, path, x, h3, h4⟩ := reads_below hb hg hrd h1
    obtain ⟨k, hk, hp⟩ := at_cons h3
    cases t with
    | mk nn a s c ks =>
      simp only [expandBelow, Element.children] at hk
      obtain ⟨k0, _, rfl⟩ := List.mem_map.mp (List.mem_of_getElem? hk)
      have := C31_explicit k0 path x hp (by rw [← (reads_iff.mp h4).1]; exact h2)
      have hns := explicit_iff this
      rw [shorthand_iff h4] at hns
      apply expandAt_none grow h1
      unfold shorthandH at hns
      simpa [h2] using hns
  clear hps
  induction ps with
  | nil => rfl
  | cons p ps ih =>
    rw [List.foldl_cons, hnone p (by simp)]
    exact ih fun q hq => hnone q (by simp [hq])

/-- What is written explicitly stays as it is. -/
theorem C31_unchanged (t : Element) (h : ∀ p x, t.at? p = some x → ¬ Shorthand x) : expandTree t = t := by
  induction t using Element.ind with
  | hP n a s c ks ih =>
    rw [expandTree_eq, if_neg (h [] _ rfl), expandBelow]
    congr 1
    have : ks.map expandTree = ks.map id := by
      apply List.map_congr_left
      intro k hk
      refine ih k hk fun p x hp => ?_
      obtain ⟨i, hi⟩ := List.mem_iff_getElem?.mp hk
      exact h (i :: p) x (by simp only [Element.at?, Element.children, hi]; exact hp)
    rw [this, List.map_id]

/-- Reading a tree to its full depth. -/
theorem readElem_reads {h : EHeap} (n : Nat) : ∀ {t : Element} {e : HElem}, Reads h t e → depth t ≤ n + 1 → readElem h n e = t := by
  induction n with
  | zero =>
    intro t e hr hn
    obtain ⟨r1, r2, r3, r4, r5⟩ := reads_iff.mp hr
    cases t with
    | mk nn a s c ks =>
      cases ks with
      | nil => rw [readElem, HElem.tag]; simp only [Element.name, Element.attrs, Element.scope, Element.content] at r1 r2 r3 r4; rw [r1, r2, r3, r4]
      | cons k ks =>
        have := depth_kid (t := .mk nn a s c (k :: ks)) (k := k) (by simp [Element.children])
        cases k; rw [depth] at this; omega
  | succ n ih =>
    intro t e hr hn
    obtain ⟨r1, r2, r3, r4, r5⟩ := reads_iff.mp hr
    cases t with
    | mk nn a s c ks =>
      simp only [Element.name, Element.attrs, Element.scope, Element.content, Element.children] at r1 r2 r3 r4 r5
      rw [readElem, r1, r2, r3, r4]
      congr 1
      apply List.ext_getElem?
      intro i
      rw [List.getElem?_map]
      cases hc : (h.cells e.kids)[i]? with
      | none =>
        have h1 := List.getElem?_eq_none_iff.mp hc
        rw [Option.map_none, eq_comm, List.getElem?_eq_none_iff, r5.length_eq]
        exact h1
      | some c0 =>
        obtain ⟨k, h1, h2⟩ := forall2_mem_left r5 hc
        have := depth_kid (t := .mk nn a s c ks) (List.mem_of_getElem? h1)
        rw [h1, Option.map_some, ih h2 (by omega)]

theorem readPtr_holds {h : EHeap} {p : Ptr} {t : Element} (hh : Holds h p t) {n : Nat} (hn : depth t ≤ n + 1) : readPtr h n p = some t := by
  obtain ⟨e, h1, h2⟩ := hh
  unfold readPtr
  rw [h1, Option.map_some, readElem_reads n h2 hn]

/-- A complex type directly inside another one. -/
def nestedDoc : Element :=
  xs b!"schema" [] [xs b!"complexType" [(b!"name", b!"A")] [xs b!"complexType" [(b!"name", b!"B")] [xs b!"sequence" [] []]]]

/-- C31 is false of the code: the pointer to the inner type is to where it was before it was moved. -/
theorem C31_nested_refuted : ¬ C31_full := by
  intro hfull
  obtain ⟨h1, h2⟩ := loadDoc_holds doubling nestedDoc (h := []) (by intro p e hg; simp [EHeap.get] at hg)
  obtain ⟨h', h3, h4⟩ := hfull doubling _ 9 _ nestedDoc h1 h2 (by decide +kernel)
  have h5 := readPtr_holds h4 (n := 9) (by decide +kernel)
  have h6 : ((expandComplexShorthand doubling 9 (loadDoc doubling nestedDoc []).1 (loadDoc doubling nestedDoc []).2).bind fun h' =>
      (readPtr h' 9 (loadDoc doubling nestedDoc []).2).bind fun t => (t.at? [0, 0, 0, 0, 0]).map (·.name.loc)) = some b!"sequence" := by decide +kernel
  rw [h3, Option.bind_some, h5, Option.bind_some] at h6
  have h7 : ((expandBelow nestedDoc).at? [0, 0, 0, 0, 0]).map (·.name.loc) = some b!"complexContent" := by decide +kernel
  rw [h6] at h7
  exact absurd h7 (by decide)

/-- A document to which `C31_expanded_partial` applies, and its expansion. -/
def shorthandDoc : Element :=
  xs b!"schema" [] [xs b!"complexType" [(b!"name", b!"A")] [xs b!"annotation" [] [], xs b!"sequence" []
    [xs b!"element" [(b!"name", b!"x")] [xs b!"complexType" [] [xs b!"choice" [] [], xs b!"attribute" [(b!"name", b!"y")] []]]]]]

/-- Enough to check for `NoNestedTypes`. -/
def noNested : Element → Bool
  | .mk n a s c ks => go ks && (!decide (Shorthand (.mk n a s c ks)) || ks.all fun k => !decide (Shorthand k))
where go : List Element → Bool
  | [] => true
  | k :: ks => noNested k && go ks

theorem noNested_of (t : Element) : noNested t = true → NoNestedTypes t := by
  induction t using Element.ind with
  | hP n a s c ks ih =>
    intro hb
    rw [noNested, Bool.and_eq_true] at hb
    intro p x hp hx k hk
    cases p with
    | nil =>
      simp only [Element.at?, Option.some.injEq] at hp
      subst hp
      have := hb.2
      rw [Bool.or_eq_true] at this
      rcases this with h1 | h1
      · simp only [Bool.not_eq_true', decide_eq_false_iff_not] at h1; exact absurd hx h1
      · have := List.all_eq_true.mp h1 k hk
        simpa using this
    | cons i p =>
      obtain ⟨k1, h1, h2⟩ := at_cons hp
      simp only [Element.children] at h1
      have hgo : ∀ ks : List Element, noNested.go ks = true → ∀ k ∈ ks, noNested k = true := by
        intro ks
        induction ks with
        | nil => intro _ k hk; cases hk
        | cons y ks ih2 =>
          intro hg k hk
          rw [noNested.go, Bool.and_eq_true] at hg
          rcases List.mem_cons.mp hk with rfl | hk
          · exact hg.1
          · exact ih2 hg.2 k hk
      exact ih k1 (List.mem_of_getElem? h1) (hgo ks hb.1 k1 (List.mem_of_getElem? h1)) p x h2 hx k hk

example : ∃ h', expandComplexShorthand doubling 9 (loadDoc doubling shorthandDoc []).1 (loadDoc doubling shorthandDoc []).2 = some h' ∧
    Holds h' (loadDoc doubling shorthandDoc []).2 (expandBelow shorthandDoc) :=
  C31_documents_partial doubling shorthandDoc (noNested_of _ (by decide +kernel)) 9 (by decide +kernel)

example : ((expandBelow shorthandDoc).at? [0, 1, 0, 0, 0, 0, 0, 0, 1]).map (fun e => (e.name.loc, e.attrs.map (·.value))) = some (b!"attribute", [b!"y"]) := by
  decide +kernel

end GoXml.Xsd
