import Verif.Proofs.XsdHoist
import Verif.Proofs.Numbers
import Verif.Props.XsdExpand
import Verif.Props.XsdDeref
set_option autoImplicit false

/-! Property C32: anonymous types get unique names. `hoistRoot` (Spec/XsdNames.lean) says what the result has to
be. -/

namespace GoXml.Xsd

/-! ### The passes in memory -/

theorem pick_numbered {tns : Str} {t : Element} : (numbered tns).pick t ≠ none ↔ ∃ k ∈ t.children, AnonType k := by
  unfold Plan.pick numbered
  simp only [if_true, ne_eq, List.findIdx?_eq_none_iff, decide_eq_false_iff_not, Classical.not_forall, Classical.not_not, exists_prop]

theorem fine_of_tidy {tns : Str} {t : Element} (ht : TidyDoc (numbered tns) t) (hk : TypeHolders t) :
    ∀ k ∈ t.children, (numbered tns).pick k = none ∧ Fine (numbered tns) mayHaveType k := by
  intro k hkm
  refine ⟨(ht k hkm).1, fun p x hx hp => ?_⟩
  obtain ⟨h1, h2⟩ := (ht k hkm).2 p x hx hp
  refine ⟨h1, h2, ?_⟩
  obtain ⟨i, hi⟩ := List.getElem?_of_mem hkm
  intro hsp
  cases x with
  | mk n a s c ks => exact hk (i :: p) (.mk n a s c ks) (by rw [Element.at?, hi]; exact hx) (by simp) hsp (pick_numbered.mp hp)

theorem searchPtr_congr {h : EHeap} {n : Nat} {p q : HElem → Bool} {root : Ptr} (he : p = q) : searchPtr h n p root = searchPtr h n q root := by rw [he]

/-- One document: what `nameAnonymousTypes` does, and what it leaves alone. -/
theorem nameAnonymousTypes_run (grow : Nat → Nat → Nat) {h : EHeap} {n : Nat} {R : Ptr} {t : Element} {r : HElem} {fp : List Nat} (k : Nat)
    (hg : h.get R = some r) (ho : Owns h t r fp) (hnd : fp.Nodup) (hR : R.arr ∉ fp)
    (ht : TidyDoc (numbered (t.attr [] b!"targetNamespace")) t) (hk : TypeHolders t) (hn : depth t ≤ n) :
    ∃ h' r' fp', nameAnonymousTypes grow n R (h, k) = some (h', (hoistRoot (numbered (t.attr [] b!"targetNamespace")) t k).2) ∧ h'.get R = some r' ∧
      Owns h' (hoistRoot (numbered (t.attr [] b!"targetNamespace")) t k).1 r' fp' ∧ fp'.Nodup ∧ R.arr ∉ fp' ∧
      h.length ≤ h'.length ∧ (∀ a ∈ fp', a ∈ fp ∨ h.length ≤ a) ∧ ∀ p : Ptr, p.arr < h.length → p.arr ∉ fp → p ≠ R → h'.get p = h.get p := by
  obtain ⟨ps, hps⟩ := searchPtr_reads (hasAnonymousType h) ⟨r, hg, owns_reads t ho⟩ hn
  have hpred : predH (numbered (t.attr [] b!"targetNamespace")) h = hasAnonymousType h := by
    funext e; unfold predH numbered; simp
  have htns : r.attr [] b!"targetNamespace" = t.attr [] b!"targetNamespace" := by
    obtain ⟨_, h2, _⟩ := owns_iff.mp ho
    unfold HElem.attr
    rw [h2]
    cases t; rfl
  have hps' := hps
  rw [← searchPtr_congr hpred] at hps'
  obtain ⟨h', r', fp', a1, a2⟩ := run_document (namePass grow R (t.attr [] b!"targetNamespace")) (fine_of_tidy ht hk) (st := k) hg ho hnd hR hps'
  refine ⟨h', r', fp', ?_, a2⟩
  unfold nameAnonymousTypes
  dsimp only
  rw [hg, Option.bind_some, hps, Option.bind_some, htns]
  exact a1

/-- C32 for one document with numbered names. Missing: documents in which an element has two anonymous types, or
in which a child of an element with an anonymous type, or of the root, has one as well; see the refutations. -/
theorem C32_numbered_partial (grow : Nat → Nat → Nat) (h : EHeap) (n : Nat) (R : Ptr) (t : Element) (k : Nat) (hh : HoldsApart h R t)
    (ht : TidyDoc (numbered (t.attr [] b!"targetNamespace")) t) (hk : TypeHolders t) (hn : depth t ≤ n) :
    ∃ h', nameAnonymousTypes grow n R (h, k) = some (h', (hoistRoot (numbered (t.attr [] b!"targetNamespace")) t k).2) ∧
      HoldsApart h' R (hoistRoot (numbered (t.attr [] b!"targetNamespace")) t k).1 := by
  obtain ⟨r, fp, h1, h2, h3, h4⟩ := hh
  obtain ⟨h', r', fp', a1, a2, a3, a4, a5, _⟩ := nameAnonymousTypes_run grow k h1 h2 h3 h4 ht hk hn
  exact ⟨h', a1, r', fp', a2, a3, a4, a5⟩

theorem nameAll_run (grow : Nat → Nat → Nat) (n : Nat) (docs : List (Ptr × Element)) : ∀ (h : EHeap) (k : Nat) (fps : List (List Nat)),
    List.Forall₂ (fun d fp => ∃ e, h.get d.1 = some e ∧ Owns h d.2 e fp) docs fps → fps.flatten.Nodup → (docs.map (·.1)).Nodup →
    (∀ d ∈ docs, d.1.arr ∉ fps.flatten) →
    (∀ d ∈ docs, TidyDoc (numbered (d.2.attr [] b!"targetNamespace")) d.2 ∧ TypeHolders d.2 ∧ depth d.2 ≤ n) →
    ∃ h' fps', nameAllTypes grow n (docs.map (·.1)) (h, k) = some (h', (numberDocs docs k).2) ∧
      List.Forall₂ (fun d fp => ∃ e, h'.get d.1 = some e ∧ Owns h' d.2 e fp) (numberDocs docs k).1 fps' ∧ fps'.flatten.Nodup ∧
      (∀ d ∈ docs, d.1.arr ∉ fps'.flatten) ∧ h.length ≤ h'.length ∧ (∀ a ∈ fps'.flatten, a ∈ fps.flatten ∨ h.length ≤ a) ∧
      ∀ p : Ptr, p.arr < h.length → p.arr ∉ fps.flatten → (∀ d ∈ docs, p ≠ d.1) → h'.get p = h.get p := by
  induction docs with
  | nil =>
    intro h k fps hf _ _ _ _
    cases hf
    exact ⟨h, [], rfl, .nil, by simp, by simp, Nat.le_refl _, by simp, fun _ _ _ _ => rfl⟩
  | cons d docs ih =>
    intro h k fps hf hnd hrd hR hok
    cases hf with
    | cons hd hf =>
      rename_i fp fps
      obtain ⟨e, e1, e2⟩ := hd
      rw [List.flatten_cons] at hnd hR
      obtain ⟨nd1, nd2, nd3⟩ := List.nodup_append.mp hnd
      rw [List.map_cons, List.nodup_cons] at hrd
      have hRd := hR d (by simp)
      rw [List.mem_append, not_or] at hRd
      obtain ⟨o1, o2, o3⟩ := hok d (by simp)
      obtain ⟨h1, r1, fp1, a1, a2, a3, a4, a5, a6, a7, a8⟩ := nameAnonymousTypes_run grow k e1 e2 nd1 hRd.1 o1 o2 o3
      have hltfp := owns_lt _ e2
      have hne : ∀ d' ∈ docs, d'.1 ≠ d.1 := fun d' hd' he => hrd.1 (by rw [← he]; exact List.mem_map_of_mem hd')
      have hRlt : ∀ d' ∈ docs, d'.1.arr < h.length := by
        intro d' hd'
        obtain ⟨i, hi⟩ := List.getElem?_of_mem hd'
        have := (List.forall₂_iff_get.mp hf).2 i (List.getElem?_eq_some_iff.mp hi).1 (by rw [← hf.length_eq]; exact (List.getElem?_eq_some_iff.mp hi).1)
        obtain ⟨e', h3, _⟩ := this
        have h4 := (List.getElem?_eq_some_iff.mp hi).2
        simp only [List.get_eq_getElem, h4] at h3
        exact get_lt h3
      have hrest : ∀ f ∈ fps, ∀ a ∈ f, a < h.length := by
        intro f hfm a ha
        obtain ⟨i, hi⟩ := List.getElem?_of_mem hfm
        have := (List.forall₂_iff_get.mp hf).2 i (by rw [hf.length_eq]; exact (List.getElem?_eq_some_iff.mp hi).1) (List.getElem?_eq_some_iff.mp hi).1
        obtain ⟨e', _, h3⟩ := this
        have h4 := (List.getElem?_eq_some_iff.mp hi).2
        simp only [List.get_eq_getElem, h4] at h3
        exact owns_lt _ h3 a ha
      have hrestF : ∀ a ∈ fps.flatten, a < h.length := by
        intro a ha
        obtain ⟨f, h3, h4⟩ := List.mem_flatten.mp ha
        exact hrest f h3 a h4
      have hf1 : List.Forall₂ (fun d fp => ∃ e, h1.get d.1 = some e ∧ Owns h1 d.2 e fp) docs fps := by
        have hmem : ∀ d' ∈ docs, d' ∈ docs := fun _ h => h
        refine List.forall₂_iff_get.mpr ⟨hf.length_eq, ?_⟩
        intro i hi1 hi2
        obtain ⟨e', h3, h4⟩ := (List.forall₂_iff_get.mp hf).2 i hi1 hi2
        have hdm : docs.get ⟨i, hi1⟩ ∈ docs := List.get_mem docs ⟨i, hi1⟩
        have hfm : fps.get ⟨i, hi2⟩ ∈ fps := List.get_mem fps ⟨i, hi2⟩
        have hRd' := hR _ (List.mem_cons_of_mem d hdm)
        rw [List.mem_append, not_or] at hRd'
        refine ⟨e', ?_, owns_stable a6 _ h4 ?_⟩
        · rw [a8 _ (get_lt h3) hRd'.1 (hne _ hdm), h3]
        · intro a ha j
          have hfl : a ∈ fps.flatten := List.mem_flatten.mpr ⟨_, hfm, ha⟩
          exact a8 ⟨a, j⟩ (hrestF a hfl) (fun hm => nd3 a hm a hfl rfl) (fun he => hRd.2 (by rw [← he]; exact hfl))
      have hR' : ∀ d' ∈ docs, d'.1.arr ∉ fps.flatten := fun d' hd' hm => hR d' (by simp [hd']) (by rw [List.mem_append]; exact Or.inr hm)
      obtain ⟨h2, fps2, b1, b2, b3, b4, b5, b6, b7⟩ := ih h1 (hoistRoot (numbered (d.2.attr [] b!"targetNamespace")) d.2 k).2 fps hf1 nd2 hrd.2 hR' (fun d' hd' => hok d' (by simp [hd']))
      have hfp1lt := owns_lt _ a3
      have hdisj : ∀ a ∈ fp1, a ∉ fps.flatten := by
        intro a ha hm
        rcases a7 a ha with h3 | h3
        · exact nd3 a h3 a hm rfl
        · have := hrestF a hm; omega
      have hRd1 : ∀ d' ∈ docs, d'.1.arr ∉ fp1 := by
        intro d' hd' hm
        rcases a7 _ hm with h3 | h3
        · exact hR d' (by simp [hd']) (by rw [List.mem_append]; exact Or.inl h3)
        · have := hRlt d' hd'; omega
      refine ⟨h2, fp1 :: fps2, ?_, .cons ⟨r1, ?_, owns_stable b5 _ a3 ?_⟩ b2, ?_, ?_, Nat.le_trans a6 b5, ?_, ?_⟩
      · rw [List.map_cons, nameAllTypes, a1]
        exact b1
      · rw [b7 d.1 (Nat.lt_of_lt_of_le (get_lt e1) a6) hRd.2 (fun d' hd' => Ne.symm (hne d' hd')), a2]
      · intro a ha j
        refine b7 ⟨a, j⟩ (hfp1lt a ha) (hdisj a ha) fun d' hd' he => hRd1 d' hd' ?_
        rw [← he]; exact ha
      · rw [List.flatten_cons]
        refine List.nodup_append.mpr ⟨a4, b3, ?_⟩
        intro a ha b hb hab
        subst hab
        rcases b6 a hb with h3 | h3
        · exact hdisj a ha h3
        · have := hfp1lt a ha; omega
      · intro d' hd' hm
        rw [List.flatten_cons, List.mem_append] at hm
        rcases List.mem_cons.mp hd' with rfl | hd'
        · rcases hm with hm | hm
          · exact a5 hm
          · rcases b6 _ hm with h3 | h3
            · exact hRd.2 h3
            · have := get_lt a2; omega
        · rcases hm with hm | hm
          · exact hRd1 d' hd' hm
          · exact b4 d' hd' hm
      · intro a ha
        rw [List.flatten_cons, List.mem_append] at ha ⊢
        rcases ha with ha | ha
        · rcases a7 a ha with h3 | h3
          · exact Or.inl (Or.inl h3)
          · exact Or.inr h3
        · rcases b6 a ha with h3 | h3
          · exact Or.inl (Or.inr h3)
          · exact Or.inr (Nat.le_trans a6 h3)
      · intro p p1 p2 p3
        rw [List.flatten_cons, List.mem_append, not_or] at p2
        rw [b7 p (Nat.lt_of_lt_of_le p1 a6) p2.2 (fun d' hd' => p3 d' (by simp [hd'])), a8 p p1 p2.1 (p3 d (by simp))]

/-- C32 for any number of documents, with numbered names. Missing: see `C32_numbered_partial`. -/
theorem C32_documents_partial (grow : Nat → Nat → Nat) (h : EHeap) (n : Nat) (docs : List (Ptr × Element)) (k : Nat) (hh : HoldsDocs h docs)
    (hok : ∀ d ∈ docs, TidyDoc (numbered (d.2.attr [] b!"targetNamespace")) d.2 ∧ TypeHolders d.2 ∧ depth d.2 ≤ n) :
    ∃ h', nameAllTypes grow n (docs.map (·.1)) (h, k) = some (h', (numberDocs docs k).2) ∧ HoldsDocs h' (numberDocs docs k).1 := by
  obtain ⟨fps, h1, h2, h3, h4⟩ := hh
  obtain ⟨h', fps', a1, a2, a3, a4, _⟩ := nameAll_run grow n docs h k fps h1 h2 h3 h4 hok
  have hroots : ∀ (docs : List (Ptr × Element)) (k : Nat), (numberDocs docs k).1.map (·.1) = docs.map (·.1) := by
    intro docs
    induction docs with
    | nil => intro k; rfl
    | cons d docs ih => intro k; rw [numberDocs]; simp [ih]
  refine ⟨h', a1, fps', a2, a3, by rw [hroots]; exact h3, ?_⟩
  intro d hd
  have : d.1 ∈ (numberDocs docs k).1.map (·.1) := List.mem_map_of_mem hd
  rw [hroots] at this
  obtain ⟨d', h5, h6⟩ := List.mem_map.mp this
  rw [← h6]
  exact a4 d' h5

/-! ### The names -/

theorem withAttrs_attr (f : List Attr → List Attr) (t : Element) (sp lo : Str) : (withAttrs f t).attr sp lo = attrGet sp lo (f t.attrs) := by
  cases t; rfl

/-- What a pass with numbers does to the list of names given: they are the next numbers, in order. -/
theorem numbered_names (tns : Str) (t : Element) : ∀ k : Nat, ∃ m, (hoist (numbered tns) t k).2.2 = k + m ∧
    (hoist (numbered tns) t k).2.1.map (fun x => x.attr [] b!"name") = (List.range' (k + 1) m).map (fun j => b!"_anon" ++ natStr j) := by
  induction t using Element.ind with
  | hP n a s c ks ih =>
    have hall : ∀ k : Nat, ∃ m, (hoistAll (numbered tns) ks k).2.2 = k + m ∧
        (hoistAll (numbered tns) ks k).2.1.map (fun x => x.attr [] b!"name") = (List.range' (k + 1) m).map (fun j => b!"_anon" ++ natStr j) := by
      clear n a s c
      induction ks with
      | nil => intro k; exact ⟨0, rfl, rfl⟩
      | cons x ks ih2 =>
        intro k
        obtain ⟨m1, e1, e2⟩ := ih x (by simp) k
        obtain ⟨m2, e3, e4⟩ := ih2 (fun y hy => ih y (by simp [hy])) (k + m1)
        rw [hoistAll]
        dsimp only
        rw [e1]
        refine ⟨m1 + m2, by rw [e3]; omega, ?_⟩
        rw [List.map_append, e2, e4, ← List.map_append]
        congr 1
        have := List.range'_append (s := k + 1) (m := m1) (n := m2) (step := 1)
        rw [← this]
        congr 2
        omega
    intro k
    rw [hoist_eq]
    cases hp : (numbered tns).pick (.mk n a s c ks) with
    | none => exact hall k
    | some i =>
      dsimp only
      have hi : i < ks.length := by
        unfold Plan.pick numbered at hp
        simp only [if_true] at hp
        exact (List.findIdx?_eq_some_iff_getElem.mp hp).1
      by_cases hsp : n.space = schemaNS
      · have hmv : (numbered tns).move k (.mk n a s c ks) = (k + 1, some
            { attr := referrer n.loc
              value := (if n.loc = b!"union" then attrGet [] b!"memberTypes" a ++ b!" " else []) ++ prefixOf s ⟨tns, b!"_anon" ++ natStr (k + 1)⟩
              rename := fun a => attrSet [] b!"_isAnonymous" b!"true" (attrSet [] b!"name" (b!"_anon" ++ natStr (k + 1)) a) }) := by
          show (if n.space = schemaNS then _ else _) = _
          rw [if_pos hsp]
          rfl
        rw [hmv]
        dsimp only
        obtain ⟨m, e1, e2⟩ := hall (k + 1)
        refine ⟨m + 1, by simp only [Element.children]; rw [e1]; omega, ?_⟩
        simp only [Element.children]
        rw [List.getElem?_eq_getElem (by rw [hoistAll_length]; exact hi)]
        simp only [Option.map_some, Option.toList_some, List.singleton_append, List.map_cons]
        rw [e2, List.range'_succ, List.map_cons, withAttrs_attr, attr_attrSet_other _ _ _ _ _ _ (by decide), attr_attrSet_same]
      · have hmv : (numbered tns).move k (.mk n a s c ks) = (k, none) := by
          show (if n.space = schemaNS then _ else _) = _
          rw [if_neg hsp]
        rw [hmv]
        exact hall k

theorem numbered_all_names (tns : Str) (ks : List Element) : ∀ k : Nat, ∃ m, (hoistAll (numbered tns) ks k).2.2 = k + m ∧
    (hoistAll (numbered tns) ks k).2.1.map (fun x => x.attr [] b!"name") = (List.range' (k + 1) m).map (fun j => b!"_anon" ++ natStr j) := by
  intro k
  -- as for an element without anonymous types
  have := numbered_names tns (.mk ⟨[], []⟩ [] [] [] [.mk ⟨[], []⟩ [] [] [] ks]) k
  rw [hoist_eq] at this
  have hp : (numbered tns).pick (.mk ⟨[], []⟩ [] [] [] [.mk ⟨[], []⟩ [] [] [] ks]) = none := by
    cases hp : (numbered tns).pick (.mk ⟨[], []⟩ [] [] [] [.mk ⟨[], []⟩ [] [] [] ks]) with
    | none => rfl
    | some i =>
      obtain ⟨x, hx, hx2⟩ := pick_numbered.mp (by rw [hp]; simp)
      simp only [Element.children, List.mem_singleton] at hx
      subst hx
      exact absurd hx2.1 (by simp only [Element.name]; decide)
  rw [hp] at this
  dsimp only [hoistBelow] at this
  rw [hoistAll, hoistAll] at this
  dsimp only at this
  rw [hoist_eq] at this
  by_cases hq : (numbered tns).pick (.mk ⟨[], []⟩ [] [] [] ks) = none
  · rw [hq] at this
    dsimp only [hoistBelow] at this
    rw [List.append_nil] at this
    exact this
  · obtain ⟨i, hi⟩ := Option.ne_none_iff_exists'.mp hq
    rw [hi] at this
    have hmv : (numbered tns).move k (.mk ⟨[], []⟩ [] [] [] ks) = (k, none) := by
      have hne : ¬ (Element.mk ⟨[], []⟩ [] [] [] ks).name.space = schemaNS := by
        show ¬ ([] : Str) = schemaNS
        decide
      unfold numbered
      dsimp only
      rw [if_neg hne]
    dsimp only at this
    rw [hmv] at this
    dsimp only [hoistBelow] at this
    rw [List.append_nil] at this
    exact this

/-- The generated names are pairwise different, over all documents. -/
theorem C32_distinct (docs : List (Ptr × Element)) (k : Nat) : ((movedTypes docs k).map (fun x => x.attr [] b!"name")).Nodup := by
  have hall : ∀ (docs : List (Ptr × Element)) (k : Nat), ∃ m,
      (movedTypes docs k).map (fun x => x.attr [] b!"name") = (List.range' (k + 1) m).map (fun j => b!"_anon" ++ natStr j) := by
    intro docs
    induction docs with
    | nil => intro k; exact ⟨0, rfl⟩
    | cons d docs ih =>
      intro k
      obtain ⟨m1, e1, e2⟩ := numbered_all_names (d.2.attr [] b!"targetNamespace") d.2.children k
      obtain ⟨m2, e4⟩ := ih (k + m1)
      rw [movedTypes, e1]
      refine ⟨m1 + m2, ?_⟩
      rw [List.map_append, e2, e4, ← List.map_append]
      congr 1
      have := List.range'_append (s := k + 1) (m := m1) (n := m2) (step := 1)
      rw [← this]
      congr 2
      omega
  obtain ⟨m, hm⟩ := hall docs k
  rw [hm]
  refine List.Nodup.map ?_ (List.nodup_range')
  intro a b hab
  exact natStr_inj (List.append_cancel_left hab)

/-! ### Nothing is left -/

theorem hoist_name {σ : Type} (P : Plan σ) (t : Element) (st : σ) : (hoist P t st).1.name = t.name := by
  rw [hoist_eq]
  cases hp : P.pick t with
  | none => cases t; rfl
  | some i =>
    rcases hm : P.move st t with ⟨st', _ | m⟩
    · cases t; rfl
    · rfl

/-- Moving types out of an element does not make it an anonymous type, or a named one. -/
theorem anon_hoist {tns : Str} {t : Element} {k : Nat} (hk : t.name.space = schemaNS → (∃ x ∈ t.children, AnonType x) →
    t.name.loc ∈ [b!"element", b!"attribute", b!"list", b!"restriction", b!"union"]) : AnonType (hoist (numbered tns) t k).1 ↔ AnonType t := by
  unfold AnonType
  rw [hoist_name]
  refine and_congr_right fun hty => ?_
  rw [hoist_eq]
  cases hp : (numbered tns).pick t with
  | none => cases t; exact Iff.rfl
  | some i =>
    exfalso
    have hsp : t.name.space = schemaNS := by rcases hty with h | h <;> rw [h]
    have := hk hsp (pick_numbered.mp (by rw [hp]; simp))
    rcases hty with h | h
    · rw [h] at this; revert this; decide
    · rw [h] at this; revert this; decide

/-- All elements of XML Schema in the tree have no anonymous types. -/
def NoneLeft (t : Element) : Prop := ∀ p x, t.at? p = some x → x.name.space = schemaNS → ∀ k ∈ x.children, ¬ AnonType k

/-- All elements in the tree that have an anonymous type are of the right kind. -/
def HoldersBelow (t : Element) : Prop :=
  ∀ p x, t.at? p = some x → x.name.space = schemaNS → (∃ k ∈ x.children, AnonType k) →
    x.name.loc ∈ [b!"element", b!"attribute", b!"list", b!"restriction", b!"union"]

theorem noneLeft_kids {t : Element} (hx : t.name.space = schemaNS → ∀ k ∈ t.children, ¬ AnonType k) (hk : ∀ k ∈ t.children, NoneLeft k) : NoneLeft t := by
  intro p x hp
  cases p with
  | nil => cases hp; exact hx
  | cons i p =>
    obtain ⟨k, h1, h2⟩ := at_cons hp
    exact hk k (List.mem_of_getElem? h1) p x h2

theorem noneLeft_withAttrs {t : Element} (f : List Attr → List Attr) (hn : NoneLeft t) : NoneLeft (withAttrs f t) := by
  cases t with
  | mk n a s c ks =>
    refine noneLeft_kids (fun hs => hn [] (.mk n a s c ks) rfl hs) ?_
    intro k hk p x hp
    obtain ⟨i, hi⟩ := List.getElem?_of_mem hk
    exact hn (i :: p) x (by rw [Element.at?]; simp only [Element.children, withAttrs] at hi ⊢; rw [hi]; exact hp)

theorem holders_kid {t k : Element} (hh : HoldersBelow t) (hk : k ∈ t.children) : HoldersBelow k := by
  intro p x hx
  obtain ⟨i, hi⟩ := List.getElem?_of_mem hk
  exact hh (i :: p) x (by rw [Element.at?, hi]; exact hx)

theorem tidy_kid {σ : Type} {P : Plan σ} {t k : Element} (hf : Tidy P t) (hk : k ∈ t.children) : Tidy P k := by
  intro p x hx hp
  obtain ⟨i, hi⟩ := List.getElem?_of_mem hk
  exact hf (i :: p) x (by rw [Element.at?, hi]; exact hx) hp

theorem anon_hoistAll {tns : Str} (ks : List Element) (hk : ∀ k ∈ ks, HoldersBelow k) : ∀ (n : Nat) (i : Nat) (k : Element), (hoistAll (numbered tns) ks n).1[i]? = some k →
    ∃ k0, ks[i]? = some k0 ∧ (AnonType k ↔ AnonType k0) := by
  induction ks with
  | nil => intro n i k hi; simp [hoistAll] at hi
  | cons x ks ih =>
    intro n i k hi
    rw [hoistAll] at hi
    cases i with
    | zero =>
      simp only [List.getElem?_cons_zero, Option.some.injEq] at hi
      subst hi
      exact ⟨x, rfl, anon_hoist (hk x (by simp) [] x rfl)⟩
    | succ i =>
      simp only [List.getElem?_cons_succ] at hi
      exact ih (fun k hk' => hk k (by simp [hk'])) _ i k hi

theorem noneLeft_hoist (tns : Str) (t : Element) : Tidy (numbered tns) t → HoldersBelow t → ∀ n : Nat,
    NoneLeft (hoist (numbered tns) t n).1 ∧ ∀ x ∈ (hoist (numbered tns) t n).2.1, NoneLeft x := by
  induction t using Element.ind with
  | hP nm a s c ks ih =>
    intro htidy hh
    have hall : ∀ (js : List Element), (∀ k ∈ js, k ∈ ks) → ∀ n : Nat, (∀ k ∈ (hoistAll (numbered tns) js n).1, NoneLeft k) ∧ ∀ x ∈ (hoistAll (numbered tns) js n).2.1, NoneLeft x := by
      intro js
      induction js with
      | nil => intro _ n; simp [hoistAll]
      | cons y js ih2 =>
        intro hjs n
        have hy := hjs y (by simp)
        obtain ⟨e1, e2⟩ := ih y hy (tidy_kid htidy hy) (holders_kid hh hy) n
        obtain ⟨e3, e4⟩ := ih2 (fun k hk => hjs k (by simp [hk])) (hoist (numbered tns) y n).2.2
        rw [hoistAll]
        dsimp only
        refine ⟨?_, ?_⟩
        · intro k hk
          rcases List.mem_cons.mp hk with rfl | hk
          · exact e1
          · exact e3 k hk
        · intro x hx
          rcases List.mem_append.mp hx with hx | hx
          · exact e2 x hx
          · exact e4 x hx
    have hkids : ∀ k ∈ ks, HoldersBelow k := fun k hk => holders_kid hh hk
    intro n
    rw [hoist_eq]
    cases hp : (numbered tns).pick (.mk nm a s c ks) with
    | none =>
      dsimp only [hoistBelow]
      obtain ⟨e1, e2⟩ := hall ks (fun _ h => h) n
      refine ⟨noneLeft_kids (fun _ k hk hka => ?_) e1, e2⟩
      obtain ⟨i, hi⟩ := List.getElem?_of_mem hk
      obtain ⟨k0, h1, h2⟩ := anon_hoistAll ks hkids n i k hi
      exact absurd hp (pick_numbered.mpr ⟨k0, List.mem_of_getElem? h1, h2.mp hka⟩)
    | some i =>
      obtain ⟨hone, _⟩ := htidy [] _ rfl (by rw [hp]; simp)
      dsimp only
      by_cases hsp : nm.space = schemaNS
      · rcases hmv : (numbered tns).move n (.mk nm a s c ks) with ⟨n', _ | m⟩
        · exfalso
          have : ((numbered tns).move n (.mk nm a s c ks)).2 = none := by rw [hmv]
          have h2 : ((numbered tns).move n (.mk nm a s c ks)).2 ≠ none := by
            show (if nm.space = schemaNS then _ else _ : Nat × Option Move).2 ≠ none
            rw [if_pos hsp]; simp
          exact h2 this
        · dsimp only
          obtain ⟨e1, e2⟩ := hall ks (fun _ h => h) n'
          have hfind : ks.findIdx? AnonType = some i := by
            unfold Plan.pick numbered at hp
            simp only [if_true] at hp
            exact hp
          obtain ⟨hi, hti, hno⟩ := List.findIdx?_eq_some_iff_getElem.mp hfind
          refine ⟨noneLeft_kids (fun _ k hk hka => ?_) (fun k hk => e1 k (List.mem_of_mem_eraseIdx hk)), ?_⟩
          · simp only [Element.children] at hk hone
            obtain ⟨j, hj⟩ := List.getElem?_of_mem hk
            rw [List.getElem?_eraseIdx] at hj
            have hsplit : ks = ks.take i ++ ks[i] :: ks.drop (i + 1) := by simp
            rw [hsplit, List.filter_append, List.filter_cons, if_pos hti] at hone
            simp only [List.length_append, List.length_cons] at hone
            split at hj
            · obtain ⟨k0, h1, h2⟩ := anon_hoistAll ks hkids n' j k hj
              have h3 : ((ks.take i).filter AnonType).length = 0 := by omega
              rw [List.length_eq_zero_iff, List.filter_eq_nil_iff] at h3
              exact h3 k0 (List.mem_of_getElem? (i := j) (by rw [List.getElem?_take, if_pos (by assumption)]; exact h1)) (decide_eq_true (h2.mp hka))
            · obtain ⟨k0, h1, h2⟩ := anon_hoistAll ks hkids n' (j + 1) k hj
              have h3 : ((ks.drop (i + 1)).filter AnonType).length = 0 := by omega
              rw [List.length_eq_zero_iff, List.filter_eq_nil_iff] at h3
              exact h3 k0 (List.mem_of_getElem? (i := j - i) (by rw [List.getElem?_drop]; rw [← h1]; congr 1; omega)) (decide_eq_true (h2.mp hka))
          · intro x hx
            rcases List.mem_append.mp hx with hx | hx
            · simp only [Element.children, Option.mem_toList, Option.map_eq_some_iff] at hx
              obtain ⟨y, hy, rfl⟩ := hx
              exact noneLeft_withAttrs _ (e1 y (List.mem_of_getElem? hy))
            · exact e2 x hx
      · have hmv : (numbered tns).move n (.mk nm a s c ks) = (n, none) := by
          show (if nm.space = schemaNS then _ else _) = _
          rw [if_neg hsp]
        rw [hmv]
        dsimp only [hoistBelow]
        obtain ⟨e1, e2⟩ := hall ks (fun _ h => h) n
        exact ⟨noneLeft_kids (fun h => absurd h hsp) e1, e2⟩

/-- After numbering, no element of XML Schema below the root has an anonymous type, and all the types that were
moved have names. -/
theorem C32_none_left (tns : Str) (t : Element) (ht : TidyDoc (numbered tns) t) (hk : TypeHolders t) (n : Nat) :
    (∀ k ∈ (hoistRoot (numbered tns) t n).1.children, NoneLeft k) ∧
    ∀ x ∈ (hoistAll (numbered tns) t.children n).2.1, ¬ AnonType x := by
  constructor
  · have hall : ∀ (js : List Element), (∀ k ∈ js, k ∈ t.children) → ∀ n : Nat, (∀ k ∈ (hoistAll (numbered tns) js n).1, NoneLeft k) ∧ ∀ x ∈ (hoistAll (numbered tns) js n).2.1, NoneLeft x := by
      intro js
      induction js with
      | nil => intro _ n; simp [hoistAll]
      | cons y js ih2 =>
        intro hjs n
        have hy := hjs y (by simp)
        have hh : HoldersBelow y := by
          intro p x hx
          obtain ⟨i, hi⟩ := List.getElem?_of_mem hy
          exact hk (i :: p) x (by rw [Element.at?, hi]; exact hx) (by simp)
        obtain ⟨e1, e2⟩ := noneLeft_hoist tns y (ht y hy).2 hh n
        obtain ⟨e3, e4⟩ := ih2 (fun k hk => hjs k (by simp [hk])) (hoist (numbered tns) y n).2.2
        rw [hoistAll]
        dsimp only
        refine ⟨?_, ?_⟩
        · intro k hk
          rcases List.mem_cons.mp hk with rfl | hk
          · exact e1
          · exact e3 k hk
        · intro x hx
          rcases List.mem_append.mp hx with hx | hx
          · exact e2 x hx
          · exact e4 x hx
    obtain ⟨e1, e2⟩ := hall t.children (fun _ h => h) n
    intro k hk
    cases t with
    | mk nm a s c ks =>
      simp only [hoistRoot, Element.children, List.mem_append] at hk
      rcases hk with hk | hk
      · exact e1 k hk
      · exact e2 k hk
  · intro x hx hax
    obtain ⟨m, _, hm⟩ := numbered_all_names tns t.children n
    have : x.attr [] b!"name" ∈ (hoistAll (numbered tns) t.children n).2.1.map (fun x => x.attr [] b!"name") := List.mem_map_of_mem hx
    rw [hm] at this
    obtain ⟨j, _, hj⟩ := List.mem_map.mp this
    rw [hax.2] at hj
    simp at hj

/-! ### Names of elements -/

/-- The names that are taken in a document: those of the types that have a name. -/
def Taken (t : Element) (tns : Str) (name : XName) : Prop :=
  ∃ i p x, t.at? (i :: p) = some x ∧ (x.name = ⟨schemaNS, b!"complexType"⟩ ∨ x.name = ⟨schemaNS, b!"simpleType"⟩) ∧ x.attr [] b!"name" ≠ [] ∧
    name = resolveDefault x.scope (x.attr [] b!"name") tns

theorem isEltOrAttr_iff (e : HElem) : (isElem schemaNS b!"element" e.tag || isElem schemaNS b!"attribute" e.tag) = true ↔
    e.name = ⟨schemaNS, b!"element"⟩ ∨ e.name = ⟨schemaNS, b!"attribute"⟩ := by
  obtain ⟨⟨sp, lo⟩, _, _, _, _⟩ := e
  unfold isElem
  simp only [HElem.tag, Element.name, XName.mk.injEq, Bool.or_eq_true]
  have hne : schemaNS ≠ [] := by decide
  by_cases h1 : lo = b!"element"
  · simp [h1, hne]
  · by_cases h2 : lo = b!"attribute"
    · simp [h2, hne]
    · simp [h1, h2]

theorem reads_attr {h : EHeap} {t : Element} {e : HElem} (hr : Reads h t e) (sp lo : Str) : e.attr sp lo = t.attr sp lo := by
  obtain ⟨_, h2, _⟩ := reads_iff.mp hr
  unfold HElem.attr
  rw [h2]
  cases t; rfl

/-- The element at a position is in memory below the root. -/
theorem below_at {h : EHeap} (p : List Nat) : ∀ {t : Element} {r : HElem} {root : Ptr} {i : Nat} {x : Element}, h.get root = some r → Reads h t r → t.at? (i :: p) = some x →
    ∃ q e, Below h root q ∧ h.get q = some e ∧ Reads h x e := by
  induction p with
  | nil =>
    intro t r root i x hg hr hx
    obtain ⟨k, h1, h2⟩ := at_cons hx
    cases h2
    have hf := (reads_iff.mp hr).2.2.2.2
    have hi : i < (h.cells r.kids).length := by rw [← hf.length_eq]; exact (List.getElem?_eq_some_iff.mp h1).1
    obtain ⟨k', g1, g2⟩ := forall2_mem_left hf (List.getElem?_eq_getElem hi)
    rw [h1] at g1; cases g1
    have hc := List.getElem?_eq_getElem hi
    rw [cells_get] at hc
    split at hc
    · rename_i hlt
      exact ⟨⟨r.kids.arr, i⟩, _, Below.kid hg ⟨rfl, hlt⟩, hc, g2⟩
    · cases hc
  | cons j p ih =>
    intro t r root i x hg hr hx
    obtain ⟨k, h1, h2⟩ := at_cons hx
    have hf := (reads_iff.mp hr).2.2.2.2
    have hi : i < (h.cells r.kids).length := by rw [← hf.length_eq]; exact (List.getElem?_eq_some_iff.mp h1).1
    obtain ⟨k', g1, g2⟩ := forall2_mem_left hf (List.getElem?_eq_getElem hi)
    rw [h1] at g1; cases g1
    have hc := List.getElem?_eq_getElem hi
    rw [cells_get] at hc
    split at hc
    · rename_i hlt
      obtain ⟨q, e, b1, b2, b3⟩ := ih hc g2 h2
      exact ⟨q, e, below_trans (Below.kid hg ⟨rfl, hlt⟩) b1, b2, b3⟩
    · cases hc

theorem mem_used {h : EHeap} {n : Nat} {R : Ptr} {t : Element} {r : HElem} {ps : List Ptr} (tns : Str) (hg : h.get R = some r) (hr : Reads h t r)
    (hps : searchPtr h n (fun e => isType e && hasAttr [] b!"name" e.tag) R = some ps) (name : XName) :
    (name ∈ ps.filterMap fun p => (h.get p).map fun e => resolveDefault e.scope (e.attr [] b!"name") tns) ↔ Taken t tns name := by
  have hkind : ∀ {x : Element} {e : HElem}, Reads h x e → ((isType e && hasAttr [] b!"name" e.tag) = true ↔
      (x.name = ⟨schemaNS, b!"complexType"⟩ ∨ x.name = ⟨schemaNS, b!"simpleType"⟩) ∧ x.attr [] b!"name" ≠ []) := by
    intro x e hx
    rw [Bool.and_eq_true, isType_iff, (reads_iff.mp hx).1]
    refine and_congr_right fun _ => ?_
    rw [← reads_attr hx]
    unfold hasAttr
    rw [decide_eq_true_eq]
    exact Iff.rfl
  rw [List.mem_filterMap]
  constructor
  · rintro ⟨p, hp, hn⟩
    obtain ⟨hb, e, h1, h2⟩ := (searchPtr_mem hps p).mp hp
    rw [h1, Option.map_some, Option.some.injEq] at hn
    obtain ⟨i, path, x, h3, h4⟩ := reads_below hb hg hr h1
    obtain ⟨h5, h6⟩ := (hkind h4).mp h2
    exact ⟨i, path, x, h3, h5, h6, by rw [← hn, reads_attr h4, (reads_iff.mp h4).2.2.1]⟩
  · rintro ⟨i, path, x, h3, h5, h6, hn⟩
    obtain ⟨q, e, h1, h2, h4⟩ := below_at path hg hr h3
    refine ⟨q, (searchPtr_mem hps q).mpr ⟨h1, e, h2, (hkind h4).mpr ⟨h5, h6⟩⟩, ?_⟩
    rw [h2, Option.map_some, hn, reads_attr h4, (reads_iff.mp h4).2.2.1]

/-- C32 for one document with the names of elements: a type gets the name of its element or attribute if there is
no type with this name yet. Missing: as in `C32_numbered_partial`. -/
theorem C32_elements_partial (grow : Nat → Nat → Nat) (h : EHeap) (n : Nat) (R : Ptr) (t : Element) (hh : HoldsApart h R t)
    (ht : TidyDoc (byElement (t.attr [] b!"targetNamespace")) t) (hn : depth t ≤ n) :
    ∃ h' used, copyEltNamesToAnonTypes grow n h R = some h' ∧ (∀ name, name ∈ used ↔ Taken t (t.attr [] b!"targetNamespace") name) ∧
      HoldsApart h' R (hoistRoot (byElement (t.attr [] b!"targetNamespace")) t used).1 := by
  obtain ⟨r, fp, hg, ho, hnd, hR⟩ := hh
  have hr := owns_reads t ho
  have htns : r.attr [] b!"targetNamespace" = t.attr [] b!"targetNamespace" := reads_attr hr _ _
  generalize htt : t.attr [] b!"targetNamespace" = tns at *
  obtain ⟨named, h1⟩ := searchPtr_reads (fun e => isType e && hasAttr [] b!"name" e.tag) ⟨r, hg, hr⟩ hn
  obtain ⟨ps, h2⟩ := searchPtr_reads (fun e => (isElem schemaNS b!"element" e.tag || isElem schemaNS b!"attribute" e.tag) &&
    hasAttr [] b!"name" e.tag && hasAnonymousType h e) ⟨r, hg, hr⟩ hn
  have hpred : predH (byElement tns) h = fun e => (isElem schemaNS b!"element" e.tag || isElem schemaNS b!"attribute" e.tag) &&
      hasAttr [] b!"name" e.tag && hasAnonymousType h e := by
    funext e
    unfold predH byElement
    dsimp only
    congr 1
    rw [Bool.eq_iff_iff, decide_eq_true_eq, Bool.and_eq_true, isEltOrAttr_iff]
    refine and_congr_right fun _ => ?_
    unfold hasAttr
    rw [decide_eq_true_eq]
  have h2' := h2
  rw [← searchPtr_congr hpred] at h2'
  obtain ⟨h', r', fp', a1, a2, a3, a4, a5, _⟩ := run_document (copyPass grow R tns)
    (fun k hk => ⟨(ht k hk).1, fun p x hx hp => ⟨((ht k hk).2 p x hx hp).1, ((ht k hk).2 p x hx hp).2, trivial⟩⟩)
    (st := named.filterMap fun p => (h.get p).map fun e => resolveDefault e.scope (e.attr [] b!"name") tns) hg ho hnd hR h2'
  refine ⟨h', _, ?_, fun name => mem_used tns hg hr h1 name, r', fp', a2, a3, a4, a5⟩
  unfold copyEltNamesToAnonTypes
  rw [hg, Option.bind_some]
  dsimp only
  rw [htns, h1, Option.bind_some, h2, Option.map_some]
  have a1' : some (ps.foldl (copyNameAt grow R tns) (h, named.filterMap fun p => (h.get p).map fun e => resolveDefault e.scope (e.attr [] b!"name") tns)) = _ := a1
  rw [Option.some.injEq] at a1'
  rw [a1']

/-- The moved types have these names, in order, for a meaning of prefixes. -/
def NamedLike (tns : Str) (xs : List Element) (names : List XName) : Prop :=
  List.Forall₂ (fun x name => ∃ scope, resolveDefault scope (x.attr [] b!"name") tns = name) xs names

theorem byElement_names (tns : Str) (t : Element) : ∀ used : List XName, ∃ names, NamedLike tns (hoist (byElement tns) t used).2.1 names ∧ names.Nodup ∧
    (∀ x ∈ names, x ∉ used) ∧ ∀ x, x ∈ (hoist (byElement tns) t used).2.2 ↔ x ∈ names ∨ x ∈ used := by
  induction t using Element.ind with
  | hP n a s c ks ih =>
    have hall : ∀ used : List XName, ∃ names, NamedLike tns (hoistAll (byElement tns) ks used).2.1 names ∧ names.Nodup ∧
        (∀ x ∈ names, x ∉ used) ∧ ∀ x, x ∈ (hoistAll (byElement tns) ks used).2.2 ↔ x ∈ names ∨ x ∈ used := by
      clear n a s c
      induction ks with
      | nil => intro used; exact ⟨[], .nil, by simp, by simp, by simp [hoistAll]⟩
      | cons x ks ih2 =>
        intro used
        obtain ⟨n1, e1, e2, e3, e4⟩ := ih x (by simp) used
        obtain ⟨n2, f1, f2, f3, f4⟩ := ih2 (fun y hy => ih y (by simp [hy])) (hoist (byElement tns) x used).2.2
        rw [hoistAll]
        refine ⟨n1 ++ n2, List.rel_append e1 f1, List.nodup_append.mpr ⟨e2, f2, ?_⟩, ?_, ?_⟩
        · intro y hy z hz hyz
          subst hyz
          exact f3 y hz ((e4 y).mpr (Or.inl hy))
        · intro y hy hu
          rcases List.mem_append.mp hy with hy | hy
          · exact e3 y hy hu
          · exact f3 y hy ((e4 y).mpr (Or.inr hu))
        · intro y
          dsimp only
          rw [f4, e4, List.mem_append]
          constructor
          · rintro (h | h | h)
            · exact Or.inl (Or.inr h)
            · exact Or.inl (Or.inl h)
            · exact Or.inr h
          · rintro ((h | h) | h)
            · exact Or.inr (Or.inl h)
            · exact Or.inl h
            · exact Or.inr (Or.inr h)
    intro used
    rw [hoist_eq]
    cases hp : (byElement tns).pick (.mk n a s c ks) with
    | none => exact hall used
    | some i =>
      dsimp only
      have hi : i < ks.length := by
        unfold Plan.pick at hp
        split at hp
        · exact (List.findIdx?_eq_some_iff_getElem.mp hp).1
        · cases hp
      by_cases hu : resolveDefault s (attrGet [] b!"name" a) tns ∈ used
      · have hmv : (byElement tns).move used (.mk n a s c ks) = (used, none) := if_pos hu
        rw [hmv]
        exact hall used
      · have hmv : (byElement tns).move used (.mk n a s c ks) = (resolveDefault s (attrGet [] b!"name" a) tns :: used, some
            { attr := b!"type"
              value := prefixOf s (resolveDefault s (attrGet [] b!"name" a) tns)
              rename := attrSet [] b!"name" (attrGet [] b!"name" a) }) := if_neg hu
        rw [hmv]
        dsimp only
        obtain ⟨n1, e1, e2, e3, e4⟩ := hall (resolveDefault s (attrGet [] b!"name" a) tns :: used)
        simp only [Element.children]
        rw [List.getElem?_eq_getElem (by rw [hoistAll_length]; exact hi)]
        simp only [Option.map_some, Option.toList_some, List.singleton_append]
        refine ⟨resolveDefault s (attrGet [] b!"name" a) tns :: n1, .cons ⟨s, ?_⟩ e1, List.nodup_cons.mpr ⟨fun hm => e3 _ hm (by simp), e2⟩, ?_, ?_⟩
        · rw [withAttrs_attr, attr_attrSet_same]
        · intro y hy
          rcases List.mem_cons.mp hy with rfl | hy
          · exact hu
          · exact fun hm => e3 y hy (by simp [hm])
        · intro y
          rw [e4, List.mem_cons, List.mem_cons]
          constructor
          · rintro (h | h | h)
            · exact Or.inl (Or.inr h)
            · exact Or.inl (Or.inl h)
            · exact Or.inr h
          · rintro ((h | h) | h)
            · exact Or.inr (Or.inl h)
            · exact Or.inl h
            · exact Or.inr (Or.inr h)

/-- The names that are taken from elements are pairwise different, and none of them was in use. -/
theorem C32_elements_distinct (tns : Str) (ks : List Element) : ∀ used : List XName, ∃ names, NamedLike tns (hoistAll (byElement tns) ks used).2.1 names ∧
    names.Nodup ∧ ∀ x ∈ names, x ∉ used := by
  suffices h : ∀ used : List XName, ∃ names, NamedLike tns (hoistAll (byElement tns) ks used).2.1 names ∧ names.Nodup ∧
      (∀ x ∈ names, x ∉ used) ∧ ∀ x, x ∈ (hoistAll (byElement tns) ks used).2.2 ↔ x ∈ names ∨ x ∈ used by
    intro used
    obtain ⟨names, h1, h2, h3, _⟩ := h used
    exact ⟨names, h1, h2, h3⟩
  induction ks with
  | nil => intro used; exact ⟨[], .nil, by simp, by simp, by simp [hoistAll]⟩
  | cons x ks ih2 =>
    intro used
    obtain ⟨n1, e1, e2, e3, e4⟩ := byElement_names tns x used
    obtain ⟨n2, f1, f2, f3, f4⟩ := ih2 (hoist (byElement tns) x used).2.2
    rw [hoistAll]
    refine ⟨n1 ++ n2, List.rel_append e1 f1, List.nodup_append.mpr ⟨e2, f2, ?_⟩, ?_, ?_⟩
    · intro y hy z hz hyz
      subst hyz
      exact f3 y hz ((e4 y).mpr (Or.inl hy))
    · intro y hy hu
      rcases List.mem_append.mp hy with hy | hy
      · exact e3 y hy hu
      · exact f3 y hy ((e4 y).mpr (Or.inr hu))
    · intro y
      dsimp only
      rw [f4, e4, List.mem_append]
      constructor
      · rintro (h | h | h)
        · exact Or.inl (Or.inr h)
        · exact Or.inl (Or.inl h)
        · exact Or.inr h
      · rintro ((h | h) | h)
        · exact Or.inr (Or.inl h)
        · exact Or.inl h
        · exact Or.inr (Or.inr h)

/-! ### What is false -/

/-- A type without a name, in memory. -/
def Nameless (e : HElem) : Prop := (e.name = ⟨schemaNS, b!"complexType"⟩ ∨ e.name = ⟨schemaNS, b!"simpleType"⟩) ∧ e.attr [] b!"name" = []

/-- Full statement: after both passes over a document, no element of XML Schema below the root has an anonymous
type. -/
def C32_left_full : Prop :=
  ∀ (grow : Nat → Nat → Nat) (t : Element) (n : Nat), TypeHolders t → depth t ≤ n →
    ∃ h1 h' k', copyEltNamesToAnonTypes grow n (loadDoc grow t []).1 (loadDoc grow t []).2 = some h1 ∧
      nameAnonymousTypes grow n (loadDoc grow t []).2 (h1, 0) = some (h', k') ∧
      ∀ p e q d, Below h' (loadDoc grow t []).2 p → h'.get p = some e → e.name.space = schemaNS → KidOf e q → h'.get q = some d → ¬ Nameless d

/-- Enough to check for `TypeHolders`. -/
def holders : Element → Bool
  | .mk n _ _ _ ks => go ks && (!decide (n.space = schemaNS) || !ks.any (fun k => decide (AnonType k)) ||
      decide (n.loc ∈ [b!"element", b!"attribute", b!"list", b!"restriction", b!"union"]))
where go : List Element → Bool
  | [] => true
  | k :: ks => holders k && go ks

theorem holders_go (ks : List Element) : holders.go ks = true → ∀ k ∈ ks, holders k = true := by
  induction ks with
  | nil => intro _ k hk; cases hk
  | cons y ks ih =>
    intro hg k hk
    rw [holders.go, Bool.and_eq_true] at hg
    rcases List.mem_cons.mp hk with rfl | hk
    · exact hg.1
    · exact ih hg.2 k hk

theorem holders_of (t : Element) : holders t = true → HoldersBelow t := by
  induction t using Element.ind with
  | hP n a s c ks ih =>
    intro hb p x hp hsp hex
    rw [holders, Bool.and_eq_true] at hb
    cases p with
    | nil =>
      simp only [Element.at?, Option.some.injEq] at hp
      subst hp
      have := hb.2
      rw [Bool.or_eq_true, Bool.or_eq_true] at this
      rcases this with (h1 | h1) | h1
      · simp only [Bool.not_eq_true', decide_eq_false_iff_not] at h1; exact absurd hsp h1
      · obtain ⟨k, hk, hka⟩ := hex
        simp only [Bool.not_eq_true', List.any_eq_false, decide_eq_true_eq] at h1
        exact absurd hka (h1 k hk)
      · exact of_decide_eq_true h1
    | cons i p =>
      obtain ⟨k1, h1, h2⟩ := at_cons hp
      exact ih k1 (List.mem_of_getElem? h1) (holders_go ks hb.1 k1 (List.mem_of_getElem? h1)) p x h2 hsp hex

theorem typeHolders_of {t : Element} (h : ∀ k ∈ t.children, holders k = true) : TypeHolders t := by
  intro p x hp hne hsp hex
  cases p with
  | nil => exact absurd rfl hne
  | cons i p =>
    obtain ⟨k, h1, h2⟩ := at_cons hp
    exact holders_of k (h k (List.mem_of_getElem? h1)) p x h2 hsp hex

/-- A global element with an anonymous type. -/
def anonEl (s : Str) : Element := xs b!"element" [(b!"name", s)] [xs b!"complexType" [] []]

/-- Four of them. -/
def manyDoc : Element := xs b!"schema" [(b!"targetNamespace", b!"urn:t")] [anonEl b!"a", anonEl b!"b", anonEl b!"c", anonEl b!"d"]

/-- A union of two anonymous types. -/
def unionDoc : Element :=
  xs b!"schema" [(b!"targetNamespace", b!"urn:t")] [xs b!"simpleType" [(b!"name", b!"u")] [xs b!"union" [] [xs b!"simpleType" [] [], xs b!"simpleType" [] []]]]

/-- What is left: the pointers to the elements with an anonymous type after the two passes. -/
def leftOver (n : Nat) (t : Element) : Option (List Ptr) :=
  (copyEltNamesToAnonTypes doubling n (loadDoc doubling t []).1 (loadDoc doubling t []).2).bind fun h1 =>
    (nameAnonymousTypes doubling n (loadDoc doubling t []).2 (h1, 0)).bind fun st =>
      searchPtr st.1 n (fun e => decide (e.name.space = schemaNS) && hasAnonymousType st.1 e) (loadDoc doubling t []).2

theorem left_refuted {t : Element} {n : Nat} (ht : TypeHolders t) (hn : depth t ≤ n) {p : Ptr} {ps : List Ptr} (hl : leftOver n t = some (p :: ps)) : ¬ C32_left_full := by
  intro hfull
  obtain ⟨h1, h', k', a1, a2, a3⟩ := hfull doubling t n ht hn
  unfold leftOver at hl
  rw [a1, Option.bind_some, a2, Option.bind_some] at hl
  obtain ⟨hb, e, h2, h3⟩ := (searchPtr_mem hl p).mp (by simp)
  rw [Bool.and_eq_true, decide_eq_true_eq] at h3
  unfold hasAnonymousType at h3
  obtain ⟨d, hd, hda⟩ := List.any_eq_true.mp h3.2
  obtain ⟨j, hj, hjd⟩ := mem_cells.mp hd
  refine a3 p e ⟨e.kids.arr, j⟩ d hb h2 h3.1 ⟨rfl, hj⟩ hjd ?_
  unfold isAnonymousType at hda
  rw [Bool.and_eq_true, isType_iff] at hda
  refine ⟨hda.1, ?_⟩
  have := hda.2
  unfold hasAttrValue at this
  exact of_decide_eq_true this

/-- False of the code: when the children of the root are moved to a new array, the pointers to the global elements
are still to the old one, so the changes to them are lost. -/
theorem C32_stale_refuted : ¬ C32_left_full := by
  have hl : (leftOver 9 manyDoc).map (·.isEmpty) = some false := by decide +kernel
  cases h : leftOver 9 manyDoc with
  | none => rw [h] at hl; cases hl
  | some ps => cases ps with
    | nil => rw [h] at hl; cases hl
    | cons p ps => exact left_refuted (typeHolders_of (by decide +kernel)) (by decide +kernel) h

/-- False of the code: the member after one that was moved is skipped. -/
theorem C32_union_refuted : ¬ C32_left_full := by
  have hl : (leftOver 9 unionDoc).map (·.isEmpty) = some false := by decide +kernel
  cases h : leftOver 9 unionDoc with
  | none => rw [h] at hl; cases hl
  | some ps => cases ps with
    | nil => rw [h] at hl; cases hl
    | cons p ps => exact left_refuted (typeHolders_of (by decide +kernel)) (by decide +kernel) h

/-- The children of the root that are types have different names. -/
def UniqueTypes (h : EHeap) (R : Ptr) : Prop :=
  ∀ r p q e d, h.get R = some r → KidOf r p → KidOf r q → h.get p = some e → h.get q = some d →
    (e.name = ⟨schemaNS, b!"complexType"⟩ ∨ e.name = ⟨schemaNS, b!"simpleType"⟩) →
    (d.name = ⟨schemaNS, b!"complexType"⟩ ∨ d.name = ⟨schemaNS, b!"simpleType"⟩) → e.attr [] b!"name" = d.attr [] b!"name" → p = q

/-- Full statement: if the types of a document have different names, so they have after numbering. -/
def C32_unique_full : Prop :=
  ∀ (grow : Nat → Nat → Nat) (h : EHeap) (n : Nat) (R : Ptr) (t : Element) (k : Nat), HoldsApart h R t →
    TidyDoc (numbered (t.attr [] b!"targetNamespace")) t → TypeHolders t → depth t ≤ n → UniqueTypes h R →
    ∃ h' k', nameAnonymousTypes grow n R (h, k) = some (h', k') ∧ UniqueTypes h' R

/-- A type with a name like those that are generated. -/
def takenDoc : Element :=
  xs b!"schema" [(b!"targetNamespace", b!"urn:t")]
    [xs b!"simpleType" [(b!"name", b!"_anon1")] [], xs b!"simpleType" [(b!"name", b!"u")] [xs b!"list" [] [xs b!"simpleType" [] []]]]

/-- Enough to check for `Tidy`. -/
def tidyB {σ : Type} (P : Plan σ) : Element → Bool
  | .mk n a s c ks => go ks && ((P.pick (.mk n a s c ks)).isNone || (decide ((ks.filter AnonType).length = 1) && ks.all fun k => (P.pick k).isNone))
where go : List Element → Bool
  | [] => true
  | k :: ks => tidyB P k && go ks

theorem tidyB_go {σ : Type} (P : Plan σ) (ks : List Element) : tidyB.go P ks = true → ∀ k ∈ ks, tidyB P k = true := by
  induction ks with
  | nil => intro _ k hk; cases hk
  | cons y ks ih =>
    intro hg k hk
    rw [tidyB.go, Bool.and_eq_true] at hg
    rcases List.mem_cons.mp hk with rfl | hk
    · exact hg.1
    · exact ih hg.2 k hk

theorem tidyB_of {σ : Type} (P : Plan σ) (t : Element) : tidyB P t = true → Tidy P t := by
  induction t using Element.ind with
  | hP n a s c ks ih =>
    intro hb p x hp hx
    rw [tidyB, Bool.and_eq_true] at hb
    cases p with
    | nil =>
      simp only [Element.at?, Option.some.injEq] at hp
      subst hp
      have := hb.2
      rw [Bool.or_eq_true, Bool.and_eq_true] at this
      rcases this with h1 | h1
      · exact absurd (Option.isNone_iff_eq_none.mp h1) hx
      · exact ⟨of_decide_eq_true h1.1, fun k hk => Option.isNone_iff_eq_none.mp (List.all_eq_true.mp h1.2 k hk)⟩
    | cons i p =>
      obtain ⟨k1, h1, h2⟩ := at_cons hp
      exact ih k1 (List.mem_of_getElem? h1) (tidyB_go P ks hb.1 k1 (List.mem_of_getElem? h1)) p x h2 hx

theorem tidyDoc_of {σ : Type} {P : Plan σ} {t : Element} (h : (t.children.all fun k => (P.pick k).isNone && tidyB P k) = true) : TidyDoc P t := by
  intro k hk
  have := List.all_eq_true.mp h k hk
  rw [Bool.and_eq_true] at this
  exact ⟨Option.isNone_iff_eq_none.mp this.1, tidyB_of P k this.2⟩

theorem uniqueTypes_of {h : EHeap} {R : Ptr} (hn : ∀ r, h.get R = some r → ((h.cells r.kids).map fun e => e.attr [] b!"name").Nodup) : UniqueTypes h R := by
  intro r p q e d hr hp hq he hd _ _ heq
  have h1 : ((h.cells r.kids).map fun e => e.attr [] b!"name")[p.idx]? = some (e.attr [] b!"name") := by
    rw [List.getElem?_map, cells_get, if_pos hp.2, ← hp.1, he]; rfl
  have h2 : ((h.cells r.kids).map fun e => e.attr [] b!"name")[q.idx]? = some (e.attr [] b!"name") := by
    rw [List.getElem?_map, cells_get, if_pos hq.2, ← hq.1, hd, heq]; rfl
  have h3 := (List.nodup_iff_getElem?_ne_getElem?.mp (hn r hr))
  have hlt := (List.getElem?_eq_some_iff.mp h1).1
  have hlt2 := (List.getElem?_eq_some_iff.mp h2).1
  have hidx : p.idx = q.idx := by
    rcases Nat.lt_trichotomy p.idx q.idx with h | h | h
    · exact absurd (h1.trans h2.symm) (h3 _ _ h hlt2)
    · exact h
    · exact absurd (h2.trans h1.symm) (h3 _ _ h hlt)
  obtain ⟨pa, pi⟩ := p
  obtain ⟨qa, qi⟩ := q
  obtain ⟨hp, _⟩ := hp
  obtain ⟨hq, _⟩ := hq
  simp only at hp hq hidx
  rw [hp, hq, hidx]

/-- False of the code: a type that the author of the schema has named like this is not taken into account. -/
theorem C32_taken_refuted : ¬ C32_unique_full := by
  intro hfull
  have hn : ((loadDoc doubling takenDoc []).1.get (loadDoc doubling takenDoc []).2).map (fun r => decide (((loadDoc doubling takenDoc []).1.cells r.kids).map fun e => e.attr [] b!"name").Nodup) = some true := by
    decide +kernel
  obtain ⟨h', k', a1, a2⟩ := hfull doubling _ 9 _ takenDoc 0 (loadDoc_apart doubling takenDoc []) (tidyDoc_of (by decide +kernel)) (typeHolders_of (by decide +kernel))
    (by decide +kernel) (uniqueTypes_of fun r hr => by rw [hr, Option.map_some, Option.some.injEq] at hn; exact of_decide_eq_true hn)
  have h3 : ((nameAnonymousTypes doubling 9 (loadDoc doubling takenDoc []).2 ((loadDoc doubling takenDoc []).1, 0)).bind fun st =>
      (st.1.get (loadDoc doubling takenDoc []).2).map fun r => ((st.1.cells r.kids).map fun e => (decide (isType e), e.attr [] b!"name")) ) =
      some [(true, b!"_anon1"), (true, b!"u"), (true, b!"_anon1")] := by decide +kernel
  rw [a1, Option.bind_some] at h3
  obtain ⟨r, hr, hrc⟩ := Option.map_eq_some_iff.mp h3
  have hat : ∀ (i : Nat) (b : Bool) (nm : Str), ([(true, b!"_anon1"), (true, b!"u"), (true, b!"_anon1")] : List (Bool × Str))[i]? = some (b, nm) →
      ∃ e, KidOf r ⟨r.kids.arr, i⟩ ∧ h'.get ⟨r.kids.arr, i⟩ = some e ∧ decide (isType e) = b ∧ e.attr [] b!"name" = nm := by
    intro i b nm hi
    rw [← hrc, List.getElem?_map, cells_get] at hi
    split at hi
    · rename_i hlt
      obtain ⟨e, h1, h2⟩ := Option.map_eq_some_iff.mp hi
      exact ⟨e, ⟨rfl, hlt⟩, h1, congrArg Prod.fst h2, congrArg Prod.snd h2⟩
    · cases hi
  obtain ⟨e, e1, e2, e3, e4⟩ := hat 0 true b!"_anon1" rfl
  obtain ⟨d, d1, d2, d3, d4⟩ := hat 2 true b!"_anon1" rfl
  have := a2 r _ _ e d hr e1 d1 e2 d2 ((isType_iff e).mp (of_decide_eq_true e3)) ((isType_iff d).mp (of_decide_eq_true d3)) (e4.trans d4.symm)
  cases this

/-- Full statement: if every element of a document has a type, perhaps an anonymous one, then afterwards it refers
to one. -/
def C32_refers_full : Prop :=
  ∀ (grow : Nat → Nat → Nat) (h : EHeap) (n : Nat) (R : Ptr) (t : Element) (k : Nat), HoldsApart h R t →
    TidyDoc (numbered (t.attr [] b!"targetNamespace")) t → TypeHolders t → depth t ≤ n →
    (∀ i p x, t.at? (i :: p) = some x → x.name = ⟨schemaNS, b!"element"⟩ → x.attr [] b!"type" ≠ [] ∨ ∃ c ∈ x.children, AnonType c) →
    ∃ h' k', nameAnonymousTypes grow n R (h, k) = some (h', k') ∧
      ∀ p e, Below h' R p → h'.get p = some e → e.name = ⟨schemaNS, b!"element"⟩ → e.attr [] b!"type" ≠ []

/-- A document with a target namespace for which there is no prefix. -/
def noPrefixDoc : Element :=
  .mk ⟨schemaNS, b!"schema"⟩ [⟨⟨[], b!"targetNamespace"⟩, b!"urn:t"⟩] [⟨schemaNS, b!"xs"⟩] []
    [.mk ⟨schemaNS, b!"complexType"⟩ [⟨⟨[], b!"name"⟩, b!"A"⟩] [⟨schemaNS, b!"xs"⟩] [] [.mk ⟨schemaNS, b!"sequence"⟩ [] [⟨schemaNS, b!"xs"⟩] []
      [.mk ⟨schemaNS, b!"element"⟩ [⟨⟨[], b!"name"⟩, b!"x"⟩] [⟨schemaNS, b!"xs"⟩] [] [.mk ⟨schemaNS, b!"simpleType"⟩ [] [⟨schemaNS, b!"xs"⟩] [] []]]]]

/-- Enough to check that all elements have a type. -/
def typedB : Element → Bool
  | .mk n a _ _ ks => go ks && (!decide (n = ⟨schemaNS, b!"element"⟩) || decide (attrGet [] b!"type" a ≠ []) || ks.any fun k => decide (AnonType k))
where go : List Element → Bool
  | [] => true
  | k :: ks => typedB k && go ks

theorem typedB_of (t : Element) : typedB t = true → ∀ p x, t.at? p = some x → x.name = ⟨schemaNS, b!"element"⟩ →
    x.attr [] b!"type" ≠ [] ∨ ∃ c ∈ x.children, AnonType c := by
  induction t using Element.ind with
  | hP n a s c ks ih =>
    intro hb p x hp hx
    rw [typedB, Bool.and_eq_true] at hb
    cases p with
    | nil =>
      simp only [Element.at?, Option.some.injEq] at hp
      subst hp
      have := hb.2
      rw [Bool.or_eq_true, Bool.or_eq_true] at this
      rcases this with (h1 | h1) | h1
      · simp only [Bool.not_eq_true', decide_eq_false_iff_not] at h1; exact absurd hx h1
      · exact Or.inl (of_decide_eq_true h1)
      · obtain ⟨k, h2, h3⟩ := List.any_eq_true.mp h1
        exact Or.inr ⟨k, h2, of_decide_eq_true h3⟩
    | cons i p =>
      obtain ⟨k1, h1, h2⟩ := at_cons hp
      have hgo : ∀ ks : List Element, typedB.go ks = true → ∀ k ∈ ks, typedB k = true := by
        intro ks
        induction ks with
        | nil => intro _ k hk; cases hk
        | cons y ks ih2 =>
          intro hg k hk
          rw [typedB.go, Bool.and_eq_true] at hg
          rcases List.mem_cons.mp hk with rfl | hk
          · exact hg.1
          · exact ih2 hg.2 k hk
      exact ih k1 (List.mem_of_getElem? h1) (hgo ks hb.1 k1 (List.mem_of_getElem? h1)) p x h2 hx

/-- False of the code: without a prefix for the target namespace, the element gets an empty reference. -/
theorem C32_refers_refuted : ¬ C32_refers_full := by
  intro hfull
  obtain ⟨h', k', a1, a2⟩ := hfull doubling _ 9 _ noPrefixDoc 0 (loadDoc_apart doubling noPrefixDoc []) (tidyDoc_of (by decide +kernel)) (typeHolders_of (by decide +kernel))
    (by decide +kernel) (fun i p x hp hx => typedB_of noPrefixDoc (by decide +kernel) (i :: p) x hp hx)
  have h3 : ((nameAnonymousTypes doubling 9 (loadDoc doubling noPrefixDoc []).2 ((loadDoc doubling noPrefixDoc []).1, 0)).bind fun st =>
      (searchPtr st.1 9 (fun e => decide (e.name = ⟨schemaNS, b!"element"⟩) && decide (e.attr [] b!"type" = [])) (loadDoc doubling noPrefixDoc []).2).map (·.isEmpty)) = some false := by
    decide +kernel
  rw [a1, Option.bind_some] at h3
  obtain ⟨ps, h4, h5⟩ := Option.map_eq_some_iff.mp h3
  cases ps with
  | nil => cases h5
  | cons p ps =>
    obtain ⟨hb, e, h6, h7⟩ := (searchPtr_mem h4 p).mp (by simp)
    rw [Bool.and_eq_true, decide_eq_true_eq, decide_eq_true_eq] at h7
    exact a2 p e hb h6 h7.1 h7.2

/-- The reference that an element gets resolves to the name that was given, if there is a prefix for the target
namespace and no prefix is declared twice. Missing: other scopes, see `C32_refers_refuted`. -/
theorem C32_refers_partial (tns : Str) (k : Nat) (x : Element) (st : Nat) (m : Move) (hm : (numbered tns).move k x = (st, some m)) (hu : x.name.loc ≠ b!"union")
    (hns : tns ≠ [] ∧ tns ≠ xmlLangURI ∧ tns ≠ xmlNamespaceURI)
    (hsc : ∀ d ∈ x.scope, (58 : UInt8) ∉ d.loc ∧ d.loc ≠ b!"xml" ∧ d.loc ≠ b!"xmlns")
    (huniq : (x.scope.map (·.loc)).Nodup) (hdecl : ∃ d ∈ x.scope, d.space = tns) :
    resolve x.scope m.value = ⟨tns, attrGet [] b!"name" (m.rename [])⟩ := by
  unfold numbered at hm
  dsimp only at hm
  split at hm
  · rw [Prod.mk.injEq, Option.some.injEq] at hm
    obtain ⟨rfl, rfl⟩ := hm
    dsimp only
    rw [List.nil_append, C06_prefix_inverse_unique_partial x.scope tns _ hns ⟨by simp, ?_⟩ hsc huniq hdecl, attr_attrSet_other _ _ _ _ _ _ (by decide), attr_attrSet_same]
    rw [List.mem_append, not_or]
    refine ⟨by decide, fun h58 => ?_⟩
    have := natStr_digits (k + 1) 58 h58
    unfold IsDigit at this
    revert this
    decide
  · cases hm

/-! ### An example -/

/-- A document to which the theorems apply, with a local element, a list, a restriction and an attribute. -/
def tidyEx : Element :=
  xs b!"schema" [(b!"targetNamespace", b!"urn:t")]
    [xs b!"complexType" [(b!"name", b!"A")] [xs b!"sequence" [] [xs b!"element" [(b!"name", b!"x")] [xs b!"complexType" []
        [xs b!"attribute" [(b!"name", b!"y")] [xs b!"simpleType" [] [xs b!"restriction" [] [xs b!"simpleType" [] []]]]]]]],
      xs b!"simpleType" [(b!"name", b!"B")] [xs b!"list" [] [xs b!"simpleType" [] []]]]

example : ∃ h' k', nameAnonymousTypes doubling 11 (loadDoc doubling tidyEx []).2 ((loadDoc doubling tidyEx []).1, 0) = some (h', k') ∧
    HoldsApart h' (loadDoc doubling tidyEx []).2 (hoistRoot (numbered b!"urn:t") tidyEx 0).1 := by
  obtain ⟨h', h1, h2⟩ := C32_numbered_partial doubling (loadDoc doubling tidyEx []).1 11 (loadDoc doubling tidyEx []).2 tidyEx 0 (loadDoc_apart doubling tidyEx [])
    (tidyDoc_of (by decide +kernel)) (typeHolders_of (by decide +kernel)) (by decide +kernel)
  exact ⟨h', _, h1, h2⟩

example : ∃ h' used, copyEltNamesToAnonTypes doubling 11 (loadDoc doubling tidyEx []).1 (loadDoc doubling tidyEx []).2 = some h' ∧
    (∀ name, name ∈ used ↔ Taken tidyEx b!"urn:t" name) ∧ HoldsApart h' (loadDoc doubling tidyEx []).2 (hoistRoot (byElement b!"urn:t") tidyEx used).1 :=
  C32_elements_partial doubling (loadDoc doubling tidyEx []).1 11 (loadDoc doubling tidyEx []).2 tidyEx (loadDoc_apart doubling tidyEx [])
    (tidyDoc_of (by decide +kernel)) (by decide +kernel)

example : (hoistRoot (numbered b!"urn:t") tidyEx 0).1.children.map (fun e => (e.name.loc, e.attr [] b!"name")) =
    [(b!"complexType", b!"A"), (b!"simpleType", b!"B"), (b!"complexType", b!"_anon1"), (b!"simpleType", b!"_anon2"), (b!"simpleType", b!"_anon3"), (b!"simpleType", b!"_anon4")] := by
  decide +kernel

example : ((hoistRoot (numbered b!"urn:t") tidyEx 0).1.at? [0, 0, 0]).map (fun e => (e.name.loc, e.attrs.map fun a => (a.name.loc, a.value), e.children.length)) =
    some (b!"element", [(b!"name", b!"x"), (b!"type", b!"t:_anon1")], 0) := by
  decide +kernel

example : (hoistRoot (byElement b!"urn:t") tidyEx [⟨b!"urn:t", b!"A"⟩, ⟨b!"urn:t", b!"B"⟩]).1.children.map (fun e => (e.name.loc, e.attr [] b!"name")) =
    [(b!"complexType", b!"A"), (b!"simpleType", b!"B"), (b!"complexType", b!"x"), (b!"simpleType", b!"y")] := by
  decide +kernel

end GoXml.Xsd
