import Verif.Model.XsdPipeline
import Verif.Spec.XsdCanonical
import Verif.Proofs.XsdExpand
import Verif.Proofs.XsdHeapCycle
import Verif.Proofs.XsdHeapRef
import Verif.Proofs.XsdContent
set_option autoImplicit false

/-! Lemmas: `Normalize` leaves schemas in canonical form alone. -/

namespace GoXml.Xsd
open Wsdl

theorem attr_of_reads {h : EHeap} {t : Element} {e : HElem} (hr : Reads h t e) (loc : Str) : e.attr [] loc = attrNamed t loc := by
  obtain ⟨_, r2, _⟩ := reads_iff.mp hr
  rw [← Wsdl.attr_eq]
  unfold HElem.attr Element.attr
  rw [r2]

theorem name_of_reads {h : EHeap} {t : Element} {e : HElem} (hr : Reads h t e) : e.name = t.name := by
  obtain ⟨r1, _⟩ := reads_iff.mp hr
  exact r1

theorem isXs_of_reads {h : EHeap} {t : Element} {e : HElem} (hr : Reads h t e) (loc : Str) : isElem schemaNS loc e.tag = true ↔ IsXs loc t := by
  rw [isXs_iff]
  unfold IsXs
  rw [← name_of_reads hr]
  rfl

theorem hasAttrValue_of_reads {h : EHeap} {t : Element} {e : HElem} (hr : Reads h t e) (loc v : Str) :
    hasAttrValue [] loc v e.tag = true ↔ attrNamed t loc = v := by
  rw [← attr_of_reads hr]
  exact decide_eq_true_iff

/-- The children in memory are those of the tree. -/
theorem kids_of_reads {h : EHeap} {t : Element} {e : HElem} (hr : Reads h t e) {c : HElem} (hc : c ∈ h.cells e.kids) :
    ∃ k ∈ t.children, Reads h k c := by
  obtain ⟨i, hi⟩ := List.mem_iff_getElem?.mp hc
  obtain ⟨k, h1, h2⟩ := forall2_mem_left (reads_iff.mp hr).2.2.2.2 hi
  exact ⟨k, List.mem_of_getElem? h1, h2⟩

/-- A search that finds nothing. -/
theorem search_nothing {h : EHeap} {pred : HElem → Bool} {n : Nat} {t : Element} {root : Ptr} (hr : Holds h root t) (hn : depth t ≤ n)
    (hp : ∀ x ∈ below t, ∀ e, Reads h x e → pred e = false) : searchPtr h n pred root = some [] := by
  obtain ⟨ps, hps⟩ := searchPtr_reads pred hr hn
  rw [hps]
  congr 1
  cases ps with
  | nil => rfl
  | cons p ps =>
    obtain ⟨hb, e, he, hpe⟩ := (searchPtr_mem hps p).mp List.mem_cons_self
    obtain ⟨r, hr1, hr2⟩ := hr
    obtain ⟨i, path, x, hx, hxe⟩ := reads_below hb hr1 hr2 he
    rw [hp x ((mem_below_iff t x).mpr ⟨_, by simp, hx⟩) e hxe] at hpe
    cases hpe

theorem forall2_left {α β : Type} {R : α → β → Prop} {as : List α} {bs : List β} (h : List.Forall₂ R as bs) : ∀ a ∈ as, ∃ b ∈ bs, R a b := by
  induction h with
  | nil => intro a ha; cases ha
  | cons hr _ ih =>
    intro a ha
    rcases List.mem_cons.mp ha with rfl | ha'
    · exact ⟨_, List.mem_cons_self, hr⟩
    · obtain ⟨b, h1, h2⟩ := ih a ha'
      exact ⟨b, List.mem_cons_of_mem _ h1, h2⟩

theorem attrSet_same {loc v : Str} : ∀ {as : List Attr}, attrGet [] loc as = v → v ≠ [] → attrSet [] loc v as = as := by
  intro as
  induction as with
  | nil => intro h hv; exact absurd h.symm hv
  | cons a as ih =>
    intro h hv
    simp only [attrGet] at h
    simp only [attrSet]
    by_cases ha : a.name.loc ≠ loc
    · rw [if_pos ha] at h ⊢
      rw [ih h hv]
    · rw [if_neg ha] at h ⊢
      rw [if_pos (Or.inl trivial)] at h ⊢
      subst h
      rfl

theorem put_same {h : EHeap} {p : Ptr} {e : HElem} (hg : h.get p = some e) : h.put p e = h := by
  unfold EHeap.get at hg
  unfold EHeap.put
  cases ha : h[p.arr]? with
  | none => rw [ha] at hg; cases hg
  | some a =>
    rw [ha] at hg
    simp only [Option.bind_some] at hg
    have h1 : a.set p.idx e = a := by
      apply List.ext_getElem?
      intro i
      rw [List.getElem?_set]
      split
      · rename_i hi
        subst hi
        have := (List.getElem?_eq_some_iff.mp hg).1
        rw [if_pos this, hg]
      · rfl
    apply List.ext_getElem?
    intro i
    rw [List.getElem?_modify]
    cases hi : h[i]? with
    | none => rfl
    | some b =>
      by_cases he : p.arr = i
      · subst he
        rw [ha] at hi
        cases hi
        simp [h1]
      · simp [he]

theorem foldl_same {α β : Type} {f : β → α → β} {b : β} : ∀ {as : List α}, (∀ a ∈ as, f b a = b) → as.foldl f b = b := by
  intro as
  induction as with
  | nil => intro _; rfl
  | cons a as ih =>
    intro h
    rw [List.foldl_cons, h a List.mem_cons_self]
    exact ih fun x hx => h x (List.mem_cons_of_mem _ hx)

theorem setAttrAt_lackable {h : EHeap} {p : Ptr} {e : HElem} (hg : h.get p = some e) {x : Element} (hr : Reads h x e) (hl : Lackable x) :
    setAttrAt b!"minOccurs" (fun _ => b!"0") h p = h := by
  unfold setAttrAt
  rw [hg]
  simp only
  have : e.setAttr [] b!"minOccurs" b!"0" = e := by
    unfold HElem.setAttr
    have h1 : e.attr [] b!"minOccurs" = b!"0" := (attr_of_reads hr _).trans hl
    rw [attrSet_same h1 (by decide)]
  rw [this]
  exact put_same hg

theorem get_cell {h : EHeap} {s : HSlice} {i : Nat} {c : HElem} (hc : (h.cells s)[i]? = some c) : h.get ⟨s.arr, i⟩ = some c := by
  rw [cells_get] at hc
  split at hc
  · exact hc
  · cases hc

theorem get_index {h : EHeap} {s : HSlice} {i : Nat} (hi : i < (h.cells s).length) : ∃ c ∈ h.cells s, h.get ⟨s.arr, i⟩ = some c :=
  ⟨(h.cells s)[i], List.getElem_mem hi, get_cell (List.getElem?_eq_getElem hi)⟩

/-! ### The passes -/

section passes
variable {grow : Nat → Nat → Nat} {h : EHeap} {n : Nat} {t : Element} {root : Ptr}

theorem defaultType_same (hr : Holds h root t) (hn : depth t ≤ n) (kind type : Str)
    (ht : ∀ x ∈ below t, IsXs kind x → attrNamed x b!"type" ≠ []) : defaultTypeH kind type n h root = some h := by
  unfold defaultTypeH
  rw [search_nothing hr hn]
  · rfl
  · intro x hx e he
    rw [Bool.and_eq_false_iff]
    by_cases hk : IsXs kind x
    · right
      rw [← Bool.not_eq_true, hasAttrValue_of_reads he]
      exact ht x hx hk
    · left
      rw [← Bool.not_eq_true, isXs_of_reads he]
      exact hk

theorem no_anonymous {x : Element} {e : HElem} (he : Reads h x e)
    (hk : ∀ k ∈ x.children, IsXs b!"complexType" k ∨ IsXs b!"simpleType" k → attrNamed k b!"name" ≠ []) : hasAnonymousType h e = false := by
  unfold hasAnonymousType
  rw [List.any_eq_false]
  intro c hc ha
  obtain ⟨k, hkm, hkr⟩ := kids_of_reads he hc
  unfold isAnonymousType isType at ha
  rw [Bool.and_eq_true, Bool.or_eq_true, isXs_of_reads hkr, isXs_of_reads hkr, hasAttrValue_of_reads hkr] at ha
  exact hk k hkm ha.1 ha.2

theorem copyNames_same (hr : Holds h root t) (hn : depth t ≤ n) (hc : Canonical t) : copyEltNamesToAnonTypes grow n h root = some h := by
  unfold copyEltNamesToAnonTypes
  obtain ⟨r, hr1, hr2⟩ := hr
  rw [hr1]
  simp only [Option.bind_some]
  obtain ⟨ps, hps⟩ := searchPtr_reads (fun e => isType e && hasAttr [] b!"name" e.tag) ⟨r, hr1, hr2⟩ hn
  rw [hps]
  simp only [Option.bind_some]
  rw [search_nothing ⟨r, hr1, hr2⟩ hn]
  · rfl
  · intro x hx e he
    rw [no_anonymous he (hc.named x hx), Bool.and_false]

theorem nameTypes_same (hr : Holds h root t) (hn : depth t ≤ n) (hc : Canonical t) (k : Nat) : nameAnonymousTypes grow n root (h, k) = some (h, k) := by
  unfold nameAnonymousTypes
  obtain ⟨r, hr1, hr2⟩ := hr
  simp only
  rw [hr1]
  simp only [Option.bind_some]
  rw [search_nothing ⟨r, hr1, hr2⟩ hn]
  · rfl
  · intro x hx e he
    exact no_anonymous he (hc.named x hx)

theorem optionalAt_same {p : Ptr} {c : Element} {e : HElem} (hg : h.get p = some e) (he : Reads h c e)
    (hc : ∀ s ∈ c.children, (IsXs b!"sequence" s → ∀ x ∈ s.children, Lackable x) ∧ (¬ IsXs b!"sequence" s → Lackable s)) : optionalAt h p = h := by
  unfold optionalAt
  rw [hg]
  simp only
  refine foldl_same fun i hi => ?_
  obtain ⟨k, hk, hgk⟩ := get_index (List.mem_range.mp hi)
  obtain ⟨s, hs, hsr⟩ := kids_of_reads he hk
  obtain ⟨c1, c2⟩ := hc s hs
  unfold optionalChild
  rw [hgk]
  simp only
  have hiff : (k.name.space = schemaNS ∧ k.name.loc = b!"sequence") ↔ IsXs b!"sequence" s := by
    unfold IsXs
    have hw : w3cSchemaNS = schemaNS := by decide
    rw [← name_of_reads hsr, hw]
    constructor
    · rintro ⟨h1, h2⟩
      cases hkn : k.name
      rw [hkn] at h1 h2
      simp only at h1 h2
      rw [h1, h2]
    · intro h1
      rw [h1]
      exact ⟨rfl, rfl⟩
  by_cases hseq : IsXs b!"sequence" s
  · rw [if_pos (hiff.mpr hseq)]
    refine foldl_same fun j hj => ?_
    obtain ⟨d, hd, hgd⟩ := get_index (List.mem_range.mp hj)
    obtain ⟨x, hx, hxr⟩ := kids_of_reads hsr hd
    exact setAttrAt_lackable hgd hxr (c1 hseq x hx)
  · rw [if_neg fun hh => hseq (hiff.mp hh)]
    exact setAttrAt_lackable hgk hsr (c2 hseq)

theorem choices_same (hr : Holds h root t) (hn : depth t ≤ n) (hc : Canonical t) : setChoicesOptionalH n h root = some h := by
  unfold setChoicesOptionalH
  obtain ⟨ps, hps⟩ := searchPtr_reads (fun e => isElem schemaNS b!"choice" e.tag) hr hn
  rw [hps, Option.map_some, foldl_same]
  intro p hp
  obtain ⟨hb, e, he, hpe⟩ := (searchPtr_mem hps p).mp hp
  obtain ⟨r, hr1, hr2⟩ := hr
  obtain ⟨i, path, x, hx, hxe⟩ := reads_below hb hr1 hr2 he
  rw [isXs_of_reads hxe] at hpe
  exact optionalAt_same he hxe (hc.choices x ((mem_below_iff t x).mpr ⟨_, by simp, hx⟩) hpe)

theorem expand_same (hr : Holds h root t) (hn : depth t ≤ n) (hc : Canonical t) : expandComplexShorthand grow n h root = some h := by
  unfold expandComplexShorthand
  obtain ⟨ps, hps⟩ := searchPtr_reads (fun e => isElem schemaNS b!"complexType" e.tag) hr hn
  rw [hps, Option.map_some, foldl_same]
  intro p hp
  obtain ⟨hb, e, he, hpe⟩ := (searchPtr_mem hps p).mp hp
  obtain ⟨r, hr1, hr2⟩ := hr
  obtain ⟨i, path, x, hx, hxe⟩ := reads_below hb hr1 hr2 he
  refine expandAt_none grow he ?_
  have hns := hc.full x ((mem_below_iff t x).mpr ⟨_, by simp, hx⟩)
  rw [shorthand_iff hxe] at hns
  unfold shorthandH at hns
  rw [isXs_of_reads hxe] at hpe
  have hnm : e.name = ⟨schemaNS, b!"complexType"⟩ := by
    have hw : w3cSchemaNS = schemaNS := by decide
    rw [name_of_reads hxe, hpe, hw]
  simpa [hnm] using hns

theorem unpack_same (hr : Holds h root t) (hn : depth t ≤ n) (hc : Canonical t) : unpackGroups n h root = some h := by
  unfold unpackGroups
  rw [search_nothing hr hn]
  · rfl
  · intro x hx e he
    rw [List.any_eq_false]
    intro c hcm hg
    obtain ⟨k, hkm, hkr⟩ := kids_of_reads he hcm
    unfold isGroup at hg
    rw [Bool.or_eq_true, isXs_of_reads hkr, isXs_of_reads hkr] at hg
    obtain ⟨g1, g2⟩ := hc.noGroup x hx k hkm
    rcases hg with hg | hg
    · exact g1 hg
    · exact g2 hg

theorem cycleLoop_some {recur : Ptr → List Ptr → Option (Bool × List Ptr)} {arr : Nat} : ∀ {is : List Nat} {v : List Ptr},
    (∀ i ∈ is, ∀ v, ∃ r, recur ⟨arr, i⟩ v = some r) → ∃ r, cycleLoop recur arr is v = some r := by
  intro is
  induction is with
  | nil => intro v _; exact ⟨_, rfl⟩
  | cons i is ih =>
    intro v hr
    simp only [cycleLoop]
    split
    · exact ⟨_, rfl⟩
    · obtain ⟨r, h1⟩ := hr i List.mem_cons_self (⟨arr, i⟩ :: v)
      rw [h1]
      simp only [Option.bind_some]
      split
      · exact ⟨_, rfl⟩
      · exact ih fun j hj => hr j (List.mem_cons_of_mem _ hj)

theorem hasCycle_some : ∀ (n : Nat) {t : Element} {p : Ptr} {v : List Ptr}, Holds h p t → depth t ≤ n → ∃ r, hasCycle h n p v = some r := by
  intro n
  induction n with
  | zero => intro t p v _ hn; cases t; rw [depth] at hn; omega
  | succ n ih =>
    intro t p v hr hn
    obtain ⟨e, h1, h2⟩ := hr
    simp only [hasCycle, h1]
    obtain ⟨r, hr⟩ := cycleLoop_some (recur := hasCycle h n) (arr := e.kids.arr) (is := List.range (h.cells e.kids).length) (v := p :: v) (by
      intro i hi v
      obtain ⟨c, hc, hg⟩ := get_index (List.mem_range.mp hi)
      obtain ⟨k, hk, hkr⟩ := kids_of_reads h2 hc
      have := depth_kid hk
      exact ih ⟨c, hg, hkr⟩ (by omega))
    rw [hr]
    exact ⟨_, rfl⟩

theorem no_cycle (hr : Holds h root t) (hn : depth t ≤ n) : ∃ v, hasCycle h n root [] = some (false, v) := by
  obtain ⟨⟨b, v⟩, hb⟩ := hasCycle_some (v := []) n hr hn
  cases b with
  | false => exact ⟨v, hb⟩
  | true =>
    obtain ⟨q, hq, hqq⟩ := hasCycle_true n hb (by intro x hx; cases hx)
    obtain ⟨ps, hps⟩ := searchPtr_reads (fun _ => true) hr hn
    have ha := acc_of_searchPtr hps
    rcases hq with rfl | hq
    · exact absurd hqq (acc_not_below ha)
    · exact absurd hqq (acc_not_below (acc_below ha hq))

theorem nothing_to_deref {roots : List Ptr} {ts : List Element} (hr : List.Forall₂ (Holds h) roots ts)
    (hn : ∀ t ∈ ts, depth t ≤ n) (hc : ∀ t ∈ ts, ∀ x ∈ below t, attrNamed x b!"ref" = []) : dereference n h roots = .ok h := by
  have hfin : ∀ root ∈ roots, ∃ t ∈ ts, Holds h root t := by
    intro root hm
    exact forall2_left hr root hm
  have hix : ∀ (rs : List Ptr) (ix : Index), (∀ root ∈ rs, ∃ t ∈ ts, Holds h root t) → ∃ ix', indexSchemas h n rs ix = some ix' := by
    intro rs
    induction rs with
    | nil => intro ix _; exact ⟨ix, rfl⟩
    | cons r rs ih =>
      intro ix hrs
      obtain ⟨t, ht, e, h1, h2⟩ := hrs r List.mem_cons_self
      obtain ⟨ps, hps⟩ := searchPtr_reads (fun _ => true) ⟨e, h1, h2⟩ (hn t ht)
      simp only [indexSchemas, h1, hps]
      exact ih _ fun root hm => hrs root (List.mem_cons_of_mem _ hm)
  obtain ⟨ix, hx⟩ := hix roots {} hfin
  obtain ⟨M, hM, hmem⟩ := indexed_schemas roots (indexed_nil h) hx
  have hkeys : ∀ p ∈ ix.eltByID, (h.get p).bind refKey = none := by
    intro p hp
    rw [hM.ids, List.nil_append] at hp
    obtain ⟨⟨q, tns⟩, hq, rfl⟩ := List.mem_map.mp hp
    obtain ⟨root, hroot, r, _, _, hb, hs⟩ := (hmem q tns).mp hq
    obtain ⟨e, he⟩ := Option.isSome_iff_exists.mp hs
    obtain ⟨t, ht, r', h1, h2⟩ := hfin root hroot
    obtain ⟨i, path, x, hx, hxe⟩ := reads_below hb h1 h2 he
    simp only [he, Option.bind_some]
    unfold refKey
    rw [attr_of_reads hxe, if_pos (hc t ht x ((mem_below_iff t x).mpr ⟨_, by simp, hx⟩))]
  have hes : ∀ (ps : List Ptr) (id : Nat), (∀ p ∈ ps, (h.get p).bind refKey = none) → refEdges h ix id ps = some [] := by
    intro ps
    induction ps with
    | nil => intro id _; rfl
    | cons p ps ih =>
      intro id hk
      simp only [refEdges, hk p List.mem_cons_self]
      exact ih _ fun q hq => hk q (List.mem_cons_of_mem _ hq)
  unfold dereference
  rw [hx]
  simp only
  rw [hes _ 0 hkeys]
  simp only
  have : (Dep.Graph.build []).flatten = some [] := by decide
  rw [this]
  rfl

theorem eachRoot_same {σ : Type} {f : σ → Ptr → Option σ} {s : σ} : ∀ {roots : List Ptr}, (∀ r ∈ roots, f s r = some s) → eachRoot f roots s = some s := by
  intro roots
  induction roots with
  | nil => intro _; rfl
  | cons r rs ih =>
    intro hf
    simp only [eachRoot, hf r List.mem_cons_self, Option.bind_some]
    exact ih fun x hx => hf x (List.mem_cons_of_mem _ hx)

theorem unpackAll_same : ∀ {roots : List Ptr}, (∀ r ∈ roots, unpackGroups n h r = some h ∧ ∃ v, hasCycle h n r [] = some (false, v)) →
    unpackAll n roots h = .ok h := by
  intro roots
  induction roots with
  | nil => intro _; rfl
  | cons r rs ih =>
    intro hf
    obtain ⟨h1, v, h2⟩ := hf r List.mem_cons_self
    simp only [unpackAll, h1, h2]
    exact ih fun x hx => hf x (List.mem_cons_of_mem _ hx)

/-- Canonical schemas in memory stay as they are. -/
theorem normalizeH_same {roots : List Ptr} {ts : List Element} (hr : List.Forall₂ (Holds h) roots ts)
    (hn : ∀ t ∈ ts, depth t ≤ n) (hc : ∀ t ∈ ts, Canonical t) : normalizeH grow n h roots = some (h, roots) := by
  have hall : ∀ root ∈ roots, ∃ t, Holds h root t ∧ depth t ≤ n ∧ Canonical t := by
    intro root hm
    obtain ⟨t, ht, h2⟩ := forall2_left hr root hm
    exact ⟨t, h2, hn t ht, hc t ht⟩
  have hroots : ∀ (rs : List Ptr), (∀ r ∈ rs, ∃ t, Holds h r t ∧ depth t ≤ n ∧ Canonical t) → schemasOf n h rs = some rs := by
    intro rs
    induction rs with
    | nil => intro _; rfl
    | cons r rs ih =>
      intro hrs
      obtain ⟨t, ⟨e, h1, h2⟩, h3, h4⟩ := hrs r List.mem_cons_self
      have : schemaPtrs n h r = some [r] := by
        unfold schemaPtrs
        have hw : w3cSchemaNS = schemaNS := by decide
        have hnm : e.name = ⟨schemaNS, b!"schema"⟩ := by
          have := h4.schema
          unfold IsXs at this
          rw [name_of_reads h2, this, hw]
        simp only [h1, Option.bind_some, hnm, if_true]
      simp only [schemasOf, this, ih fun x hx => hrs x (List.mem_cons_of_mem _ hx)]
      rfl
  unfold normalizeH
  rw [hroots roots hall, Option.bind_some, eachRoot_same, Option.bind_some, eachRoot_same, Option.bind_some, eachRoot_same, Option.bind_some]
  · unfold flattenRef
    rw [nothing_to_deref hr hn fun t ht => (hc t ht).noRef]
    simp only
    rw [unpackAll_same]
    intro r hm
    obtain ⟨t, h1, h2, h3⟩ := hall r hm
    exact ⟨unpack_same h1 h2 h3, no_cycle h1 h2⟩
  · intro r hm
    obtain ⟨t, h1, h2, h3⟩ := hall r hm
    exact expand_same h1 h2 h3
  · intro r hm
    obtain ⟨t, h1, h2, h3⟩ := hall r hm
    unfold namesAndChoices
    rw [nameTypes_same h1 h2 h3, Option.bind_some, choices_same h1 h2 h3]
    rfl
  · intro r hm
    obtain ⟨t, h1, h2, h3⟩ := hall r hm
    unfold defaultsAndNames
    rw [defaultType_same h1 h2 _ _ fun x hx hk => h3.typed x hx (.inl hk), Option.bind_some,
      defaultType_same h1 h2 _ _ fun x hx hk => h3.typed x hx (.inr hk), Option.bind_some, copyNames_same h1 h2 h3]

end passes

/-- Loading documents. -/
theorem loadDocs_holds (grow : Nat → Nat → Nat) : ∀ (docs : List Element) {h : EHeap}, SlicesOk h →
    SlicesOk (loadDocs grow docs h).1 ∧ (∃ xs, (loadDocs grow docs h).1 = h ++ xs) ∧
      List.Forall₂ (Holds (loadDocs grow docs h).1) (loadDocs grow docs h).2 docs := by
  intro docs
  induction docs with
  | nil => intro h hs; exact ⟨hs, ⟨[], by simp [loadDocs]⟩, .nil⟩
  | cons d docs ih =>
    intro h hs
    obtain ⟨h1, h2⟩ := loadDoc_holds grow d hs
    obtain ⟨xs, hxs⟩ : ∃ xs, (loadDoc grow d h).1 = h ++ xs := by
      obtain ⟨ys, hy⟩ := load_mono grow d h
      exact ⟨ys ++ _, by unfold loadDoc; dsimp only; rw [hy, List.append_assoc]⟩
    obtain ⟨i1, ⟨zs, i2⟩, i3⟩ := ih h1
    simp only [loadDocs]
    refine ⟨i1, ⟨xs ++ zs, by rw [i2, hxs, List.append_assoc]⟩, .cons ?_ i3⟩
    rw [i2]
    obtain ⟨e, e1, e2⟩ := h2
    exact ⟨e, by rw [get_append_left _ _ (get_lt e1)]; exact e1, reads_append h1 zs d (h1 _ _ e1) e2⟩

end GoXml.Xsd
