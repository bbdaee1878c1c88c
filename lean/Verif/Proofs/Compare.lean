import Verif.Model.Compare
import Verif.Spec.Compare
import Verif.Proofs.Sort
set_option autoImplicit false

/-! Helper lemmas for `Equal`. -/

namespace GoXml

theorem plainAttr_iff (a : Attr) : plainAttr a = true ↔ Plain a := by
  simp [plainAttr, Plain]

theorem attrMapGet_some {n : XName} {v : Str} {as : List Attr} (h : attrMapGet n as = some v) :
    ∃ a ∈ as, Plain a ∧ a.name = n ∧ a.value = v := by
  induction as with
  | nil => simp [attrMapGet] at h
  | cons a as ih =>
    simp only [attrMapGet] at h
    split at h
    · rename_i hc
      simp only [Bool.and_eq_true, decide_eq_true_eq] at hc
      simp only [Option.some.injEq] at h
      exact ⟨a, by simp, (plainAttr_iff a).mp hc.1, hc.2, h⟩
    · obtain ⟨b, hb, r⟩ := ih h
      exact ⟨b, by simp [hb], r⟩

theorem attrMapGet_none {n : XName} {as : List Attr} (h : attrMapGet n as = none) :
    ∀ a ∈ as, Plain a → a.name ≠ n := by
  induction as with
  | nil => simp
  | cons a as ih =>
    simp only [attrMapGet] at h
    split at h
    · cases h
    · rename_i hc
      intro b hb hp
      rcases List.mem_cons.mp hb with rfl | hb
      · intro hn
        exact hc (by simp [(plainAttr_iff b).mpr hp, hn])
      · exact ih h b hb hp

theorem attrsCovered_iff (as bs : List Attr) :
    attrsCovered as bs = true ↔ ∀ b ∈ bs, Plain b → attrMapGet b.name as.reverse = some b.value := by
  induction bs with
  | nil => simp [attrsCovered]
  | cons b bs ih =>
    simp only [attrsCovered]
    by_cases hp : plainAttr b = true
    · have hp' := (plainAttr_iff b).mp hp
      simp only [hp, Bool.not_true, Bool.false_eq_true, if_false]
      by_cases hg : attrMapGet b.name as.reverse = some b.value
      · rw [if_pos hg, ih]
        constructor
        · intro h x hx px
          rcases List.mem_cons.mp hx with rfl | hx
          · exact hg
          · exact h x hx px
        · intro h x hx px; exact h x (by simp [hx]) px
      · rw [if_neg hg]
        constructor
        · intro h; cases h
        · intro h; exact absurd (h b (by simp) hp') hg
    · have hp' : ¬ Plain b := fun h => hp ((plainAttr_iff b).mpr h)
      simp only [hp, Bool.not_false, if_true]
      rw [ih]
      constructor
      · intro h x hx px
        rcases List.mem_cons.mp hx with rfl | hx
        · exact absurd px hp'
        · exact h x hx px
      · intro h x hx px; exact h x (by simp [hx]) px

theorem attrMapGet_noConflict {as : List Attr} (hn : NoConflict as) {a : Attr} (ha : a ∈ as) (hp : Plain a) :
    attrMapGet a.name as.reverse = some a.value := by
  cases h : attrMapGet a.name as.reverse with
  | none => exact absurd rfl (attrMapGet_none h a (by simpa using ha) hp)
  | some v =>
    obtain ⟨b, hb, pb, nb, vb⟩ := attrMapGet_some h
    rw [← vb, hn a ha b (by simpa using hb) hp nb.symm]

/-- With no conflicts in the first list, coverage is what it should be. -/
theorem attrsCovered_noConflict {as : List Attr} (hn : NoConflict as) (bs : List Attr) :
    attrsCovered as bs = true ↔ ∀ y ∈ bs, Plain y → ∃ x ∈ as, x.name = y.name ∧ x.value = y.value := by
  rw [attrsCovered_iff]
  constructor
  · intro h y hy py
    obtain ⟨x, hx, _, h1, h2⟩ := attrMapGet_some (h y hy py)
    exact ⟨x, by simpa using hx, h1, h2⟩
  · intro h y hy py
    obtain ⟨x, hx, h1, h2⟩ := h y hy py
    have px : Plain x := by unfold Plain at *; rw [h1]; exact py
    rw [← h1, ← h2]
    exact attrMapGet_noConflict hn hx px

theorem equalElement_iff (a b : Element) :
    equalElement a b = true ↔ a.name = b.name ∧ attrsCovered a.attrs b.attrs = true := by
  unfold equalElement
  by_cases h : a.name = b.name <;> simp [h]

theorem kidsLoop_iff (cmp : Element → Element → Bool × Element × Element) (as bs : List Element) :
    (kidsLoop cmp as bs).1 = true ↔
      ∀ (i : Nat) (x y : Element), as[i]? = some x → bs[i]? = some y → (cmp x y).1 = true := by
  induction as generalizing bs with
  | nil => simp [kidsLoop]
  | cons a as ih =>
    cases bs with
    | nil => simp [kidsLoop]
    | cons b bs =>
      simp only [kidsLoop]
      by_cases hc : (cmp a b).1 = true
      · simp only [hc, Bool.not_true, Bool.false_eq_true, if_false]
        rw [ih]
        constructor
        · intro h i x y hx hy
          cases i with
          | zero => simp at hx hy; subst hx; subst hy; exact hc
          | succ i => exact h i x y (by simpa using hx) (by simpa using hy)
        · intro h i x y hx hy
          exact h (i + 1) x y (by simpa using hx) (by simpa using hy)
      · simp only [hc, Bool.not_false, if_true]
        constructor
        · intro h; cases h
        · intro h; exact absurd (h 0 a b rfl rfl) hc

/-- The result of `equal` at one level. -/
theorem equalAt_iff (srt : Sorter elemLess) (f : Nat) (a b : Element) :
    (equalAt srt (f + 1) a b).1 = true ↔
      equalElement a b = true ∧ a.children.length = b.children.length ∧
      (a.children = [] → trimSpace a.content = trimSpace b.content) ∧
      ∀ (i : Nat) (x y : Element), (srt.sort a.children)[i]? = some x → (srt.sort b.children)[i]? = some y →
        (equalAt srt f x y).1 = true := by
  rw [equalAt]
  by_cases h1 : equalElement a b = true
  · by_cases h2 : a.children.length = b.children.length
    · by_cases h3 : a.children.length = 0
      · have h4 : a.children = [] := List.length_eq_zero_iff.mp h3
        have h5 : srt.sort a.children = [] := by
          have := (srt.perm a.children).length_eq
          rw [h3] at this
          exact List.length_eq_zero_iff.mp this
        have h6 : srt.sort ([] : List Element) = [] := by rw [h4] at h5; exact h5
        simp [h1, ← h2, h4, h6]
      · have h4 : a.children ≠ [] := fun h => h3 (by rw [h]; rfl)
        simp only [h1, h2, Bool.not_true, Bool.false_eq_true, if_false, ne_eq, not_true, true_and]
        rw [if_neg (by rw [← h2]; exact h3)]
        simp only [kidsLoop_iff]
        constructor
        · intro h; exact ⟨fun h' => absurd h' h4, h⟩
        · intro h; exact h.2
    · simp [h1, h2]
  · simp [h1]

theorem height_child {e c : Element} (h : c ∈ e.children) : c.height < e.height := by
  obtain ⟨n, a, s, co, ks⟩ := e
  simp only [Element.children] at h
  simp only [Element.height]
  induction ks with
  | nil => simp at h
  | cons k ks ih =>
    simp only [elHeightL]
    rcases List.mem_cons.mp h with rfl | h
    · have := Nat.le_max_left c.height (elHeightL ks); omega
    · have := ih h
      have := Nat.le_max_right k.height (elHeightL ks); omega

theorem height_le_of_children {e : Element} {f : Nat} (h : ∀ c ∈ e.children, c.height ≤ f) : e.height ≤ f + 1 := by
  obtain ⟨n, a, s, co, ks⟩ := e
  simp only [Element.children] at h
  simp only [Element.height]
  induction ks with
  | nil => simp [elHeightL]
  | cons k ks ih =>
    simp only [elHeightL]
    have h1 := h k (by simp)
    have h2 := ih (fun c hc => h c (by simp [hc]))
    omega

theorem mem_sort {α : Type} {less : α → α → Bool} (srt : Sorter less) {l : List α} {x : α} :
    x ∈ srt.sort l ↔ x ∈ l := (srt.perm l).mem_iff

theorem Everywhere.here {P : Element → Prop} {e : Element} (h : Everywhere P e) : P e := by cases h; assumption
theorem Everywhere.child {P : Element → Prop} {e c : Element} (h : Everywhere P e) (hc : c ∈ e.children) :
    Everywhere P c := by cases h with | mk h1 h2 => exact h2 c hc

theorem equalSelfElement_iff (a : Element) : equalElement a a = true ↔ NoConflict a.attrs := by
  rw [equalElement_iff]
  constructor
  · rintro ⟨_, h⟩ x hx y hy px hxy
    rw [attrsCovered_iff] at h
    have h1 := h x hx px
    have h2 := h y hy (by unfold Plain at *; rw [← hxy]; exact px)
    rw [hxy] at h1
    rw [h1] at h2
    exact Option.some.inj h2
  · intro hn
    refine ⟨rfl, (attrsCovered_noConflict hn _).mpr ?_⟩
    intro y hy _
    exact ⟨y, hy, rfl, rfl⟩

theorem equalAt_refl_iff (srt : Sorter elemLess) (f : Nat) (a : Element) :
    (equalAt srt f a a).1 = true ↔ a.height ≤ f ∧ Everywhere (fun e => NoConflict e.attrs) a := by
  induction f generalizing a with
  | zero =>
    obtain ⟨n, at', s, co, ks⟩ := a
    simp [equalAt, Element.height]
  | succ f ih =>
    rw [equalAt_iff, equalSelfElement_iff]
    constructor
    · rintro ⟨h1, _, _, h4⟩
      have key : ∀ c ∈ a.children, c.height ≤ f ∧ Everywhere (fun e => NoConflict e.attrs) c := by
        intro c hc
        obtain ⟨i, hi⟩ := List.getElem?_of_mem ((mem_sort srt).mpr hc)
        exact (ih c).mp (h4 i c c hi hi)
      exact ⟨height_le_of_children fun c hc => (key c hc).1, .mk h1 fun c hc => (key c hc).2⟩
    · rintro ⟨h1, h2⟩
      refine ⟨h2.here, rfl, fun _ => rfl, ?_⟩
      intro i x y hx hy
      rw [hx] at hy
      cases hy
      have hm : x ∈ a.children := (mem_sort srt).mp (List.mem_of_getElem? hx)
      refine (ih x).mpr ⟨?_, h2.child hm⟩
      have := height_child hm
      omega

theorem equalSelfAt_iff (srt : Sorter elemLess) (f : Nat) (a : Element) :
    equalSelfAt srt f a = true ↔ a.height ≤ f ∧ Everywhere (fun e => NoConflict e.attrs) a := by
  induction f generalizing a with
  | zero =>
    obtain ⟨n, at', s, co, ks⟩ := a
    simp [equalSelfAt, Element.height]
  | succ f ih =>
    have hall : (equalSelfAt srt (f + 1) a = true) ↔ NoConflict a.attrs ∧ ∀ c ∈ a.children, equalSelfAt srt f c = true := by
      rw [equalSelfAt]
      by_cases h1 : equalElement a a = true
      · have h1' := (equalSelfElement_iff a).mp h1
        simp only [h1, Bool.not_true, Bool.false_eq_true, if_false]
        by_cases h3 : a.children.length = 0
        · have h4 : a.children = [] := List.length_eq_zero_iff.mp h3
          simp [h4, h1']
        · rw [if_neg h3]
          simp [List.all_eq_true, mem_sort, h1']
      · have h1' : ¬ NoConflict a.attrs := fun h => h1 ((equalSelfElement_iff a).mpr h)
        simp [h1, h1']
    rw [hall]
    constructor
    · rintro ⟨h1, h4⟩
      exact ⟨height_le_of_children fun c hc => ((ih c).mp (h4 c hc)).1, .mk h1 fun c hc => ((ih c).mp (h4 c hc)).2⟩
    · rintro ⟨h1, h2⟩
      refine ⟨h2.here, fun c hc => (ih c).mpr ⟨?_, h2.child hc⟩⟩
      have := height_child hc
      omega

/-! ### Symmetry -/

theorem equalAt_symm (srt : Sorter elemLess) (f : Nat) (a b : Element)
    (ha : Everywhere (fun e => NoConflict e.attrs) a) (hb : Everywhere (fun e => NoConflict e.attrs) b)
    (hs : Everywhere (fun x => Everywhere (fun y => x.name = y.name →
      ∀ n : XName, (∃ p ∈ x.attrs, p.name = n) ↔ (∃ q ∈ y.attrs, q.name = n)) b) a) :
    (equalAt srt f a b).1 = true → (equalAt srt f b a).1 = true := by
  induction f generalizing a b with
  | zero => simp [equalAt]
  | succ f ih =>
    rw [equalAt_iff, equalAt_iff]
    rintro ⟨h1, h2, h3, h4⟩
    obtain ⟨hname, hcov⟩ := (equalElement_iff a b).mp h1
    have hsn := hs.here.here hname
    refine ⟨(equalElement_iff b a).mpr ⟨hname.symm, ?_⟩, h2.symm, ?_, ?_⟩
    · rw [attrsCovered_noConflict ha.here] at hcov
      rw [attrsCovered_noConflict hb.here]
      intro y hy py
      obtain ⟨x, hx, hxn⟩ := (hsn y.name).mp ⟨y, hy, rfl⟩
      obtain ⟨z, hz, z1, z2⟩ := hcov x hx (by unfold Plain at *; rw [hxn]; exact py)
      refine ⟨x, hx, hxn, ?_⟩
      rw [← z2]
      exact (ha.here y hy z hz py (by rw [z1, hxn])).symm
    · intro hbc
      have : a.children = [] := by
        have : a.children.length = 0 := by rw [h2, hbc]; rfl
        exact List.length_eq_zero_iff.mp this
      exact (h3 this).symm
    · intro i x y hx hy
      have mx : x ∈ b.children := (mem_sort srt).mp (List.mem_of_getElem? hx)
      have my : y ∈ a.children := (mem_sort srt).mp (List.mem_of_getElem? hy)
      refine ih y x (ha.child my) (hb.child mx) ?_ (h4 i y x hy hx)
      have hsy := hs.child my
      clear ih h4 hx hy
      -- restrict the inner quantifier to the child
      have : ∀ e, Everywhere (fun x => Everywhere (fun y => x.name = y.name →
          ∀ n : XName, (∃ p ∈ x.attrs, p.name = n) ↔ (∃ q ∈ y.attrs, q.name = n)) b) e →
          Everywhere (fun z => Everywhere (fun y => z.name = y.name →
          ∀ n : XName, (∃ p ∈ z.attrs, p.name = n) ↔ (∃ q ∈ y.attrs, q.name = n)) x) e := by
        intro e he
        induction he with
        | mk h _ ih => exact .mk (h.child mx) ih
      exact this y hsy

/-! ### Sorting children with distinct keys -/

theorem nodup_key_inj {α : Type} {key : α → Str} {l : List α} (h : (l.map key).Nodup) :
    ∀ a ∈ l, ∀ b ∈ l, key a = key b → a = b := by
  induction l with
  | nil => simp
  | cons x xs ih =>
    simp only [List.map_cons, List.nodup_cons, List.mem_map, not_exists, not_and] at h
    intro a ha b hb hk
    rcases List.mem_cons.mp ha with ea | ha' <;> rcases List.mem_cons.mp hb with eb | hb'
    · rw [ea, eb]
    · exact absurd (by rw [← hk, ea]) (h.1 b hb')
    · exact absurd (by rw [hk, eb]) (h.1 a ha')
    · exact ih h.2 a ha' b hb' hk

/-- Sorted lists with the same keys line up. -/
theorem sorted_keys_eq (srt : Sorter elemLess) {ks ks' : List Element}
    (h : (ks.map sortKeyOf).Perm (ks'.map sortKeyOf)) :
    (srt.sort ks).map sortKeyOf = (srt.sort ks').map sortKeyOf := by
  refine sorted_perm_eq (key := id) ?_ ?_ ?_ (fun a _ b _ h => h)
  · exact ((srt.perm ks).map _).trans (h.trans ((srt.perm ks').map _).symm)
  · rw [List.pairwise_map]; exact srt.sorted ks
  · rw [List.pairwise_map]; exact srt.sorted ks'

/-- If the children of two elements are matched by some pairing that keeps the keys, and the keys
are distinct, then sorting finds this pairing. -/
theorem sorted_pairing (srt : Sorter elemLess) (R : Element → Element → Prop)
    (hR : ∀ x y, R x y → sortKeyOf x = sortKeyOf y) {ks ks' as bs : List Element}
    (ha : as.Perm ks) (hb : bs.Perm ks') (hlen : as.length = bs.length)
    (hp : ∀ (i : Nat) (x y : Element), as[i]? = some x → bs[i]? = some y → R x y)
    (hd : (ks.map sortKeyOf).Nodup) :
    (ks'.map sortKeyOf).Nodup ∧
    ∀ (i : Nat) (x y : Element), (srt.sort ks)[i]? = some x → (srt.sort ks')[i]? = some y → R x y := by
  have hkeys : as.map sortKeyOf = bs.map sortKeyOf := by
    apply List.ext_getElem?
    intro i
    simp only [List.getElem?_map]
    cases hx : as[i]? with
    | none =>
      have : bs[i]? = none := by
        rw [List.getElem?_eq_none_iff] at hx ⊢; omega
      rw [this]
    | some x =>
      have hi : i < bs.length := by
        have := List.getElem?_eq_some_iff.mp hx
        obtain ⟨h, _⟩ := this; omega
      have hy : bs[i]? = some bs[i] := List.getElem?_eq_getElem hi
      rw [hy]
      simp only [Option.map_some, hR _ _ (hp i _ _ hx hy)]
  have hperm : (ks.map sortKeyOf).Perm (ks'.map sortKeyOf) :=
    (ha.map _).symm.trans ((List.Perm.of_eq hkeys).trans (hb.map _))
  have hd' : (ks'.map sortKeyOf).Nodup := hperm.nodup_iff.mp hd
  refine ⟨hd', ?_⟩
  intro i x y hx hy
  have hk := sorted_keys_eq srt hperm
  have hkxy : sortKeyOf x = sortKeyOf y := by
    have := congrArg (fun l => l[i]?) hk
    simp only [List.getElem?_map, hx, hy, Option.map_some, Option.some.injEq] at this
    exact this
  have mx : x ∈ as := ha.symm.subset ((mem_sort srt).mp (List.mem_of_getElem? hx))
  have my : y ∈ ks' := (mem_sort srt).mp (List.mem_of_getElem? hy)
  obtain ⟨j, hj⟩ := List.getElem?_of_mem mx
  have hjl : j < bs.length := by
    obtain ⟨h, _⟩ := List.getElem?_eq_some_iff.mp hj; omega
  have hz : bs[j]? = some bs[j] := List.getElem?_eq_getElem hjl
  have hRz := hp j x _ hj hz
  have hzm : bs[j] ∈ ks' := hb.subset (List.getElem_mem hjl)
  have : bs[j] = y := nodup_key_inj hd' _ hzm _ my (by rw [← hR _ _ hRz, hkxy])
  rw [← this]; exact hRz

theorem Reordered.key {a b : Element} (h : Reordered a b) : sortKeyOf a = sortKeyOf b := by
  cases h; rfl

theorem equalAt_reordered (srt : Sorter elemLess) (f : Nat) : ∀ (a a' b b' : Element),
    Reordered a a' → Reordered b b' → Everywhere DistinctKids a → Everywhere DistinctKids b →
    ((equalAt srt f a b).1 = true ↔ (equalAt srt f a' b').1 = true) := by
  induction f with
  | zero => intros; simp [equalAt]
  | succ f ih =>
    intro a a' b b' ha hb da db
    rw [equalAt_iff, equalAt_iff]
    cases ha with
    | @mk n1 at1 s1 c1 ks1 ms1 ks1' l1 r1 p1 =>
    cases hb with
    | @mk n2 at2 s2 c2 ks2 ms2 ks2' l2 r2 p2 =>
      simp only [Element.children, Element.content]
      have e1 : equalElement (.mk n1 at1 s1 c1 ks1) (.mk n2 at2 s2 c2 ks2) =
          equalElement (.mk n1 at1 s1 c1 ks1') (.mk n2 at2 s2 c2 ks2') := rfl
      rw [e1]
      have len1 : ks1.length = ks1'.length := by rw [l1, p1.length_eq]
      have len2 : ks2.length = ks2'.length := by rw [l2, p2.length_eq]
      have nil1 : ks1 = [] ↔ ks1' = [] := by
        rw [← List.length_eq_zero_iff, ← List.length_eq_zero_iff, len1]
      obtain ⟨_, q1⟩ := sorted_pairing srt Reordered (fun _ _ h => h.key) (List.Perm.refl ks1) p1 l1 r1 da.here
      obtain ⟨_, q2⟩ := sorted_pairing srt Reordered (fun _ _ h => h.key) (List.Perm.refl ks2) p2 l2 r2 db.here
      rw [len1, len2, nil1]
      have sl1 : (srt.sort ks1).length = (srt.sort ks1').length := by
        rw [(srt.perm ks1).length_eq, (srt.perm ks1').length_eq, len1]
      have sl2 : (srt.sort ks2).length = (srt.sort ks2').length := by
        rw [(srt.perm ks2).length_eq, (srt.perm ks2').length_eq, len2]
      have step : ∀ (i : Nat) (x y x' y' : Element), (srt.sort ks1)[i]? = some x → (srt.sort ks2)[i]? = some y →
          (srt.sort ks1')[i]? = some x' → (srt.sort ks2')[i]? = some y' →
          ((equalAt srt f x y).1 = true ↔ (equalAt srt f x' y').1 = true) := by
        intro i x y x' y' hx hy hx' hy'
        exact ih x x' y y' (q1 i x x' hx hx') (q2 i y y' hy hy')
          (da.child ((mem_sort srt).mp (List.mem_of_getElem? hx)))
          (db.child ((mem_sort srt).mp (List.mem_of_getElem? hy)))
      have pick : ∀ {l l' : List Element} (i : Nat) (x : Element), l.length = l'.length → l[i]? = some x →
          ∃ x', l'[i]? = some x' := by
        intro l l' i x hl hx
        obtain ⟨h, _⟩ := List.getElem?_eq_some_iff.mp hx
        exact ⟨_, List.getElem?_eq_getElem (by omega)⟩
      constructor
      · rintro ⟨h1, h2, h3, h4⟩
        refine ⟨h1, h2, h3, ?_⟩
        intro i x' y' hx' hy'
        obtain ⟨x, hx⟩ := pick i x' sl1.symm hx'
        obtain ⟨y, hy⟩ := pick i y' sl2.symm hy'
        exact (step i x y x' y' hx hy hx' hy').mp (h4 i x y hx hy)
      · rintro ⟨h1, h2, h3, h4⟩
        refine ⟨h1, h2, h3, ?_⟩
        intro i x y hx hy
        obtain ⟨x', hx'⟩ := pick i x sl1 hx
        obtain ⟨y', hy'⟩ := pick i y sl2 hy
        exact (step i x y x' y' hx hy hx' hy').mpr (h4 i x' y' hx' hy')

/-! ### Soundness and completeness -/

theorem equalAt_covers (srt : Sorter elemLess) (f : Nat) (a b : Element) (h : (equalAt srt f a b).1 = true) :
    Covers a b := by
  induction f generalizing a b with
  | zero => simp [equalAt] at h
  | succ f ih =>
    rw [equalAt_iff] at h
    obtain ⟨h1, h2, h3, h4⟩ := h
    obtain ⟨hn, hc⟩ := (equalElement_iff a b).mp h1
    refine .mk (as := srt.sort a.children) (bs := srt.sort b.children) hn ?_ h3 (srt.perm _) (srt.perm _) ?_ ?_
    · intro y hy py
      obtain ⟨x, hx, _, x1, x2⟩ := attrMapGet_some ((attrsCovered_iff _ _).mp hc y hy py)
      exact ⟨x, by simpa using hx, x1, x2⟩
    · rw [(srt.perm _).length_eq, (srt.perm _).length_eq, h2]
    · intro i x y hx hy
      exact ih x y (h4 i x y hx hy)

theorem Covers.key {a b : Element} (h : Covers a b) : sortKeyOf a = sortKeyOf b := by
  cases h with | mk h => unfold sortKeyOf; rw [h]

theorem equalAt_complete (srt : Sorter elemLess) (f : Nat) (a b : Element) (h : Covers a b)
    (hh : a.height ≤ f) (hn : Everywhere (fun e => NoConflict e.attrs) a) (hd : Everywhere DistinctKids a) :
    (equalAt srt f a b).1 = true := by
  induction f generalizing a b with
  | zero => obtain ⟨n, at', s, c, ks⟩ := a; simp [Element.height] at hh
  | succ f ih =>
    rw [equalAt_iff]
    cases h with
    | @mk _ _ as bs h1 h2 h3 pa pb hl h4 =>
      refine ⟨(equalElement_iff a b).mpr ⟨h1, (attrsCovered_noConflict hn.here _).mpr h2⟩, ?_, h3, ?_⟩
      · rw [← pa.length_eq, ← pb.length_eq, hl]
      · obtain ⟨_, q⟩ := sorted_pairing srt Covers (fun _ _ h => h.key) pa pb hl h4 hd.here
        intro i x y hx hy
        have mx : x ∈ a.children := (mem_sort srt).mp (List.mem_of_getElem? hx)
        have := height_child mx
        exact ih x y (q i x y hx hy) (by omega) (hn.child mx) (hd.child mx)

/-! ### What is left behind -/

theorem Reordered.refl (a : Element) : Reordered a a := by
  induction a using Element.rec (motive_2 := fun ks => ∀ k ∈ ks, Reordered k k) with
  | mk n at' s c ks ih =>
    refine .mk (ms := ks) rfl ?_ (List.Perm.refl _)
    intro i x y hx hy
    rw [hx] at hy; cases hy
    exact ih x (List.mem_of_getElem? hx)
  | nil => rename_i h; simp at h
  | cons k ks ih1 ih2 =>
    rename_i x hx
    rcases List.mem_cons.mp hx with rfl | hx
    · exact ih1
    · exact ih2 x hx

theorem kidsLoop_left (cmp : Element → Element → Bool × Element × Element)
    (hc : ∀ x y, Reordered x (cmp x y).2.1 ∧ Reordered y (cmp x y).2.2) (as bs : List Element) :
    (as.length = (kidsLoop cmp as bs).2.1.length ∧
      ∀ (i : Nat) (x y : Element), as[i]? = some x → (kidsLoop cmp as bs).2.1[i]? = some y → Reordered x y) ∧
    (bs.length = (kidsLoop cmp as bs).2.2.length ∧
      ∀ (i : Nat) (x y : Element), bs[i]? = some x → (kidsLoop cmp as bs).2.2[i]? = some y → Reordered x y) := by
  have hrefl : ∀ (l : List Element), l.length = l.length ∧
      ∀ (i : Nat) (x y : Element), l[i]? = some x → l[i]? = some y → Reordered x y := by
    intro l
    refine ⟨rfl, ?_⟩
    intro i x y hx hy
    rw [hx] at hy; cases hy; exact .refl x
  have hcons : ∀ (k k' : Element) (l l' : List Element), Reordered k k' → (l.length = l'.length ∧
      ∀ (i : Nat) (x y : Element), l[i]? = some x → l'[i]? = some y → Reordered x y) →
      ((k :: l).length = (k' :: l').length ∧
      ∀ (i : Nat) (x y : Element), (k :: l)[i]? = some x → (k' :: l')[i]? = some y → Reordered x y) := by
    intro k k' l l' h1 h2
    refine ⟨by simp [h2.1], ?_⟩
    intro i x y hx hy
    cases i with
    | zero => simp at hx hy; subst hx; subst hy; exact h1
    | succ i => exact h2.2 i x y (by simpa using hx) (by simpa using hy)
  induction as generalizing bs with
  | nil => exact ⟨hrefl _, hrefl _⟩
  | cons a as ih =>
    cases bs with
    | nil => exact ⟨hrefl _, hrefl _⟩
    | cons b bs =>
      simp only [kidsLoop]
      obtain ⟨c1, c2⟩ := hc a b
      by_cases hok : (cmp a b).1 = true
      · simp only [hok, Bool.not_true, Bool.false_eq_true, if_false]
        obtain ⟨i1, i2⟩ := ih bs
        exact ⟨hcons _ _ _ _ c1 i1, hcons _ _ _ _ c2 i2⟩
      · simp only [hok, Bool.not_false, if_true]
        exact ⟨hcons _ _ _ _ c1 (hrefl _), hcons _ _ _ _ c2 (hrefl _)⟩

/-- A pointwise relation can be carried along a permutation. -/
theorem perm_pointwise {α : Type} {R : α → α → Prop} {l ks : List α} (hp : l.Perm ks) :
    ∀ ms : List α, l.length = ms.length →
      (∀ (i : Nat) (x y : α), l[i]? = some x → ms[i]? = some y → R x y) →
      ∃ ns : List α, ks.length = ns.length ∧ (∀ (i : Nat) (x y : α), ks[i]? = some x → ns[i]? = some y → R x y) ∧
        ns.Perm ms := by
  induction hp with
  | nil => intro ms hl _; exact ⟨ms, hl, by simp, .refl _⟩
  | @cons x l1 l2 _ ih =>
    intro ms hl h
    cases ms with
    | nil => simp at hl
    | cons m ms =>
      obtain ⟨ns, n1, n2, n3⟩ := ih ms (by simpa using hl) (fun i x y hx hy =>
        h (i + 1) x y (by simpa using hx) (by simpa using hy))
      refine ⟨m :: ns, by simp [n1], ?_, n3.cons m⟩
      intro i a b ha hb
      cases i with
      | zero => exact h 0 a b (by simpa using ha) (by simpa using hb)
      | succ i => exact n2 i a b (by simpa using ha) (by simpa using hb)
  | swap x y l =>
    intro ms hl h
    match ms, hl with
    | m1 :: m2 :: ms, hl =>
      refine ⟨m2 :: m1 :: ms, by simpa using hl, ?_, .swap _ _ _⟩
      intro i a b ha hb
      match i with
      | 0 => exact h 1 a b (by simpa using ha) (by simpa using hb)
      | 1 => exact h 0 a b (by simpa using ha) (by simpa using hb)
      | i + 2 => exact h (i + 2) a b (by simpa using ha) (by simpa using hb)
  | trans _ _ ih1 ih2 =>
    intro ms hl h
    obtain ⟨ns, n1, n2, n3⟩ := ih1 ms hl h
    obtain ⟨os, o1, o2, o3⟩ := ih2 ns n1 n2
    exact ⟨os, o1, o2, o3.trans n3⟩

theorem equalAt_reorders (srt : Sorter elemLess) (f : Nat) (a b : Element) :
    Reordered a (equalAt srt f a b).2.1 ∧ Reordered b (equalAt srt f a b).2.2 := by
  induction f generalizing a b with
  | zero => exact ⟨.refl _, .refl _⟩
  | succ f ih =>
    rw [equalAt]
    split
    · exact ⟨.refl _, .refl _⟩
    · split
      · exact ⟨.refl _, .refl _⟩
      · split
        · exact ⟨.refl _, .refl _⟩
        · obtain ⟨⟨p1, p2⟩, q1, q2⟩ := kidsLoop_left (equalAt srt f) ih (srt.sort a.children) (srt.sort b.children)
          obtain ⟨na, a1, a2, a3⟩ := perm_pointwise (srt.perm a.children) _ p1 p2
          obtain ⟨nb, b1, b2, b3⟩ := perm_pointwise (srt.perm b.children) _ q1 q2
          obtain ⟨n1, at1, s1, c1, ks1⟩ := a
          obtain ⟨n2, at2, s2, c2, ks2⟩ := b
          exact ⟨.mk a1 a2 a3, .mk b1 b2 b3⟩

end GoXml
