import Verif.Proofs.XsdLinks
set_option autoImplicit false

/-! Lemmas: `Normalize` replaces references to declarations without contents. -/

namespace GoXml.Xsd
open Wsdl

/-! ### Attributes -/

theorem attr_deref_own {x y : Element} (hp : PlainAttrs x) {a : Attr} (ha : a ∈ x.attrs) (hr : a.name.loc ≠ b!"ref") :
    attrNamed (deref x y) a.name.loc = a.value ∧ attrNamed x a.name.loc = a.value := by
  obtain ⟨h1, h2⟩ := hp
  obtain ⟨bf, af, e⟩ := List.append_of_mem ha
  have haf : ∀ r ∈ af, r.name.loc ≠ a.name.loc := by
    intro r hr he
    rw [e, List.map_append, List.map_cons, List.nodup_append, List.nodup_cons] at h2
    exact h2.2.1.1 (List.mem_map.mpr ⟨r, hr, he⟩)
  have hbf : ∀ r ∈ bf, r.name.loc ≠ a.name.loc := by
    intro r hr he
    rw [e, List.map_append, List.map_cons, List.nodup_append] at h2
    exact h2.2.2 _ (List.mem_map.mpr ⟨r, hr, rfl⟩) _ (by simp) he
  have := (C33_deref x y).2.2.2.2.1 bf a af e (fun hh => hr (by rw [hh])) haf
  rw [h1 a ha, Wsdl.attr_eq] at this
  refine ⟨this, ?_⟩
  unfold attrNamed
  rw [e, List.find?_append, List.find?_eq_none.mpr (by intro r hr; simpa using hbf r hr)]
  simp

theorem attr_deref_other {x y : Element} {loc : Str} (h : ∀ a ∈ x.attrs, a.name ≠ ⟨[], b!"ref"⟩ → a.name.loc ≠ loc) (ht : loc ≠ b!"type") :
    attrNamed (deref x y) loc = attrNamed y loc := by
  rw [← Wsdl.attr_eq, ← Wsdl.attr_eq]
  exact (C33_deref x y).2.2.2.1 [] loc h (.inl ht)

theorem attr_mem {x : Element} {loc : Str} (h : attrNamed x loc ≠ []) : ∃ a ∈ x.attrs, a.name.loc = loc ∧ a.value = attrNamed x loc := by
  unfold attrNamed at h ⊢
  cases hf : x.attrs.find? (fun a => decide (a.name.loc = loc)) with
  | none => rw [hf] at h; exact absurd rfl h
  | some a =>
    have := List.find?_some hf
    exact ⟨a, List.mem_of_find?_eq_some hf, by simpa using this, rfl⟩

/-- The reference's own attributes prevail. -/
theorem attr_deref_set {x y : Element} {loc : Str} (hp : PlainAttrs x) (h : attrNamed x loc ≠ []) (hr : loc ≠ b!"ref") :
    attrNamed (deref x y) loc = attrNamed x loc := by
  obtain ⟨a, h1, rfl, _⟩ := attr_mem h
  obtain ⟨h2, h3⟩ := attr_deref_own (y := y) hp h1 hr
  rw [h2, h3]

theorem attr_deref_either {x y : Element} {loc : Str} (hp : PlainAttrs x) (hr : loc ≠ b!"ref") (ht : loc ≠ b!"type") :
    attrNamed (deref x y) loc = attrNamed x loc ∨ attrNamed (deref x y) loc = attrNamed y loc := by
  by_cases h : ∀ a ∈ x.attrs, a.name ≠ ⟨[], b!"ref"⟩ → a.name.loc ≠ loc
  · exact .inr (attr_deref_other h ht)
  · rw [not_forall] at h
    obtain ⟨a, h⟩ := h
    rw [_root_.not_imp, _root_.not_imp, not_not] at h
    obtain ⟨h1, _, rfl⟩ := h
    obtain ⟨h2, h3⟩ := attr_deref_own (y := y) hp h1 hr
    exact .inl (h2.trans h3.symm)

theorem attr_deref_ref {x y : Element} (hp : PlainAttrs x) : attrNamed (deref x y) b!"ref" = attrNamed y b!"ref" := by
  refine attr_deref_other ?_ (by decide)
  intro a ha hn hl
  refine hn ?_
  have := hp.1 a ha
  cases a with
  | mk n v => cases n; simp_all

/-! ### The canonical form -/

/-- What is known of the targets. -/
def Leafy (T : Element → Element → Prop) : Prop := ∀ ⦃x y : Element⦄, T x y → IsRef x → y.name = x.name ∧ ¬ IsRef y ∧ y.children = []

theorem target_leafy {ts : List Element} (L : Tied ts) : Leafy (Target ts) := by
  rintro x y ⟨⟨t, ht, hx⟩, s, hs, hy, hm⟩ hr
  exact ⟨hm.1, L.leaf t ht x hx hr s hs y hy hm⟩

theorem relinked_name {T : Element → Element → Prop} (hT : Leafy T) {x x' : Element} (h : Relinked T x x') : x'.name = x.name := by
  rcases relinked_iff.mp h with ⟨_, h, _⟩ | ⟨h1, y, h2, rfl⟩
  · exact h
  · exact (hT h2 h1).1

/-- What is known before. -/
def Before (x : Element) : Prop := Settled x ∧ (IsRef x → Declaration x ∧ PlainAttrs x)

theorem relinked_anon {T : Element → Element → Prop} (hT : Leafy T) {x x' : Element} (hb : Before x) (h : Relinked T x x') (ha : AnonType x') : AnonType x := by
  have hn := relinked_name hT h
  rcases relinked_iff.mp h with ⟨_, _, h2, _⟩ | ⟨h1, _⟩
  · rw [anonType_iff, hn, attrNamed_attrs h2] at ha
    exact (anonType_iff x).mpr ha
  · have hw : w3cSchemaNS = schemaNS := by decide
    refine absurd ((declaration_name hn).mpr (hb.2 h1).1) (not_declaration ?_)
    unfold IsXs
    rw [hw]
    exact ha.1

theorem relinked_lack {T : Element → Element → Prop} {x x' : Element} (hb : Before x) (h : Relinked T x x') (hl : Lackable x) : Lackable x' := by
  unfold Lackable at hl ⊢
  rcases relinked_iff.mp h with ⟨_, _, h2, _⟩ | ⟨h1, y, _, rfl⟩
  · rw [attrNamed_attrs h2]; exact hl
  · rw [attr_deref_set (hb.2 h1).2 (by rw [hl]; decide) (by decide)]; exact hl

theorem relinked_every {T : Element → Element → Prop} (hT : Leafy T) (x : Element) : Every Before x → ∀ {x'}, Relinked T x x' → Every (fun x => Settled x ∧ ¬ IsRef x) x' := by
  induction x using Element.ind with
  | hP n a s c ks ih =>
    intro hE x' h
    obtain ⟨hq, hks⟩ := every_iff.mp hE
    have hn := relinked_name hT h
    rcases relinked_iff.mp h with ⟨h1, h2, h3, h4, h5, h6⟩ | ⟨h1, y, h2, rfl⟩
    · simp only [Element.children] at h6
      have hkid : ∀ k' ∈ x'.children, ∃ k ∈ ks, Relinked T k k' := forall2_back h6
      refine every_iff.mpr ⟨⟨⟨?_, ?_, ?_, ?_, ?_⟩, ?_⟩, ?_⟩
      · intro ht
        rw [isXs_name hn, isXs_name hn] at ht
        rw [attrNamed_attrs h3]
        exact hq.1.typed ht
      · rintro ⟨k', g1, g2⟩
        obtain ⟨k, g3, g4⟩ := hkid k' g1
        exact hq.1.named ⟨k, g3, relinked_anon hT (every_iff.mp (hks k g3)).1 g4 g2⟩
      · intro hc s' hs'
        obtain ⟨s0, g3, g4⟩ := hkid s' hs'
        obtain ⟨c1, c2⟩ := hq.1.choices ((isXs_name hn).mp hc) s0 g3
        have hs0 := every_iff.mp (hks s0 g3)
        rw [isXs_name (relinked_name hT g4)]
        refine ⟨fun hseq z' hz' => ?_, fun hseq => relinked_lack hs0.1 g4 (c2 hseq)⟩
        rcases relinked_iff.mp g4 with ⟨_, _, _, _, _, k6⟩ | ⟨k1, _⟩
        · obtain ⟨z, g5, g6⟩ := forall2_back k6 z' hz'
          exact relinked_lack (every_iff.mp (hs0.2 z g5)).1 g6 (c1 hseq z g5)
        · have := (hs0.1.2 k1).1
          unfold Declaration IsXs at this
          unfold IsXs at hseq
          rw [hseq] at this
          simp at this
      · rintro ⟨g1, g2⟩
        refine hq.1.full ⟨by rw [← hn]; exact g1, fun k hk => ?_⟩
        obtain ⟨k', g3, g4⟩ := forall2_left h6 k hk
        rw [← relinked_name hT g4]
        exact g2 k' g3
      · intro k' hk'
        obtain ⟨k, g3, g4⟩ := hkid k' hk'
        rw [isXs_name (relinked_name hT g4), isXs_name (relinked_name hT g4)]
        exact hq.1.noGroup k g3
      · unfold IsRef at h1 ⊢
        rw [attrNamed_attrs h3]
        exact h1
      · intro k' hk'
        obtain ⟨k, g3, g4⟩ := hkid k' hk'
        exact ih k g3 (hks k g3) g4
    · obtain ⟨t1, t2, t3⟩ := hT h2 h1
      obtain ⟨b1, b2⟩ := hq.2 h1
      have hk : (deref (.mk n a s c ks) y).children = [] := t3
      have hd := (declaration_name hn).mpr b1
      refine every_iff.mpr ⟨⟨⟨?_, ?_, ?_, ?_, ?_⟩, ?_⟩, ?_⟩
      · intro ht
        rw [isXs_name hn, isXs_name hn] at ht
        rw [attr_deref_set b2 (hq.1.typed ht) (by decide)]
        exact hq.1.typed ht
      · rintro ⟨k, g1, _⟩
        rw [hk] at g1; cases g1
      · intro _ k g1
        rw [hk] at g1; cases g1
      · intro hsh
        have hw : w3cSchemaNS = schemaNS := by decide
        refine not_declaration (.inl ?_) hd
        unfold IsXs
        rw [hw]
        exact hsh.1
      · intro k g1
        rw [hk] at g1; cases g1
      · unfold IsRef
        rw [attr_deref_ref b2]
        exact t2
      · intro k g1
        rw [hk] at g1; cases g1

theorem relinked_depth {T : Element → Element → Prop} (hT : Leafy T) (x : Element) : ∀ {x'}, Relinked T x x' → depth x' ≤ depth x := by
  induction x using Element.ind with
  | hP n a s c ks ih =>
    intro x' h
    rcases relinked_iff.mp h with ⟨_, _, _, _, _, h6⟩ | ⟨h1, y, h2, rfl⟩
    · have : depths x'.children ≤ depths ks := depths_le fun k' hk' => by
        obtain ⟨k, g1, g2⟩ := forall2_back h6 k' hk'
        exact Nat.le_trans (ih k g1 g2) (depth_le_depths g1)
      cases x'
      simp only [depth]
      simp only [Element.children] at this
      omega
    · obtain ⟨_, _, t3⟩ := hT h2 h1
      unfold deref
      simp only [depth, t3, depths]
      omega

theorem docRelinked_depth {T : Element → Element → Prop} (hT : Leafy T) {t t' : Element} (h : DocRelinked T t t') : depth t' ≤ depth t := by
  have : depths t'.children ≤ depths t.children := depths_le fun k' hk' => by
    obtain ⟨k, g1, g2⟩ := forall2_back h.kids k' hk'
    exact Nat.le_trans (relinked_depth hT k g2) (depth_le_depths g1)
  cases t
  cases t'
  simp only [depth]
  simp only [Element.children] at this
  omega

theorem docRelinked_canonical {T : Element → Element → Prop} (hT : Leafy T) {t t' : Element} (hs : IsXs b!"schema" t) (hb : ∀ x ∈ below t, Before x)
    (h : DocRelinked T t t') : Canonical t' := by
  have hE := every_below.mp hb
  have : ∀ x ∈ below t', Settled x ∧ ¬ IsRef x := by
    rw [every_below]
    intro k' hk'
    obtain ⟨k, g1, g2⟩ := forall2_back h.kids k' hk'
    exact relinked_every hT k (hE k g1) g2
  exact canonical_settled ((isXs_name h.name).mpr hs) (fun x hx => (this x hx).1) fun x hx => (this x hx).2

theorem forall2_eq {α : Type} {R : α → α → Prop} {l m : List α} (h : List.Forall₂ R l m) (hs : ∀ x ∈ l, ∀ y, R x y → y = x) : m = l := by
  induction h with
  | nil => rfl
  | cons g1 _ ih => rw [hs _ (by simp) _ g1, ih fun x hx => hs x (by simp [hx])]

theorem relinked_same {T : Element → Element → Prop} (x : Element) : Every (fun x => ¬ IsRef x) x → ∀ {x'}, Relinked T x x' → x' = x := by
  induction x using Element.ind with
  | hP n a s c ks ih =>
    intro hE x' h
    obtain ⟨hq, hks⟩ := every_iff.mp hE
    rcases relinked_iff.mp h with ⟨_, h2, h3, h4, h5, h6⟩ | ⟨h1, _⟩
    · cases x' with
      | mk n' a' s' c' ks' =>
        simp only [Element.name, Element.attrs, Element.scope, Element.content, Element.children] at h2 h3 h4 h5 h6
        subst h2; subst h3; subst h4; subst h5
        congr 1
        exact forall2_eq h6 fun k hk k' hr => ih k hk (hks k hk) hr
    · exact absurd h1 hq

theorem docRelinked_same {T : Element → Element → Prop} {t t' : Element} (hn : ∀ x ∈ below t, ¬ IsRef x) (h : DocRelinked T t t') : t' = t := by
  have hE := every_below.mp hn
  obtain ⟨h1, h2, h3, h4, h5⟩ := h
  cases t
  cases t'
  simp only [Element.name, Element.attrs, Element.scope, Element.content, Element.children] at *
  subst h1; subst h2; subst h3; subst h4
  congr 1
  exact forall2_eq h5 fun k hk k' hr => relinked_same k (hE k hk) hr

/-! ### The whole -/

theorem linked_none {ts : List Element} (h : ∀ t ∈ ts, ∀ x ∈ below t, ¬ IsRef x) : Linked ts :=
  ⟨fun t ht x hx hr => absurd hr (h t ht x hx), fun t ht k hk => h t ht k (child_below hk), fun t ht x hx hr => absurd hr (h t ht x hx),
    fun t ht x hx hr => absurd hr (h t ht x hx)⟩

theorem readAll_forall2 {h : EHeap} {n : Nat} {roots : List Ptr} {ts : List Element} (hf : List.Forall₂ (Holds h) roots ts) :
    (∀ t ∈ ts, depth t ≤ n + 1) → readAll h n roots = some ts := by
  induction hf with
  | nil => intro _; rfl
  | cons h1 _ ih =>
    intro hd
    simp only [readAll, readPtr_holds h1 (hd _ (by simp)), ih fun x hx => hd x (by simp [hx])]

theorem normalize_linked (grow : Nat → Nat → Nat) (n : Nat) (docs : List Element) (hn : ∀ t ∈ docs, depth t ≤ n)
    (hap : ∀ t ∈ docs, SchemasApart t) (hd : ∀ t ∈ docs.flatMap schemasIn, Neat t ∧ 3 * depth t ≤ n) (L : Linked (docs.flatMap schemasIn)) :
    ∃ docs' out, List.Forall₂ FirstLoop (docs.flatMap schemasIn) docs' ∧ normalize grow n docs = some out ∧ Tied (finished docs' 0) ∧
      List.Forall₂ (DocRelinked (Target (finished docs' 0))) (finished docs' 0) out ∧ (∀ t ∈ out, Canonical t ∧ depth t ≤ n) ∧
      ∀ t ∈ finished docs' 0, ∀ x ∈ below t, Settled x := by
  obtain ⟨l1, l2, l3, l4⟩ := loadDocs_docs grow docs
  unfold normalize
  dsimp only
  rw [← l3]
  have hmem : ∀ d ∈ (loadDocs grow docs []).2.zip docs, d.2 ∈ docs := fun d hm => by rw [← l4]; exact List.mem_map.mpr ⟨d, hm, rfl⟩
  obtain ⟨D, q1, q2, q3⟩ := schemas_docs l1 (fun d hm => hn d.2 (hmem d hm)) fun d hm => hap d.2 (hmem d hm)
  rw [l4] at q2
  generalize (loadDocs grow docs []).1 = h at *
  have hdD : ∀ d ∈ D, Neat d.2 ∧ 3 * depth d.2 ≤ n := fun d hdm => hd d.2 (by rw [← q2]; exact List.mem_map.mpr ⟨d, hdm, rfl⟩)
  unfold normalizeH
  rw [q1, Option.bind_some]
  obtain ⟨h1, st1, D1, a1, a2, a3, a4⟩ := lifts_docs (defaultsAndNames_lifts (σ := Unit) grow n) (st := ()) l2 q3 (by
    intro d hm
    obtain ⟨g1, g2⟩ := hdD d hm
    obtain ⟨n1, _, n3, n4⟩ := neat_defaults g1
    exact ⟨by omega, by omega, by omega, tidy_of_neat n1⟩)
  rw [eachRoot_plain] at a1
  cases hr1 : eachRoot (defaultsAndNames grow n) (D.map (·.1)) h with
  | none => rw [hr1] at a1; cases a1
  | some h1' =>
    rw [hr1] at a1
    simp only [Option.map_some, Option.some.injEq, Prod.mk.injEq] at a1
    obtain ⟨rfl, _⟩ := a1
    rw [Option.bind_some]
    have hd1 : ∀ d ∈ D1, Ready d.2 ∧ 3 * depth d.2 ≤ n := by
      intro d hm
      obtain ⟨d0, g1, _, _, g2, _⟩ := chain_right a2 d hm
      obtain ⟨g3, g4⟩ := hdD d0 g1
      obtain ⟨g5, g6⟩ := first_ready g3 g2
      exact ⟨g5, by omega⟩
    obtain ⟨h2, k2, D2, b1, b2, b3, b4⟩ := lifts_docs (namesAndChoices_lifts grow n) (st := 0) a3 a4 (by
      intro d hm
      obtain ⟨g1, g2⟩ := hd1 d hm
      refine ⟨tidy_of_neat g1.neat, holders_of_neat g1.neat, by omega, fun k => ?_⟩
      have := hoistRoot_depth (P := numbered (d.2.attr [] b!"targetNamespace")) d.2 k
      omega)
    rw [a2.roots] at b1
    rw [b1, Option.bind_some]
    have hd2 : ∀ d ∈ D2, Neat d.2 ∧ (∀ x ∈ below d.2, Nearly x) ∧ 3 * depth d.2 ≤ n := by
      intro d hm
      obtain ⟨d0, g1, s, s', g2, _⟩ := chain_right b2 d hm
      obtain ⟨g3, g4⟩ := hd1 d0 g1
      obtain ⟨g5, g6, g7⟩ := second_ready g3 s
      rw [g2]
      exact ⟨g5, g6, by omega⟩
    obtain ⟨h3, c1, c0, c2⟩ := expand_docs grow (n := n) b3 b4 (fun d hm => by have := (hd2 d hm).2.2; omega) fun d hm => noNested_of_neat (hd2 d hm).1
    rw [b2.roots, a2.roots] at c1
    dsimp only
    rw [c1, Option.bind_some]
    have hfin := chain_second b2
    have hfin : (D2.map fun d => expandBelow d.2) = finished (D1.map (·.2)) 0 := chain_second b2
    have hfirst : List.Forall₂ FirstLoop (docs.flatMap schemasIn) (D1.map (·.2)) := by
      rw [← q2]
      exact chain_first a2
    have hneat : ∀ t ∈ docs.flatMap schemasIn, Neat t := fun t ht => (hd t ht).1
    have hset : ∀ t ∈ finished (D1.map (·.2)) 0, IsXs b!"schema" t ∧ (∀ x ∈ below t, Settled x) ∧ depth t ≤ n := by
      rw [← hfin]
      intro t ht
      obtain ⟨d, hm, rfl⟩ := List.mem_map.mp ht
      obtain ⟨g1, g2, g3⟩ := hd2 d hm
      have := expandBelow_depth d.2
      exact ⟨(isXs_name (expandBelow_name d.2)).mpr g1.schema, settled_expand g2, by omega⟩
    have hT := tied_finished L hfirst hneat fun t ht x hx => ((hset t ht).2.1 x hx).named
    have hroots : D.map (·.1) = D2.map (·.1) := by rw [← a2.roots, ← b2.roots]
    have hF : List.Forall₂ (Holds h3) (D.map (·.1)) (finished (D1.map (·.2)) 0) := by
      rw [hroots, ← hfin]
      clear * - c2
      induction D2 with
      | nil => exact .nil
      | cons d D2 ih => exact .cons (c2 d (by simp)) (ih fun d hd => c2 d (by simp [hd]))
    obtain ⟨h4, out, e1, e2, e3⟩ := relink c0 hF (fun t ht => (hset t ht).2.2) (fun t ht hdc => by
      have := (hset t ht).1
      unfold Declaration IsXs at hdc
      unfold IsXs at this
      rw [this] at hdc
      simp at hdc) hT
    have hleafy := target_leafy hT
    have hcan : ∀ t ∈ out, Canonical t ∧ depth t ≤ n := by
      intro t' ht'
      obtain ⟨t, ht, hr⟩ := forall2_back e3 t' ht'
      obtain ⟨s1, s2, s3⟩ := hset t ht
      exact ⟨docRelinked_canonical hleafy s1 (fun x hx => ⟨s2 x hx, hT.decl t ht x hx⟩) hr, Nat.le_trans (docRelinked_depth hleafy hr) s3⟩
    have hflat : flattenRef n h3 (D.map (·.1)) = .ok h4 := by
      unfold flattenRef
      rw [e1]
      simp only
      rw [unpackAll_same]
      intro r hm
      obtain ⟨t, g1, g2⟩ := forall2_left e2 r hm
      exact ⟨unpack_same g2 (hcan t g1).2 (hcan t g1).1, no_cycle g2 (hcan t g1).2⟩
    rw [hflat]
    refine ⟨D1.map (·.2), out, hfirst, ?_, hT, e3, hcan, fun t ht => (hset t ht).2.1⟩
    dsimp only
    rw [Option.bind_some]
    exact readAll_forall2 e2 fun t ht => by have := (hcan t ht).2; omega

theorem finished_plain {docs docs' : List Element} (hnr : ∀ t ∈ docs, ∀ x ∈ below t, ¬ IsRef x) (h : List.Forall₂ FirstLoop docs docs') (hd : ∀ t ∈ docs, Neat t) :
    ∀ t ∈ finished docs' 0, ∀ x ∈ below t, ¬ IsRef x := by
  intro t ht x hx hr
  have L := linked_none hnr
  obtain ⟨_, _, t0, ht0, x0, hx0, h1, _⟩ := ((linkDoc_finished (wanted_kind L) h (fun t ht => ⟨hd t ht, linkDoc_start L t ht⟩) 0 t ht).each x hx).ref hr
  exact hnr t0 ht0 x0 hx0 h1

theorem normalize_neat (grow : Nat → Nat → Nat) (n : Nat) (docs : List Element) (hn : ∀ t ∈ docs, depth t ≤ n)
    (hap : ∀ t ∈ docs, SchemasApart t) (hd : ∀ t ∈ docs.flatMap schemasIn, Neat t ∧ 3 * depth t ≤ n)
    (hnr : ∀ t ∈ docs.flatMap schemasIn, ∀ x ∈ below t, ¬ IsRef x) :
    ∃ docs', List.Forall₂ FirstLoop (docs.flatMap schemasIn) docs' ∧ normalize grow n docs = some (finished docs' 0) ∧ ∀ t ∈ finished docs' 0, Canonical t ∧ depth t ≤ n := by
  obtain ⟨docs', out, h1, h2, _, h4, h5, _⟩ := normalize_linked grow n docs hn hap hd (linked_none hnr)
  have hp := finished_plain hnr h1 fun t ht => (hd t ht).1
  have : out = finished docs' 0 := forall2_eq h4 fun t ht t' hr => docRelinked_same (hp t ht) hr
  subst this
  exact ⟨docs', h1, h2, h5⟩

theorem survives_relinked {T : Element → Element → Prop} {t t' : Element} (htop : ∀ k ∈ t.children, ¬ IsRef k) (h : DocRelinked T t t') : Survives t t' := by
  refine ⟨h.name, attrNamed_attrs h.attrs _, t'.children, [], by simp, ?_, by simp⟩
  have hk := h.kids
  generalize t'.children = ks' at hk
  generalize t.children = ks at hk htop
  induction hk with
  | nil => exact .nil
  | cons g1 _ ih =>
    refine .cons ?_ (ih fun k hk => htop k (by simp [hk]))
    rcases relinked_iff.mp g1 with ⟨_, h2, h3, _⟩ | ⟨h1, _⟩
    · exact ⟨h2, attrNamed_attrs h3 _⟩
    · exact absurd h1 (htop _ (by simp))

theorem survives_all {ts us out : List Element} {T : Element → Element → Prop} (h : List.Forall₂ Survives ts us) (hr : List.Forall₂ (DocRelinked T) us out) :
    (∀ t ∈ us, ∀ k ∈ t.children, ¬ IsRef k) → List.Forall₂ Survives ts out := by
  induction h generalizing out with
  | nil => intro _; cases hr; exact .nil
  | cons h1 _ ih =>
    intro htop
    cases hr with
    | cons g1 g2 => exact .cons (h1.trans (survives_relinked (htop _ (by simp)) g1)) (ih g2 fun t ht => htop t (by simp [ht]))

end GoXml.Xsd
