import Verif.Proofs.XsdNormal
import Verif.Proofs.XsdRelink
set_option autoImplicit false

/-! Lemmas: the passes of `Normalize` before `flattenRef` keep references in order. -/

namespace GoXml.Xsd
open Wsdl

/-! ### One element -/

/-- What is asked of references and of what they refer to; `K` holds of the names and kinds that are referred to. -/
structure LinkAt (K : XName → XName → Prop) (tns : Str) (x : Element) : Prop where
  ref : IsRef x → Declaration x ∧ PlainAttrs x ∧ K (refersTo x b!"ref") x.name
  leaf : attrNamed x b!"name" ≠ [] → K (defines tns x) x.name → ¬ IsRef x ∧ ∀ k ∈ x.children, AnonType k

theorem declaration_name {x x' : Element} (h : x'.name = x.name) : Declaration x' ↔ Declaration x := by
  unfold Declaration IsXs
  rw [h]

theorem linkAt_keep {K : XName → XName → Prop} {tns : Str} {x x' : Element} (h : LinkAt K tns x) (hn : x'.name = x.name) (hs : x'.scope = x.scope)
    (ha : attrNamed x' b!"name" = attrNamed x b!"name") (hr : attrNamed x' b!"ref" = attrNamed x b!"ref") (hp : PlainAttrs x → PlainAttrs x')
    (hk : ∀ k' ∈ x'.children, ∃ k ∈ x.children, AnonType k → AnonType k') : LinkAt K tns x' where
  ref hh := by
    unfold IsRef at hh
    rw [hr] at hh
    obtain ⟨h1, h2, h3⟩ := h.ref hh
    refine ⟨(declaration_name hn).mpr h1, hp h2, ?_⟩
    unfold refersTo at h3 ⊢
    rw [hs, hr, hn]
    exact h3
  leaf h1 h2 := by
    have hd : defines tns x' = defines tns x := by
      unfold defines
      rw [ha, hs]
    rw [ha] at h1
    rw [hd, hn] at h2
    obtain ⟨h3, h4⟩ := h.leaf h1 h2
    unfold IsRef at h3 ⊢
    rw [hr]
    refine ⟨h3, fun k' hk' => ?_⟩
    obtain ⟨k, g1, g2⟩ := hk k' hk'
    exact g2 (h4 k g1)

theorem plain_attrSet {n n' : XName} {a : List Attr} {s s' : Scope} {c c' : Str} {ks ks' : List Element} {l v : Str} (h : PlainAttrs (.mk n a s c ks)) :
    PlainAttrs (.mk n' (attrSet [] l v a) s' c' ks') := by
  obtain ⟨h1, h2⟩ := h
  simp only [Element.attrs] at h1 h2
  have key : (∀ b ∈ attrSet [] l v a, b.name.space = []) ∧ ((attrSet [] l v a).map (·.name.loc) = a.map (·.name.loc) ∨
      (attrSet [] l v a).map (·.name.loc) = a.map (·.name.loc) ++ [l] ∧ l ∉ a.map (·.name.loc)) := by
    clear h2
    induction a with
    | nil => simp [attrSet]
    | cons b bs ih =>
      rw [attrSet]
      by_cases hb : b.name.loc ≠ l
      · rw [if_pos hb]
        obtain ⟨i1, i2⟩ := ih fun b hb => h1 b (by simp [hb])
        refine ⟨?_, ?_⟩
        · intro d hd
          rcases List.mem_cons.mp hd with rfl | hd
          · exact h1 _ (by simp)
          · exact i1 d hd
        · rcases i2 with i2 | ⟨i2, i3⟩
          · left; simp [i2]
          · right
            refine ⟨by simp [i2], ?_⟩
            intro hm
            rcases List.mem_cons.mp hm with hm | hm
            · exact hb hm.symm
            · exact i3 hm
      · rw [if_neg hb, if_pos (.inl rfl)]
        refine ⟨?_, .inl rfl⟩
        intro d hd
        rcases List.mem_cons.mp hd with rfl | hd
        · exact h1 b (by simp)
        · exact h1 d (by simp [hd])
  refine ⟨key.1, ?_⟩
  simp only [Element.attrs]
  rcases key.2 with h | ⟨h, hn⟩
  · rw [h]; exact h2
  · rw [h, List.nodup_append]
    refine ⟨h2, by simp, ?_⟩
    intro b hb d hd
    rw [List.mem_singleton.mp hd]
    rintro rfl
    exact hn hb

/-! ### Schemas -/

structure LinkDoc (K : XName → XName → Prop) (t : Element) : Prop where
  each : ∀ x ∈ below t, LinkAt K (attrNamed t b!"targetNamespace") x
  top : ∀ k ∈ t.children, ¬ IsRef k

theorem linkDoc_setAttrs {K : XName → XName → Prop} {l : Str} (hl : l ≠ b!"name") (hr : l ≠ b!"ref") (ht : l ≠ b!"targetNamespace") {value : Scope → Str} {t : Element}
    {ps : List (List Nat)} (h : LinkDoc K t) : LinkDoc K (setAttrs l value t ps) := by
  have ha := alike_setAttrs l value t ps
  refine ⟨?_, ?_⟩
  · intro x' hx'
    obtain ⟨p, x, _, h1, h2, h3, h4⟩ := ha.below hx'
    rw [ha.root.2.2.2 _ (Ne.symm ht)]
    refine linkAt_keep (h.each x h3) h4.root.1 h4.root.2.1 (h4.root.2.2.2 _ (Ne.symm hl)) (h4.root.2.2.2 _ (Ne.symm hr)) ?_ ?_
    · intro hp
      rcases setAttrs_at l value t ps p with ⟨g, _⟩ | ⟨e, e', g1, g2, _, _, _, _, g7⟩
      · rw [h1] at g; cases g
      · rw [h1] at g1; cases g1
        rw [h2] at g2; cases g2
        cases x with
        | mk n a s c ks =>
          have : PlainAttrs (.mk n x'.attrs s c ks) := by
            rw [g7]
            split
            · exact plain_attrSet hp
            · exact hp
          exact this
    · intro k' hk'
      obtain ⟨k, g1, g2⟩ := like_left (h4.likes hl) hk'
      exact ⟨k, g1, g2.anon.mpr⟩
  · intro k' hk' hh
    obtain ⟨k, g1, g2⟩ := forall2_back ha.kids k' hk'
    refine h.top k g1 ?_
    unfold IsRef at hh ⊢
    rw [← g2.root.2.2.2 _ (Ne.symm hr)]
    exact hh

/-! ### Moving types -/

theorem keep_link {K : XName → XName → Prop} {tns : Str} (n : XName) (a : List Attr) (s : Scope) (c : Str) (ks ks' : List Element)
    (h : Kept tns (.mk n a s c ks) ∧ LinkAt K tns (.mk n a s c ks)) (hk : List.Forall₂ Like ks ks') : Kept tns (.mk n a s c ks') ∧ LinkAt K tns (.mk n a s c ks') :=
  ⟨keep_kept n a s c ks ks' h.1 hk, linkAt_keep h.2 rfl rfl rfl rfl (fun hp => hp) fun k' hk' => by
    obtain ⟨k, g1, g2⟩ := like_left hk hk'
    exact ⟨k, g1, g2.anon.mpr⟩⟩

theorem not_declaration {x : Element} (h : IsXs b!"complexType" x ∨ IsXs b!"simpleType" x) : ¬ Declaration x := by
  unfold Declaration IsXs
  rcases h with h | h <;> (unfold IsXs at h; rw [h]; decide)

theorem Namer.mv_link {K : XName → XName → Prop} {σ : Type} {tns : Str} {P : Plan σ} (N : Namer tns P) (n : XName) (a : List Attr) (s : Scope) (c : Str)
    (ks ks' : List Element) (st : σ) (i : Nat) (m : Move) (hK : ∀ q k, K q k → k = ⟨w3cSchemaNS, b!"element"⟩ ∨ k = ⟨w3cSchemaNS, b!"attribute"⟩)
    (h : Kept tns (.mk n a s c ks) ∧ LinkAt K tns (.mk n a s c ks)) (hk : List.Forall₂ Like ks ks') (hp : P.pick (.mk n a s c ks) = some i)
    (hm : (P.move st (.mk n a s c ks)).2 = some m) :
    m.attr ≠ b!"name" ∧ (Kept tns (.mk n (attrSet [] m.attr m.value a) s [] (ks'.eraseIdx i)) ∧ LinkAt K tns (.mk n (attrSet [] m.attr m.value a) s [] (ks'.eraseIdx i))) ∧
        ∀ k, ks'[i]? = some k → Kept tns k ∧ LinkAt K tns k → (Kept tns (withAttrs m.rename k) ∧ LinkAt K tns (withAttrs m.rename k)) ∧ ¬ HasAnon k := by
  obtain ⟨m1, m2, m3⟩ := N.mv n a s c ks ks' st i m h.1 hk hp hm
  obtain ⟨hc, hh⟩ := pick_anon (P := P) (t := .mk n a s c ks) (by rw [hp]; simp)
  obtain ⟨_, r2, _⟩ := N.attr h.1.1 hh hc hm
  refine ⟨m1, ⟨m2, ?_⟩, ?_⟩
  · refine linkAt_keep h.2 rfl rfl (attrNamed_other (Ne.symm m1)) (attrNamed_other (Ne.symm r2)) plain_attrSet ?_
    intro k' hk'
    obtain ⟨k, g1, g2⟩ := like_left hk (List.mem_of_mem_eraseIdx hk')
    exact ⟨k, g1, g2.anon.mpr⟩
  · intro k hki hkk
    obtain ⟨q1, q2⟩ := m3 k hki hkk.1
    refine ⟨⟨q1, ?_⟩, q2⟩
    obtain ⟨k0, hk0, ha0⟩ := pick_at hp
    obtain ⟨k0', e1, e2⟩ := like_at hk hki
    simp only [Element.children] at hk0
    rw [hk0] at e1
    cases e1
    have hw : w3cSchemaNS = schemaNS := by decide
    have hnd : ¬ Declaration k := by
      apply not_declaration
      unfold IsXs
      rw [hw]
      exact (e2.anon.mpr ha0).1
    have hnr : ¬ IsRef k := fun hr => hnd (hkk.2.ref hr).1
    cases k with
    | mk n1 a1 s1 c1 ks1 =>
      have hat : attrNamed (withAttrs m.rename (.mk n1 a1 s1 c1 ks1)) b!"ref" = attrNamed (.mk n1 a1 s1 c1 ks1) b!"ref" := by
        rw [← Wsdl.attr_eq, ← Wsdl.attr_eq]
        exact N.other hm a1 _ (.inr rfl)
      refine ⟨fun hr => absurd ?_ hnr, fun _ hkk => absurd (hK _ _ hkk) ?_⟩
      · unfold IsRef at hr ⊢
        rw [← hat]
        exact hr
      · exact hnd

theorem hoistAll_link {K : XName → XName → Prop} (hK : ∀ q k, K q k → k = ⟨w3cSchemaNS, b!"element"⟩ ∨ k = ⟨w3cSchemaNS, b!"attribute"⟩)
    {σ : Type} {tns : Str} {P : Plan σ} (N : Namer tns P) (ks : List Element) : ∀ st, (∀ k ∈ ks, Every (fun x => Kept tns x ∧ LinkAt K tns x) k) →
    (∀ k ∈ (hoistAll P ks st).1, Every (fun x => Kept tns x ∧ LinkAt K tns x) k) ∧
      ∀ y ∈ (hoistAll P ks st).2.1, Every (fun x => Kept tns x ∧ LinkAt K tns x) y := by
  induction ks with
  | nil => intro st _; rw [hoistAll]; exact ⟨by simp, by simp⟩
  | cons j js ih =>
    intro st hjs
    obtain ⟨i1, i2, i3⟩ := hoist_every (P := P) (Q := fun x => Kept tns x ∧ LinkAt K tns x) keep_link
      (fun n a s c ks ks' st i m => N.mv_link n a s c ks ks' st i m hK) j st (hjs j (by simp))
    obtain ⟨j1, j3⟩ := ih (hoist P j st).2.2 fun k hk => hjs k (by simp [hk])
    rw [hoistAll]
    refine ⟨?_, ?_⟩
    · intro k hk
      rcases List.mem_cons.mp hk with rfl | hk
      · exact i1
      · exact j1 k hk
    · intro y hy
      rcases List.mem_append.mp hy with hy | hy
      · exact (i3 y hy).1
      · exact j3 y hy

theorem hoist_top {σ : Type} {P : Plan σ} (ks : List Element) (htop : ∀ k ∈ ks, ¬ HasAnon k) : ∀ st, (hoistAll P ks st).1.map (·.attrs) = ks.map (·.attrs) := by
  induction ks with
  | nil => intro st; rw [hoistAll]
  | cons k ks ih =>
    intro st
    rw [hoistAll]
    have hp : P.pick k = none := by
      by_contra hc
      exact htop k (by simp) (pick_anon hc).2
    have : (hoist P k st).1.attrs = k.attrs := by cases k; rw [hoist, hp]; rfl
    simp [this, ih fun j hj => htop j (by simp [hj])]

theorem linkDoc_hoist {K : XName → XName → Prop} (hK : ∀ q k, K q k → k = ⟨w3cSchemaNS, b!"element"⟩ ∨ k = ⟨w3cSchemaNS, b!"attribute"⟩)
    {σ : Type} {P : Plan σ} {t : Element} (N : Namer (attrNamed t b!"targetNamespace") P) (hr : Ready t) (h : LinkDoc K t) (st : σ) : LinkDoc K (hoistRoot P t st).1 := by
  have hk : ∀ k ∈ t.children, Every (fun x => Kept (attrNamed t b!"targetNamespace") x ∧ LinkAt K (attrNamed t b!"targetNamespace") x) k :=
    every_below.mp fun x hx => ⟨⟨hr.neat.each x hx, hr.typed x hx⟩, h.each x hx⟩
  obtain ⟨h1, h2⟩ := hoistAll_link hK N t.children st hk
  have htop := hr.neat.top
  have hnr := h.top
  cases t with
  | mk n a s c ks =>
    simp only [Element.children] at h1 h2 htop hnr
    have hE : ∀ x ∈ below (hoistRoot P (.mk n a s c ks) st).1, Kept (attrNamed (.mk n a s c ks) b!"targetNamespace") x ∧ LinkAt K (attrNamed (.mk n a s c ks) b!"targetNamespace") x := by
      rw [every_below]
      intro k hk
      rw [hoistRoot] at hk
      rcases List.mem_append.mp hk with hk | hk
      · exact h1 k hk
      · exact h2 k hk
    refine ⟨fun x hx => (hE x hx).2, ?_⟩
    intro k hk hh
    have hk' := hk
    rw [hoistRoot] at hk
    rcases List.mem_append.mp hk with hk | hk
    · have hm : k.attrs ∈ (hoistAll P ks st).1.map (·.attrs) := List.mem_map.mpr ⟨k, hk, rfl⟩
      rw [hoist_top ks htop] at hm
      obtain ⟨k0, g1, g2⟩ := List.mem_map.mp hm
      refine hnr k0 g1 ?_
      unfold IsRef at hh ⊢
      rw [attrNamed_attrs g2]
      exact hh
    · have := (hoistAll_types ks (fun k _ => hoist_types k) st).2 k hk
      exact not_declaration this ((hE k (child_below hk')).2.ref hh).1

/-! ### Explicit content -/

theorem linkAt_wrap {K : XName → XName → Prop} (hK : ∀ q k, K q k → k = ⟨w3cSchemaNS, b!"element"⟩ ∨ k = ⟨w3cSchemaNS, b!"attribute"⟩) {tns : Str} {x : Element}
    (hd : ¬ Declaration x) (hr : ¬ IsRef x) : LinkAt K tns x :=
  ⟨fun hh => absurd hh hr, fun _ hk => absurd (hK _ _ hk) hd⟩

theorem expandTree_scope (t : Element) : (expandTree t).scope = t.scope := by
  cases t
  rw [expandTree_eq]
  split <;> rfl

theorem link_expand {K : XName → XName → Prop} (hK : ∀ q k, K q k → k = ⟨w3cSchemaNS, b!"element"⟩ ∨ k = ⟨w3cSchemaNS, b!"attribute"⟩) {tns : Str} (t : Element) :
    Every (LinkAt K tns) t → Every (LinkAt K tns) (expandTree t) := by
  induction t using Element.ind with
  | hP n a s c ks ih =>
    intro ht
    obtain ⟨hq, hks⟩ := every_iff.mp ht
    have hE : ∀ k' ∈ ks.map expandTree, Every (LinkAt K tns) k' := by
      intro k' hk'
      obtain ⟨k, h1, rfl⟩ := List.mem_map.mp hk'
      exact ih k h1 (hks k h1)
    by_cases hsh : Shorthand (.mk n a s c ks)
    · rw [expandTree_eq, if_pos hsh]
      have hn : n = ⟨schemaNS, b!"complexType"⟩ := hsh.1
      subst hn
      simp only [expandBelow, canonical]
      have hR : Every (LinkAt K tns) (.mk ⟨schemaNS, b!"restriction"⟩ [⟨⟨[], b!"base"⟩, prefixOf s ⟨schemaNS, b!"anyType"⟩⟩] s [] ((ks.map expandTree).filter BelongsToContent)) := by
        refine every_iff.mpr ⟨linkAt_wrap hK ?_ ?_, fun k hk => hE k (List.mem_filter.mp hk).1⟩
        · unfold Declaration IsXs; simp [Element.name]
        · unfold IsRef attrNamed; simp [Element.attrs]
      have hC : Every (LinkAt K tns) (.mk ⟨schemaNS, b!"complexContent"⟩ [] s []
          [.mk ⟨schemaNS, b!"restriction"⟩ [⟨⟨[], b!"base"⟩, prefixOf s ⟨schemaNS, b!"anyType"⟩⟩] s [] ((ks.map expandTree).filter BelongsToContent)]) := by
        refine every_iff.mpr ⟨linkAt_wrap hK ?_ ?_, fun k hk => by rw [List.mem_singleton.mp hk]; exact hR⟩
        · unfold Declaration IsXs; simp [Element.name]
        · unfold IsRef attrNamed; simp [Element.attrs]
      have hnd : ∀ cs, ¬ Declaration (.mk ⟨schemaNS, b!"complexType"⟩ a s c cs) := by
        intro cs; unfold Declaration IsXs; simp [Element.name]
      refine every_iff.mpr ⟨linkAt_wrap hK (by unfold Declaration IsXs; simp [Element.name]) fun hr => hnd ks (hq.ref hr).1, ?_⟩
      intro k hk
      rcases List.mem_append.mp hk with h1 | h1
      · exact hE k (List.mem_filter.mp h1).1
      · rw [List.mem_singleton.mp h1]; exact hC
    · rw [expandTree_eq, if_neg hsh]
      simp only [expandBelow]
      refine every_iff.mpr ⟨linkAt_keep hq rfl rfl rfl rfl (fun h => h) ?_, hE⟩
      intro k' hk'
      obtain ⟨k, h1, rfl⟩ := List.mem_map.mp hk'
      exact ⟨k, h1, (anon_expand k).mpr⟩

theorem linkDoc_expand {K : XName → XName → Prop} (hK : ∀ q k, K q k → k = ⟨w3cSchemaNS, b!"element"⟩ ∨ k = ⟨w3cSchemaNS, b!"attribute"⟩) {t : Element} (h : LinkDoc K t) :
    LinkDoc K (expandBelow t) := by
  have hk := every_below.mp h.each
  have htop := h.top
  cases t with
  | mk n a s c ks =>
    refine ⟨every_below.mpr ?_, ?_⟩
    · intro k' hk'
      obtain ⟨k, h1, rfl⟩ := List.mem_map.mp hk'
      exact link_expand hK k (hk k h1)
    · intro k' hk' hh
      obtain ⟨k, h1, rfl⟩ := List.mem_map.mp hk'
      refine htop k h1 ?_
      unfold IsRef at hh ⊢
      rw [← attrNamed_attrs (expandTree_attrs k)]
      exact hh

/-! ### All passes -/

/-- The names and kinds referred to. -/
def Wanted (ts : List Element) (q kind : XName) : Prop := ∃ t ∈ ts, ∃ x ∈ below t, IsRef x ∧ refersTo x b!"ref" = q ∧ x.name = kind

theorem wanted_kind {ts : List Element} (L : Linked ts) : ∀ q k, Wanted ts q k → k = ⟨w3cSchemaNS, b!"element"⟩ ∨ k = ⟨w3cSchemaNS, b!"attribute"⟩ := by
  rintro q k ⟨t, ht, x, hx, hr, _, rfl⟩
  exact (L.decl t ht x hx hr).1

theorem linkDoc_start {ts : List Element} (L : Linked ts) : ∀ t ∈ ts, LinkDoc (Wanted ts) t := by
  intro t ht
  refine ⟨fun y hy => ⟨fun hr => ⟨(L.decl t ht y hy hr).1, (L.decl t ht y hy hr).2, t, ht, y, hy, hr, rfl, rfl⟩, ?_⟩, L.top t ht⟩
  rintro hn ⟨s, hs, x, hx, h1, h2, h3⟩
  exact L.leaf s hs x hx h1 t ht y hy ⟨h3.symm, hn, h2.symm⟩

theorem linkDoc_first {K : XName → XName → Prop} (hK : ∀ q k, K q k → k = ⟨w3cSchemaNS, b!"element"⟩ ∨ k = ⟨w3cSchemaNS, b!"attribute"⟩) {t t' : Element}
    (hn : Neat t) (h : LinkDoc K t) (hf : FirstLoop t t') : LinkDoc K t' := by
  obtain ⟨n1, n2, _, _⟩ := neat_defaults hn
  have l1 : LinkDoc K (attributeDefaultType t) := linkDoc_setAttrs (by decide) (by decide) (by decide) h
  have l2 : LinkDoc K (elementDefaultType (attributeDefaultType t)) := linkDoc_setAttrs (by decide) (by decide) (by decide) l1
  obtain ⟨used, _, rfl⟩ := hf
  exact linkDoc_hoist hK (by rw [← Wsdl.attr_eq]; exact byElement_namer _) ⟨n1, n2⟩ l2 used

theorem linkDoc_second {K : XName → XName → Prop} (hK : ∀ q k, K q k → k = ⟨w3cSchemaNS, b!"element"⟩ ∨ k = ⟨w3cSchemaNS, b!"attribute"⟩) {t : Element}
    (hn : Ready t) (h : LinkDoc K t) (k : Nat) : LinkDoc K (expandBelow (setChoicesOptional (hoistRoot (numbered (t.attr [] b!"targetNamespace")) t k).1)) :=
  linkDoc_expand hK (linkDoc_setAttrs (by decide) (by decide) (by decide) (linkDoc_hoist hK (by rw [← Wsdl.attr_eq]; exact numbered_namer _) hn h k))

theorem linkDoc_finished {K : XName → XName → Prop} (hK : ∀ q k, K q k → k = ⟨w3cSchemaNS, b!"element"⟩ ∨ k = ⟨w3cSchemaNS, b!"attribute"⟩) {docs docs' : List Element}
    (h : List.Forall₂ FirstLoop docs docs') (hd : ∀ t ∈ docs, Neat t ∧ LinkDoc K t) : ∀ k, ∀ t ∈ finished docs' k, LinkDoc K t := by
  induction h with
  | nil => intro k t ht; cases ht
  | @cons t t' ts ts' h1 _ ih =>
    intro k u hu
    rw [finished] at hu
    obtain ⟨g1, g2⟩ := hd t (by simp)
    rcases List.mem_cons.mp hu with rfl | hu
    · exact linkDoc_second hK (first_ready g1 h1).1 (linkDoc_first hK g1 g2 h1) k
    · exact ih (fun x hx => hd x (by simp [hx])) _ u hu

theorem finds_survives {ts us : List Element} (h : List.Forall₂ Survives ts us) {x x' : Element} (hf : Finds ts x) (hn : x'.name = x.name)
    (hr : refersTo x' b!"ref" = refersTo x b!"ref") : ∃ s ∈ us, ∃ y ∈ below s, Meets (attrNamed s b!"targetNamespace") x' y := by
  obtain ⟨s, hs, h1, y, hy, h2, h3, h4, h5⟩ := hf
  obtain ⟨u, hu, hsu⟩ := forall2_left h s hs
  obtain ⟨old, new, g1, g2, _⟩ := hsu.decls
  obtain ⟨y', hy', k1, k2⟩ := forall2_left g2 y hy
  refine ⟨u, hu, y', child_below (by rw [g1]; simp [hy']), ?_, by rw [k2]; exact h4, ?_⟩
  · rw [k1, h3, hn]
  · rw [hr, ← h5]
    unfold defines
    rw [k2, hsu.tns, if_pos ⟨h1, h2⟩, if_pos ⟨h1, h2⟩]

/-- The schemas on which `flattenRef` works. -/
theorem tied_finished {docs docs' : List Element} (L : Linked docs) (h : List.Forall₂ FirstLoop docs docs') (hd : ∀ t ∈ docs, Neat t)
    (hno : ∀ t ∈ finished docs' 0, ∀ x ∈ below t, ¬ HasAnon x) : Tied (finished docs' 0) := by
  have hK := wanted_kind L
  have hl := linkDoc_finished hK h (fun t ht => ⟨hd t ht, linkDoc_start L t ht⟩) 0
  have hs := survives_finished h hd 0
  refine ⟨?_, ?_, ?_⟩
  · intro t ht x hx hr
    obtain ⟨h1, h2, _⟩ := ((hl t ht).each x hx).ref hr
    exact ⟨h1, h2⟩
  · intro t ht x hx hr
    obtain ⟨_, _, t0, ht0, x0, hx0, h1, h2, h3⟩ := ((hl t ht).each x hx).ref hr
    exact finds_survives hs (L.found t0 ht0 x0 hx0 h1) h3.symm h2.symm
  · intro t ht x hx hr s hsf y hy ⟨m1, m2, m3⟩
    obtain ⟨_, _, hw⟩ := ((hl t ht).each x hx).ref hr
    rw [← m3, ← m1] at hw
    obtain ⟨h1, h2⟩ := ((hl s hsf).each y hy).leaf m2 hw
    refine ⟨h1, ?_⟩
    cases hc : y.children with
    | nil => rfl
    | cons k ks => exact absurd ⟨k, by rw [hc]; simp, h2 k (by rw [hc]; simp)⟩ (hno s hsf y hy)

theorem top_finished {docs docs' : List Element} (L : Linked docs) (h : List.Forall₂ FirstLoop docs docs') (hd : ∀ t ∈ docs, Neat t) :
    ∀ t ∈ finished docs' 0, ∀ k ∈ t.children, ¬ IsRef k := fun t ht =>
  (linkDoc_finished (wanted_kind L) h (fun t ht => ⟨hd t ht, linkDoc_start L t ht⟩) 0 t ht).top

end GoXml.Xsd
