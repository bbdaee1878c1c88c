import Verif.Proofs.XsdTree
import Verif.Spec.Xsd
set_option autoImplicit false

/-! Properties C28-C30: imports, default types and choices. -/

namespace GoXml.Xsd

/-! ### C28 -/

theorem docBefore_append {p q : List Nat} (h : DocBefore p q) (hn : ¬ ∃ r, q = p ++ r) (a b : List Nat) :
    DocBefore (p ++ a) (q ++ b) := by
  cases h with
  | ancestor i q => exact absurd ⟨_, rfl⟩ hn
  | sibling p i j q r hij =>
    simpa using DocBefore.sibling p i j (q ++ a) (r ++ b) hij

theorem at?_append (p q : List Nat) : ∀ e : Element, e.at? (p ++ q) = (e.at? p).bind fun x => x.at? q := by
  induction p with
  | nil => intro e; simp [Element.at?]
  | cons j p ih =>
    intro e
    simp only [List.cons_append, Element.at?]
    cases e.children[j]? with
    | none => rfl
    | some k => exact ih k

theorem docList_search (root : Element) (loc : Str) :
    DocList root (fun _ e => IsXs loc e) (root.search schemaNS loc) := by
  obtain ⟨h1, h2⟩ := C12_search root schemaNS loc
  refine ⟨fun p e => ?_, h2⟩
  rw [h1]
  have hs : schemaNS ≠ [] := by decide
  have : (e.name.loc = loc ∧ (schemaNS = [] ∨ e.name.space = schemaNS)) ↔ IsXs loc e := by
    unfold IsXs
    have : w3cSchemaNS = schemaNS := by decide
    rw [this]
    obtain ⟨⟨sp, lo⟩, a, s, c, ks⟩ := e
    simp [Element.name, hs]; exact and_comm
  rw [this]

/-- The positions and elements of the schemas that `Imports` looks at. -/
def schemasAt (root : Element) : List (List Nat × Element) :=
  if root.name = ⟨schemaNS, b!"schema"⟩ then [([], root)] else root.search schemaNS b!"schema"

theorem schemaElements_eq (root : Element) : schemaElements root = (schemasAt root).map (·.2) := by
  unfold schemaElements schemasAt; split <;> rfl

/-- C28, for every document: the imports anywhere below the root, in document order, followed by,
for the root if it is a schema and else for each schema in document order, its includes in document
order. -/
theorem C28_imports (root : Element) :
    ∃ (I : List (List Nat × Element)) (S : List Element), DocList root (fun _ e => IsXs b!"import" e) I ∧
      ((IsXs b!"schema" root ∧ S = [root]) ∨
        (¬ IsXs b!"schema" root ∧ ∃ S', DocList root (fun _ e => IsXs b!"schema" e) S' ∧ S = S'.map (·.2))) ∧
      ∃ incs : List (List (List Nat × Element)), incs.length = S.length ∧
        (∀ (k : Nat) s J, S[k]? = some s → incs[k]? = some J → DocList s (fun _ e => IsXs b!"include" e) J) ∧
        imports root = I.map (fun v => ⟨v.2.attr [] b!"namespace", v.2.attr [] b!"schemaLocation"⟩) ++
          (List.zipWith (fun s J => J.map fun v : List Nat × Element =>
            (⟨s.attr [] b!"targetNamespace", v.2.attr [] b!"schemaLocation"⟩ : Ref)) S incs).flatten := by
  refine ⟨root.search schemaNS b!"import", schemaElements root, docList_search root _, ?_,
    (schemaElements root).map (fun s => s.search schemaNS b!"include"), by simp, ?_, ?_⟩
  · have hw : w3cSchemaNS = schemaNS := by decide
    unfold schemaElements IsXs
    rw [hw]
    split
    · rename_i h; exact Or.inl ⟨h, rfl⟩
    · rename_i h
      exact Or.inr ⟨h, root.search schemaNS b!"schema", docList_search root _, rfl⟩
  · intro k s J hk hJ
    rw [List.getElem?_map, hk] at hJ
    simp only [Option.map_some, Option.some.injEq] at hJ
    rw [← hJ]; exact docList_search s _
  · unfold imports
    congr 1
    rw [List.zipWith_map_right, List.zipWith_self, List.flatMap_def]

/-- C28 is false as stated: if a schema is inside another one, in a document whose root is not a
schema, its includes are listed twice, once with each target namespace. -/
theorem C28_nested_refuted :
    let inc := Element.mk ⟨schemaNS, b!"include"⟩ [⟨⟨[], b!"schemaLocation"⟩, b!"f"⟩] [] [] []
    let inner := Element.mk ⟨schemaNS, b!"schema"⟩ [⟨⟨[], b!"targetNamespace"⟩, b!"u"⟩] [] [] [inc]
    let outer := Element.mk ⟨schemaNS, b!"schema"⟩ [⟨⟨[], b!"targetNamespace"⟩, b!"t"⟩] [] [] [inner]
    let root := Element.mk ⟨[], b!"types"⟩ [] [] [] [outer]
    imports root = [⟨b!"t", b!"f"⟩, ⟨b!"u", b!"f"⟩] ∧ imports outer = [⟨b!"t", b!"f"⟩] := by
  decide +kernel

theorem schemasAt_mem {root : Element} (hn : NoNestedSchema root) (p : List Nat) (e : Element) :
    (p, e) ∈ schemasAt root ↔ root.at? p = some e ∧ IsXs b!"schema" e := by
  have hw : w3cSchemaNS = schemaNS := by decide
  unfold schemasAt
  by_cases hr : root.name = ⟨schemaNS, b!"schema"⟩
  · rw [if_pos hr]
    have hr' : IsXs b!"schema" root := by unfold IsXs; rw [hw]; exact hr
    simp only [List.mem_singleton, Prod.mk.injEq]
    constructor
    · rintro ⟨rfl, rfl⟩; exact ⟨rfl, hr'⟩
    · rintro ⟨h1, h2⟩
      cases p with
      | nil => simp only [Element.at?, Option.some.injEq] at h1; exact ⟨rfl, h1.symm⟩
      | cons i p => exact absurd ⟨[], i :: p, rfl, by simp, rfl, hr'⟩ (hn _ _ h1 h2 root)
  · rw [if_neg hr, (docList_search root b!"schema").1]
    constructor
    · rintro ⟨_, h1, h2⟩; exact ⟨h1, h2⟩
    · rintro ⟨h1, h2⟩
      refine ⟨?_, h1, h2⟩
      rintro rfl
      simp only [Element.at?, Option.some.injEq] at h1
      subst h1
      unfold IsXs at h2; rw [hw] at h2; exact hr h2

theorem schemasAt_order (root : Element) : ((schemasAt root).map (·.1)).Pairwise DocBefore := by
  unfold schemasAt
  split
  · simp
  · exact (docList_search root b!"schema").2

theorem pairwise_flatMap {α : Type} {L : List α} {f : α → List (List Nat)} {R : List Nat → List Nat → Prop}
    (h1 : ∀ x ∈ L, (f x).Pairwise R) (h2 : L.Pairwise fun x y => ∀ a ∈ f x, ∀ b ∈ f y, R a b) :
    (L.flatMap f).Pairwise R := by
  induction L with
  | nil => simp
  | cons x L ih =>
    rw [List.flatMap_cons, List.pairwise_append]
    rw [List.pairwise_cons] at h2
    refine ⟨h1 x (by simp), ih (fun y hy => h1 y (by simp [hy])) h2.2, ?_⟩
    intro a ha b hb
    obtain ⟨y, hy, hb⟩ := List.mem_flatMap.mp hb
    exact h2.1 y hy a ha b hb

/-- C28, the part that holds: if no schema is inside another, `Imports` returns one reference per
`import` element below the root, in document order, and then one per `include` element inside a
schema, in document order, with the target namespace of that schema. Missing for C28: nested
schemas, for which it is false. -/
theorem C28_includes_once_partial (root : Element) (hn : NoNestedSchema root) :
    ∃ I J, DocList root (fun _ e => IsXs b!"import" e) I ∧
      DocList root (fun p e => IsXs b!"include" e ∧ ∃ s, InSchema root p s) J ∧
      ∃ tns : List Nat → Str,
        (∀ p s, InSchema root p s → tns p = s.attr [] b!"targetNamespace") ∧
        imports root = I.map (fun v => ⟨v.2.attr [] b!"namespace", v.2.attr [] b!"schemaLocation"⟩) ++
          J.map (fun v => ⟨tns v.1, v.2.attr [] b!"schemaLocation"⟩) := by
  classical
  -- a position is inside at most one schema
  have huniq : ∀ p s s', InSchema root p s → InSchema root p s' → s = s' := by
    rintro p s s' ⟨q, r, rfl, hr, hq, hs⟩ ⟨q', r', hp, hr', hq', hs'⟩
    rcases List.append_eq_append_iff.mp hp with ⟨a, h1, h2⟩ | ⟨a, h1, h2⟩
    · cases a with
      | nil => simp only [List.append_nil] at h1; subst h1; rw [hq] at hq'; exact Option.some.inj hq'
      | cons x a => exact absurd ⟨q, x :: a, h1, by simp, hq, hs⟩ (hn _ _ hq' hs' s)
    · cases a with
      | nil => simp only [List.append_nil] at h1; subst h1; rw [hq] at hq'; exact Option.some.inj hq'
      | cons x a => exact absurd ⟨q', x :: a, h1, by simp, hq', hs'⟩ (hn _ _ hq hs s')
  let f : List Nat × Element → List (List Nat × Element) := fun qs =>
    (qs.2.search schemaNS b!"include").map fun v => (qs.1 ++ v.1, v.2)
  let tns : List Nat → Str := fun p =>
    if h : ∃ s, InSchema root p s then (Classical.choose h).attr [] b!"targetNamespace" else []
  have htns : ∀ p s, InSchema root p s → tns p = s.attr [] b!"targetNamespace" := by
    intro p s hs
    have hex : ∃ s, InSchema root p s := ⟨s, hs⟩
    show (if h : ∃ s, InSchema root p s then _ else _) = _
    rw [dif_pos hex, huniq p _ _ (Classical.choose_spec hex) hs]
  refine ⟨root.search schemaNS b!"import", (schemasAt root).flatMap f, docList_search root _, ⟨?_, ?_⟩,
    tns, htns, ?_⟩
  · intro p e
    rw [List.mem_flatMap]
    constructor
    · rintro ⟨⟨q, s⟩, hqs, hp⟩
      obtain ⟨⟨r, e'⟩, hr, heq⟩ := List.mem_map.mp hp
      simp only [Prod.mk.injEq] at heq
      obtain ⟨rfl, rfl⟩ := heq
      rw [schemasAt_mem hn] at hqs
      rw [(docList_search s b!"include").1] at hr
      refine ⟨by simp [hr.1], by rw [at?_append, hqs.1]; exact hr.2.1, hr.2.2, s, q, r, rfl, hr.1, hqs.1, hqs.2⟩
    · rintro ⟨_, hat, hinc, s, q, r, rfl, hr, hq, hs⟩
      refine ⟨(q, s), (schemasAt_mem hn q s).mpr ⟨hq, hs⟩, List.mem_map.mpr ⟨(r, e), ?_, rfl⟩⟩
      rw [(docList_search s b!"include").1]
      rw [at?_append, hq] at hat
      exact ⟨hr, hat, hinc⟩
  · rw [List.map_flatMap]
    apply pairwise_flatMap
    · rintro ⟨q, s⟩ hqs
      have := (docList_search s b!"include").2
      simp only [f, List.map_map]
      rw [List.pairwise_map] at this ⊢
      refine this.imp ?_
      rintro ⟨a, _⟩ ⟨b, _⟩ h
      simp only [Function.comp]
      cases h with
      | ancestor _ i r => simpa using DocBefore.ancestor (q ++ a) i r
      | sibling p i j u v hij => simpa using DocBefore.sibling (q ++ p) i j u v hij
    · have h := schemasAt_order root
      rw [List.pairwise_map] at h
      have hmem : ∀ x ∈ schemasAt root, root.at? x.1 = some x.2 ∧ IsXs b!"schema" x.2 := by
        rintro ⟨q, s⟩ hx; exact (schemasAt_mem hn q s).mp hx
      refine (List.Pairwise.and_mem.mp h).imp ?_
      rintro a b ⟨ha, hb, hab⟩
      have hnp : ¬ ∃ r, b.1 = a.1 ++ r := by
        rintro ⟨r, hr⟩
        cases r with
        | nil =>
          rw [List.append_nil] at hr; rw [hr] at hab; exact docBefore_irrefl _ hab
        | cons x r =>
          exact hn _ _ (hmem b hb).1 (hmem b hb).2 a.2 ⟨a.1, x :: r, hr, by simp, (hmem a ha).1, (hmem a ha).2⟩
      intro x hx y hy
      obtain ⟨v, hv, rfl⟩ := List.mem_map.mp hx
      obtain ⟨v', hv', rfl⟩ := List.mem_map.mp hv
      obtain ⟨w, hw, rfl⟩ := List.mem_map.mp hy
      obtain ⟨w', hw', rfl⟩ := List.mem_map.mp hw
      exact docBefore_append hab hnp _ _
  · unfold imports
    congr 1
    rw [schemaElements_eq, List.flatMap_map, List.map_flatMap]
    rw [List.flatMap_def, List.flatMap_def]
    congr 1
    apply List.map_congr_left
    rintro ⟨q, s⟩ hqs
    simp only [f, List.map_map]
    apply List.map_congr_left
    rintro ⟨r, e⟩ hr
    rw [schemasAt_mem hn] at hqs
    rw [(docList_search s b!"include").1] at hr
    have : tns (q ++ r) = s.attr [] b!"targetNamespace" := htns _ s ⟨q, r, rfl, hr.1, hqs.1, hqs.2⟩
    simp [this]

/-- `NoNestedSchema`, checked on the list of all positions. -/
def noNestedCheck (root : Element) : Bool :=
  let L := ([], root) :: root.flatten
  L.all fun pe => L.all fun qs =>
    !(decide (pe.2.name = ⟨w3cSchemaNS, b!"schema"⟩) && decide (qs.2.name = ⟨w3cSchemaNS, b!"schema"⟩) &&
      qs.1.isPrefixOf pe.1 && decide (qs.1 ≠ pe.1))

theorem noNested_of_check {root : Element} (h : noNestedCheck root = true) : NoNestedSchema root := by
  have hmem : ∀ p e, root.at? p = some e → (p, e) ∈ ([], root) :: root.flatten := by
    intro p e he
    cases p with
    | nil => simp only [Element.at?, Option.some.injEq] at he; rw [he]; exact List.mem_cons_self
    | cons i p => exact List.mem_cons_of_mem _ ((C12_flatten root).1 _ _ |>.mpr ⟨by simp, he⟩)
  rintro p e he hs s ⟨q, r, rfl, hr, hq, hs'⟩
  have h1 := List.all_eq_true.mp h _ (hmem _ _ he)
  have h2 := List.all_eq_true.mp h1 _ (hmem _ _ hq)
  unfold IsXs at hs hs'
  have hpre : q.isPrefixOf (q ++ r) = true := by simp
  simp [hs, hs', hpre, hr] at h2

/-- A WSDL-like document with two sibling schemas satisfies the hypothesis. -/
example :
    let inc := fun f => Element.mk ⟨schemaNS, b!"include"⟩ [⟨⟨[], b!"schemaLocation"⟩, f⟩] [] [] []
    let sch := fun t ks => Element.mk ⟨schemaNS, b!"schema"⟩ [⟨⟨[], b!"targetNamespace"⟩, t⟩] [] [] ks
    let root := Element.mk ⟨[], b!"types"⟩ [] [] [] [sch b!"t" [inc b!"f", inc b!"g"], sch b!"u" [inc b!"h"]]
    NoNestedSchema root ∧ imports root = [⟨b!"t", b!"f"⟩, ⟨b!"t", b!"g"⟩, ⟨b!"u", b!"h"⟩] :=
  ⟨noNested_of_check (by decide +kernel), by decide +kernel⟩

/-! ### C29 -/

theorem oneAttrSet_of {loc v : Str} {a b : Element} {p : List Nat} {x y : Element}
    (hx : a.at? p = some x) (hy : b.at? p = some y) (h : y.attrs = attrSet [] loc v x.attrs) :
    OneAttrSetAt loc v a b p := by
  refine ⟨x, y, hx, hy, ?_⟩
  have h5 := (C02_setAttr_effect x [] loc v).2.2.2.2
  have he : (x.setAttr [] loc v).attrs = y.attrs := h.symm
  rw [he] at h5
  rcases h5 with ⟨bf, t, af, e1, ⟨hl, _⟩, hb, e2⟩ | ⟨hb, e2⟩
  · left
    exact ⟨bf, t, af, e1, hl, fun z hz hz' => hb z hz ⟨hz', Or.inl rfl⟩, e2⟩
  · right
    exact ⟨fun z hz hz' => hb z hz ⟨hz', Or.inl rfl⟩, e2⟩

theorem setAttrs_shape (loc : Str) (value : Scope → Str) (root : Element) (ps : List (List Nat)) :
    SameShape root (setAttrs loc value root ps) := by
  intro p
  rcases setAttrs_at loc value root ps p with h | ⟨e, e', h1, h2, h3, h4, h5, h6, _⟩
  · exact Or.inl h
  · exact Or.inr ⟨e, e', h1, h2, h3.symm, h4.symm, h5.symm, h6.symm⟩

theorem isXs_iff (loc : Str) (e : Element) : isElem schemaNS loc e = true ↔ IsXs loc e := by
  have hw : w3cSchemaNS = schemaNS := by decide
  rw [isElem_schema, IsXs, hw]

/-- Both default type passes. -/
theorem defaultType_spec (kind ty : Str) (root : Element) :
    let out := setAttrs b!"type" (fun sc => prefixOf sc ⟨schemaNS, ty⟩) root
      ((root.searchFunc fun _ e => isElem schemaNS kind e && hasAttrValue [] b!"type" [] e).map (·.1))
    SameShape root out ∧ ∀ p,
      (∀ e, p ≠ [] → root.at? p = some e → IsXs kind e → e.attr [] b!"type" = [] →
        OneAttrSetAt b!"type" (prefixOf e.scope ⟨w3cSchemaNS, ty⟩) root out p) ∧
      ((p = [] ∨ ∀ e, root.at? p = some e → ¬ (IsXs kind e ∧ e.attr [] b!"type" = [])) →
        SameAttrsAt root out p) := by
  intro out
  have hw : w3cSchemaNS = schemaNS := by decide
  have hmem : ∀ p, p ∈ ((root.searchFunc fun _ e => isElem schemaNS kind e && hasAttrValue [] b!"type" [] e).map (·.1)) ↔
      ∃ e, p ≠ [] ∧ root.at? p = some e ∧ IsXs kind e ∧ e.attr [] b!"type" = [] := by
    intro p
    rw [List.mem_map]
    constructor
    · rintro ⟨⟨q, e⟩, hq, rfl⟩
      have := (C12_searchFunc root _).1 q e |>.mp hq
      obtain ⟨h1, h2, h3⟩ := this
      rw [Bool.and_eq_true, isXs_iff, hasAttrValue, decide_eq_true_iff] at h3
      exact ⟨e, h1, h2, h3⟩
    · rintro ⟨e, h1, h2, h3⟩
      refine ⟨(p, e), ?_, rfl⟩
      rw [(C12_searchFunc root _).1 p e]
      refine ⟨h1, h2, ?_⟩
      rw [Bool.and_eq_true, isXs_iff, hasAttrValue, decide_eq_true_iff]
      exact h3
  refine ⟨setAttrs_shape _ _ _ _, fun p => ⟨?_, ?_⟩⟩
  · intro e hp he hk ht
    rcases setAttrs_at b!"type" (fun sc => prefixOf sc ⟨schemaNS, ty⟩) root _ p with h | ⟨x, y, h1, h2, _, _, _, _, h7⟩
    · rw [he] at h; cases h.1
    · rw [if_pos ((hmem p).mpr ⟨e, hp, he, hk, ht⟩)] at h7
      rw [he] at h1; cases h1
      rw [hw]
      exact oneAttrSet_of he h2 h7
  · intro hno
    have hnm := (not_congr (hmem p)).mpr (by
      rintro ⟨e, h1, h2, h3⟩
      rcases hno with h | h
      · exact h1 h
      · exact h e h2 h3)
    unfold SameAttrsAt
    rcases setAttrs_at b!"type" (fun sc => prefixOf sc ⟨schemaNS, ty⟩) root _ p with h | ⟨x, y, h1, h2, _, _, _, _, h7⟩
    · rw [h.1, h.2]
    · rw [if_neg hnm] at h7
      rw [h1, h2]; simp [h7]

/-- C29 for attributes. Exactly the attribute declarations without a type get one, written with
the prefix that is favoured in their own scope; everything else in the tree is unchanged. -/
theorem C29_attribute_default (root : Element) :
    SameShape root (attributeDefaultType root) ∧ ∀ p,
      (∀ e, p ≠ [] → root.at? p = some e → IsXs b!"attribute" e → e.attr [] b!"type" = [] →
        OneAttrSetAt b!"type" (prefixOf e.scope ⟨w3cSchemaNS, b!"anySimpleType"⟩) root (attributeDefaultType root) p) ∧
      ((p = [] ∨ ∀ e, root.at? p = some e → ¬ (IsXs b!"attribute" e ∧ e.attr [] b!"type" = [])) →
        SameAttrsAt root (attributeDefaultType root) p) :=
  defaultType_spec b!"attribute" b!"anySimpleType" root

/-- C29 for elements. -/
theorem C29_element_default (root : Element) :
    SameShape root (elementDefaultType root) ∧ ∀ p,
      (∀ e, p ≠ [] → root.at? p = some e → IsXs b!"element" e → e.attr [] b!"type" = [] →
        OneAttrSetAt b!"type" (prefixOf e.scope ⟨w3cSchemaNS, b!"anyType"⟩) root (elementDefaultType root) p) ∧
      ((p = [] ∨ ∀ e, root.at? p = some e → ¬ (IsXs b!"element" e ∧ e.attr [] b!"type" = [])) →
        SameAttrsAt root (elementDefaultType root) p) :=
  defaultType_spec b!"element" b!"anyType" root

/-- C29 is false as stated: where the default namespace was the schema namespace and has been
redeclared further in, the default type is written without prefix and denotes a type of the inner
default namespace. -/
theorem C29_default_type_refuted :
    let sc : Scope := [⟨schemaNS, []⟩, ⟨b!"u", []⟩, ⟨schemaNS, b!"x"⟩]
    let el := Element.mk ⟨schemaNS, b!"element"⟩ [⟨⟨[], b!"name"⟩, b!"a"⟩] sc [] []
    let root := Element.mk ⟨schemaNS, b!"schema"⟩ [] [⟨schemaNS, []⟩] [] [el]
    ((elementDefaultType root).at? [0]).map (fun e => resolve e.scope (e.attr [] b!"type")) =
      some ⟨b!"u", b!"anyType"⟩ := by
  decide +kernel

/-- C29 is also false for declarations with an attribute called `type` in a foreign namespace: they
count as having a type. -/
theorem C29_foreign_type_refuted :
    let el := Element.mk ⟨schemaNS, b!"element"⟩ [⟨⟨b!"v", b!"type"⟩, b!"z"⟩] [⟨schemaNS, b!"x"⟩] [] []
    let root := Element.mk ⟨schemaNS, b!"schema"⟩ [] [⟨schemaNS, b!"x"⟩] [] [el]
    ((elementDefaultType root).at? [0]).map (·.attrs) = some [⟨⟨b!"v", b!"type"⟩, b!"z"⟩] := by
  decide +kernel

/-- The value of the attribute after it has been set. -/
theorem oneAttrSet_attr {loc v : Str} {a b : Element} {p : List Nat} (h : OneAttrSetAt loc v a b p) :
    ∃ y, b.at? p = some y ∧ y.attr [] loc = v := by
  obtain ⟨x, y, hx, hy, h⟩ := h
  refine ⟨y, hy, ?_⟩
  rcases C01_attr_first_match y [] loc with ⟨bf, t, af, e, ⟨h1, _⟩, h2, h3⟩ | ⟨h1, h2⟩
  · rw [h3]
    have hb2 : ∀ z ∈ bf, z.name.loc ≠ loc := fun z hz hz' => h2 z hz ⟨hz', Or.inl rfl⟩
    have key : ∀ (b1 b2 : List Attr) (t1 t2 : Attr) (a1 a2 : List Attr), b1 ++ t1 :: a1 = b2 ++ t2 :: a2 →
        (∀ z ∈ b1, z.name.loc ≠ loc) → (∀ z ∈ b2, z.name.loc ≠ loc) → t1.name.loc = loc → t2.name.loc = loc →
        t1 = t2 := by
      intro b1
      induction b1 with
      | nil =>
        intro b2 t1 t2 a1 a2 he _ hb2 ht1 _
        cases b2 with
        | nil => simp only [List.nil_append, List.cons.injEq] at he; exact he.1
        | cons z b2 =>
          simp only [List.nil_append, List.cons_append, List.cons.injEq] at he
          exact absurd (he.1 ▸ ht1) (hb2 z (by simp))
      | cons y b1 ih =>
        intro b2 t1 t2 a1 a2 he hb1 hb2 ht1 ht2
        cases b2 with
        | nil =>
          simp only [List.nil_append, List.cons_append, List.cons.injEq] at he
          exact absurd (he.1 ▸ ht2) (hb1 y (by simp))
        | cons z b2 =>
          simp only [List.cons_append, List.cons.injEq] at he
          exact ih b2 t1 t2 a1 a2 he.2 (fun z hz => hb1 z (by simp [hz])) (fun z hz => hb2 z (by simp [hz])) ht1 ht2
    rcases h with ⟨bf', t', af', _, ht', hb', e'⟩ | ⟨hb', e'⟩
    · rw [e] at e'
      have := key bf bf' t ⟨t'.name, v⟩ af af' e' hb2 hb' h1 ht'
      rw [this]
    · rw [e] at e'
      have := key bf x.attrs t ⟨⟨[], loc⟩, v⟩ af [] e' hb2 hb' h1 rfl
      rw [this]
  · exfalso
    rcases h with ⟨bf', t', af', _, ht', hb', e'⟩ | ⟨hb', e'⟩
    · exact h1 ⟨t'.name, v⟩ (by rw [e']; simp) ⟨ht', Or.inl rfl⟩
    · exact h1 ⟨⟨[], loc⟩, v⟩ (by rw [e']; simp) ⟨rfl, Or.inl rfl⟩

/-- C29, the part that holds: where the schema namespace is declared, and the prefix `Prefix`
favours for it has not been redeclared further in, the default type denotes `xs:anySimpleType` or
`xs:anyType`. Missing for C29: scopes in which it has been redeclared, and foreign attributes called
`type`; for both it is false. -/
theorem C29_denotes_partial (root : Element) (p : List Nat) (e : Element) (pre : Str)
    (hp : p ≠ []) (he : root.at? p = some e) (ht : e.attr [] b!"type" = [])
    (hsc : ∀ d ∈ e.scope, (58 : UInt8) ∉ d.loc ∧ d.loc ≠ b!"xml" ∧ d.loc ≠ b!"xmlns")
    (hf : Favoured e.scope w3cSchemaNS pre) (hi : Innermost e.scope pre w3cSchemaNS) :
    (IsXs b!"attribute" e → ∃ e', (attributeDefaultType root).at? p = some e' ∧
      resolve e'.scope (e'.attr [] b!"type") = ⟨w3cSchemaNS, b!"anySimpleType"⟩) ∧
    (IsXs b!"element" e → ∃ e', (elementDefaultType root).at? p = some e' ∧
      resolve e'.scope (e'.attr [] b!"type") = ⟨w3cSchemaNS, b!"anyType"⟩) := by
  have main : ∀ (out : Element) (ty : Str), SameShape root out → ty ≠ [] ∧ (58 : UInt8) ∉ ty →
      OneAttrSetAt b!"type" (prefixOf e.scope ⟨w3cSchemaNS, ty⟩) root out p →
      ∃ e', out.at? p = some e' ∧ resolve e'.scope (e'.attr [] b!"type") = ⟨w3cSchemaNS, ty⟩ := by
    intro out ty hs hty h
    obtain ⟨e', he', ha⟩ := oneAttrSet_attr h
    refine ⟨e', he', ?_⟩
    rcases hs p with h | ⟨x, y, hx, hy, _, hscope, _⟩
    · rw [he] at h; cases h.1
    · rw [he] at hx; rw [he'] at hy; cases hx; cases hy
      rw [ha, ← hscope]
      exact (C06_prefix_inverse_partial e.scope w3cSchemaNS ty pre (by decide) hty hsc hf).mpr hi
  constructor
  · intro hk
    exact main _ _ (C29_attribute_default root).1 (by decide) (((C29_attribute_default root).2 p).1 e hp he hk ht)
  · intro hk
    exact main _ _ (C29_element_default root).1 (by decide) (((C29_element_default root).2 p).1 e hp he hk ht)

/-- An element and an attribute without type, below others with one. -/
example :
    let sc : Scope := [⟨schemaNS, b!"xs"⟩]
    let at' := Element.mk ⟨schemaNS, b!"attribute"⟩ [⟨⟨[], b!"name"⟩, b!"id"⟩] sc [] []
    let el := Element.mk ⟨schemaNS, b!"element"⟩ [⟨⟨[], b!"name"⟩, b!"a"⟩] sc [] [at']
    let root := Element.mk ⟨schemaNS, b!"schema"⟩ [] sc [] [el]
    elementDefaultType (attributeDefaultType root) =
      Element.mk ⟨schemaNS, b!"schema"⟩ [] sc []
        [Element.mk ⟨schemaNS, b!"element"⟩ [⟨⟨[], b!"name"⟩, b!"a"⟩, ⟨⟨[], b!"type"⟩, b!"xs:anyType"⟩] sc []
          [Element.mk ⟨schemaNS, b!"attribute"⟩ [⟨⟨[], b!"name"⟩, b!"id"⟩, ⟨⟨[], b!"type"⟩, b!"xs:anySimpleType"⟩] sc [] []]] := by
  rfl

/-- The hypotheses of `C29_denotes_partial` on the scope hold for the usual `xmlns:xs`, also next to
a default namespace. -/
example :
    let sc : Scope := [⟨schemaNS, b!"xs"⟩, ⟨b!"urn:t", []⟩]
    Favoured sc w3cSchemaNS b!"xs" ∧ Innermost sc b!"xs" w3cSchemaNS ∧
    ∀ d ∈ sc, (58 : UInt8) ∉ d.loc ∧ d.loc ≠ b!"xml" ∧ d.loc ≠ b!"xmlns" :=
  ⟨Or.inr ⟨by decide, [], [⟨b!"urn:t", []⟩], by decide, by decide⟩,
    ⟨[], [⟨b!"urn:t", []⟩], by decide, by decide⟩, by decide⟩

/-! ### C30 -/

/-- C30. Exactly the alternatives of choices, or their members where the alternative is a sequence,
get `minOccurs="0"`; everything else in the tree is unchanged. -/
theorem C30_choices (root : Element) :
    SameShape root (setChoicesOptional root) ∧ ∀ p,
      (InChoice root p → OneAttrSetAt b!"minOccurs" b!"0" root (setChoicesOptional root) p) ∧
      (¬ InChoice root p → SameAttrsAt root (setChoicesOptional root) p) := by
  have hw : w3cSchemaNS = schemaNS := by decide
  have hmem : ∀ p, (∃ e, root.at? p = some e) →
      (p ∈ ((root.searchFunc fun _ e => isElem schemaNS b!"choice" e).flatMap fun pe =>
        choiceTargets pe.1 0 pe.2.children) ↔ InChoice root p) := by
    rintro p ⟨e, he⟩
    rw [List.mem_flatMap]
    constructor
    · rintro ⟨⟨q, c⟩, hq, hp⟩
      obtain ⟨h1, h2, h3⟩ := (C12_searchFunc root _).1 q c |>.mp hq
      rw [isXs_iff] at h3
      obtain ⟨k, t, hk, hh⟩ := (choiceTargets_mem _ _ _ _).mp hp
      rw [Nat.zero_add] at hh
      have hqk : root.at? (q ++ [k]) = some t := by rw [at?_snoc, h2]; exact hk
      rcases hh with ⟨hn, j, hj, rfl⟩ | ⟨hn, rfl⟩
      · right
        exact ⟨q, k, j, c, t, e, h1, rfl, h2, h3, hqk, by rw [IsXs, hw]; exact hn, he⟩
      · left
        exact ⟨q, k, c, t, h1, rfl, h2, h3, hqk, by rw [IsXs, hw]; exact hn⟩
    · rintro (⟨q, i, c, e', h1, rfl, h2, h3, h4, h5⟩ | ⟨q, i, j, c, s, e', h1, rfl, h2, h3, h4, h5, h6⟩)
      · refine ⟨(q, c), ((C12_searchFunc root _).1 q c).mpr ⟨h1, h2, (isXs_iff _ _).mpr h3⟩, ?_⟩
        rw [choiceTargets_mem]
        rw [at?_snoc, h2] at h4
        rw [IsXs, hw] at h5
        exact ⟨i, e', h4, Or.inr ⟨h5, by simp⟩⟩
      · refine ⟨(q, c), ((C12_searchFunc root _).1 q c).mpr ⟨h1, h2, (isXs_iff _ _).mpr h3⟩, ?_⟩
        rw [choiceTargets_mem]
        have h4' := h4
        rw [at?_snoc, h2] at h4
        rw [IsXs, hw] at h5
        refine ⟨i, s, h4, Or.inl ⟨h5, j, ?_, by simp⟩⟩
        have : q ++ [i, j] = (q ++ [i]) ++ [j] := by simp
        rw [this, at?_snoc, h4'] at h6
        simp only [Option.bind_some] at h6
        exact (List.getElem?_eq_some_iff.mp h6).1
  refine ⟨setAttrs_shape _ _ _ _, fun p => ⟨?_, ?_⟩⟩
  · intro hc
    rcases setAttrs_at b!"minOccurs" (fun _ => b!"0") root _ p with h | ⟨x, y, h1, h2, _, _, _, _, h7⟩
    · exfalso
      have h0 := h.1
      rcases hc with ⟨_, _, _, _, _, _, _, _, h4, _⟩ | ⟨_, _, _, _, _, _, _, _, _, _, _, _, h4⟩ <;>
        (rw [h4] at h0; cases h0)
    · rw [if_pos ((hmem p ⟨x, h1⟩).mpr hc)] at h7
      exact oneAttrSet_of h1 h2 h7
  · intro hc
    unfold SameAttrsAt
    rcases setAttrs_at b!"minOccurs" (fun _ => b!"0") root _ p with h | ⟨x, y, h1, h2, _, _, _, _, h7⟩
    · rw [h.1]; exact (congrArg _ h.2).symm
    · rw [if_neg (fun h => hc ((hmem p ⟨x, h1⟩).mp h))] at h7
      rw [h1]; show _ = Option.map _ ((setChoicesOptional root).at? p)
      rw [show (setChoicesOptional root).at? p = some y from h2]; simp [h7]

/-- A choice with a plain alternative, a sequence, and a nested choice. -/
example :
    let x := fun n as ks => Element.mk ⟨schemaNS, n⟩ as [] [] ks
    let m : List Attr := [⟨⟨[], b!"minOccurs"⟩, b!"0"⟩]
    let root := x b!"schema" [] [x b!"choice" [] [x b!"element" [⟨⟨[], b!"minOccurs"⟩, b!"2"⟩] [],
      x b!"sequence" [] [x b!"element" [] [x b!"any" [] []]], x b!"choice" [] [x b!"any" [] []]], x b!"any" [] []]
    setChoicesOptional root =
      x b!"schema" [] [x b!"choice" [] [x b!"element" m [],
        x b!"sequence" [] [x b!"element" m [x b!"any" [] []]], x b!"choice" m [x b!"any" m []]], x b!"any" [] []] := by
  rfl

end GoXml.Xsd
