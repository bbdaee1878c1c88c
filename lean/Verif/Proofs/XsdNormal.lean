import Verif.Proofs.XsdExpandDocs
import Verif.Proofs.XsdCanonical
import Verif.Props.XsdDeref
import Verif.Spec.XsdNormal
set_option autoImplicit false

/-! Lemmas: what each pass of `Normalize` does to neat schemas. -/

namespace GoXml.Xsd
open Wsdl

/-! ### All elements of a tree -/

/-- All elements of the tree, the root included. -/
def Every (Q : Element → Prop) (t : Element) : Prop := ∀ p x, t.at? p = some x → Q x

theorem every_iff {Q : Element → Prop} {t : Element} : Every Q t ↔ Q t ∧ ∀ k ∈ t.children, Every Q k := by
  constructor
  · intro h
    refine ⟨h [] t (by cases t; rfl), fun k hk p x hx => ?_⟩
    obtain ⟨i, hi⟩ := List.getElem?_of_mem hk
    exact h (i :: p) x (by rw [Element.at?, hi]; exact hx)
  · rintro ⟨h1, h2⟩ p x hx
    cases p with
    | nil => cases t; cases hx; exact h1
    | cons i p =>
      obtain ⟨k, hk, hx⟩ := at_cons hx
      exact h2 k (List.mem_of_getElem? hk) p x hx

theorem every_below {Q : Element → Prop} {t : Element} : (∀ x ∈ below t, Q x) ↔ ∀ k ∈ t.children, Every Q k := by
  constructor
  · intro h k hk p x hx
    obtain ⟨i, hi⟩ := List.getElem?_of_mem hk
    exact h x ((mem_below_iff t x).mpr ⟨i :: p, by simp, by rw [Element.at?, hi]; exact hx⟩)
  · intro h x hx
    obtain ⟨p, hp, hx⟩ := (mem_below_iff t x).mp hx
    cases p with
    | nil => exact absurd rfl hp
    | cons i p =>
      obtain ⟨k, hk, hx⟩ := at_cons hx
      exact h k (List.mem_of_getElem? hk) p x hx

theorem Every.imp {Q Q' : Element → Prop} (h : ∀ x, Q x → Q' x) {t : Element} (ht : Every Q t) : Every Q' t := fun p x hx => h x (ht p x hx)

theorem Every.and {Q Q' : Element → Prop} {t : Element} (h : Every Q t) (h' : Every Q' t) : Every (fun x => Q x ∧ Q' x) t :=
  fun p x hx => ⟨h p x hx, h' p x hx⟩

/-! ### Trees that look alike -/

/-- What the conditions ask about the children of an element. -/
structure Like (k k' : Element) : Prop where
  name : k'.name = k.name
  anon : AnonType k' ↔ AnonType k
  has : HasAnon k' → HasAnon k

theorem filter_like {ks ks' : List Element} (h : List.Forall₂ Like ks ks') : (ks'.filter AnonType).length = (ks.filter AnonType).length := by
  induction h with
  | nil => rfl
  | @cons k k' ks ks' h1 _ ih =>
    rw [List.filter_cons, List.filter_cons]
    by_cases ha : AnonType k
    · rw [if_pos (by simpa using h1.anon.mpr ha), if_pos (by simpa using ha), List.length_cons, List.length_cons, ih]
    · rw [if_neg (by simpa using fun hh => ha (h1.anon.mp hh)), if_neg (by simpa using ha), ih]

theorem like_left {ks ks' : List Element} (h : List.Forall₂ Like ks ks') {k' : Element} (hk : k' ∈ ks') : ∃ k ∈ ks, Like k k' := by
  induction h with
  | nil => cases hk
  | cons h1 _ ih =>
    rcases List.mem_cons.mp hk with rfl | hk
    · exact ⟨_, by simp, h1⟩
    · obtain ⟨k, h2, h3⟩ := ih hk
      exact ⟨k, by simp [h2], h3⟩

theorem isXs_name {loc : Str} {x x' : Element} (h : x'.name = x.name) : IsXs loc x' ↔ IsXs loc x := by unfold IsXs; rw [h]

theorem hasAnon_like {x x' : Element} (hk : List.Forall₂ Like x.children x'.children) (hh : HasAnon x') : HasAnon x := by
  obtain ⟨k', h1, h2⟩ := hh
  obtain ⟨k, h3, h4⟩ := like_left hk h1
  exact ⟨k, h3, h4.anon.mp h2⟩

theorem neatAt_keep {tns : Str} {x x' : Element} (hx : NeatAt tns x) (hn : x'.name = x.name) (hs : x'.scope = x.scope)
    (ha : attrNamed x' b!"name" = attrNamed x b!"name") (hr : attrNamed x' b!"ref" = attrNamed x b!"ref")
    (hk : List.Forall₂ Like x.children x'.children) : NeatAt tns x' where
  holder hh := by
    obtain ⟨loc, h1, h2⟩ := hx.holder (hasAnon_like hk hh)
    exact ⟨loc, h1, (isXs_name hn).mpr h2⟩
  one hh := by
    obtain ⟨h1, h2⟩ := hx.one (hasAnon_like hk hh)
    refine ⟨by rw [filter_like hk, h1], fun k' hk' hh' => ?_⟩
    obtain ⟨k, h3, h4⟩ := like_left hk hk'
    exact h2 k h3 (h4.has hh')
  apart hc k' hk' hh := by
    obtain ⟨k, h3, h4⟩ := like_left hk hk'
    exact hx.apart ((isXs_name hn).mp hc) k h3 ((isXs_name h4.name).mp hh)
  speaks hh := by rw [hs]; exact hx.speaks (hasAnon_like hk hh)
  typedBy ht := by
    rw [isXs_name hn, isXs_name hn] at ht
    rw [hs]
    exact hx.typedBy ht
  plain hh := by rw [ha]; exact hx.plain (hasAnon_like hk hh)
  noGroup k' hk' := by
    obtain ⟨k, h3, h4⟩ := like_left hk hk'
    rw [isXs_name h4.name, isXs_name h4.name]
    exact hx.noGroup k h3

/-- An element that has lost its anonymous type. -/
theorem neatAt_none {tns : Str} {x x' : Element} (hx : NeatAt tns x) (hn : x'.name = x.name) (hs : x'.scope = x.scope)
    (hr : attrNamed x' b!"ref" = attrNamed x b!"ref") (hno : ¬ HasAnon x')
    (hk : ∀ k' ∈ x'.children, ∃ k ∈ x.children, k'.name = k.name) : NeatAt tns x' where
  holder hh := absurd hh hno
  one hh := absurd hh hno
  apart hc k' hk' hh := by
    obtain ⟨k, h3, h4⟩ := hk k' hk'
    exact hx.apart ((isXs_name hn).mp hc) k h3 ((isXs_name h4).mp hh)
  speaks hh := absurd hh hno
  typedBy ht := by
    rw [isXs_name hn, isXs_name hn] at ht
    rw [hs]
    exact hx.typedBy ht
  plain hh := absurd hh hno
  noGroup k' hk' := by
    obtain ⟨k, h3, h4⟩ := hk k' hk'
    rw [isXs_name h4, isXs_name h4]
    exact hx.noGroup k h3

/-! ### Setting attributes -/

/-- Two trees that differ in attributes with the given local name only. -/
def Alike (l : Str) (t t' : Element) : Prop := ∀ p, (t.at? p = none ∧ t'.at? p = none) ∨
  ∃ x x', t.at? p = some x ∧ t'.at? p = some x' ∧ x'.name = x.name ∧ x'.scope = x.scope ∧ x'.children.length = x.children.length ∧
    ∀ loc, loc ≠ l → attrNamed x' loc = attrNamed x loc

theorem alike_setAttrs (l : Str) (value : Scope → Str) (t : Element) (ps : List (List Nat)) : Alike l t (setAttrs l value t ps) := by
  intro p
  rcases setAttrs_at l value t ps p with h | ⟨e, e', h1, h2, h3, h4, _, h6, h7⟩
  · exact Or.inl h
  · refine Or.inr ⟨e, e', h1, h2, h3, h4, h6, fun loc hl => ?_⟩
    rw [← Wsdl.attr_eq, ← Wsdl.attr_eq]
    unfold Element.attr
    rw [h7]
    split
    · exact attr_attrSet_other _ _ _ _ _ _ hl
    · rfl

theorem at_append (p q : List Nat) : ∀ {t x : Element}, t.at? p = some x → t.at? (p ++ q) = x.at? q := by
  induction p with
  | nil => intro t x h; cases t; cases h; rfl
  | cons i p ih =>
    intro t x h
    obtain ⟨k, hk, hx⟩ := at_cons h
    rw [List.cons_append, Element.at?, hk]
    exact ih hx

theorem Alike.at {l : Str} {t t' x x' : Element} {p : List Nat} (ha : Alike l t t') (hx : t.at? p = some x) (hx' : t'.at? p = some x') : Alike l x x' := by
  intro q
  rw [← at_append p q hx, ← at_append p q hx']
  exact ha (p ++ q)

theorem at_nil (t : Element) : t.at? [] = some t := by cases t; rfl

theorem Alike.root {l : Str} {t t' : Element} (ha : Alike l t t') : t'.name = t.name ∧ t'.scope = t.scope ∧ t'.children.length = t.children.length ∧
    ∀ loc, loc ≠ l → attrNamed t' loc = attrNamed t loc := by
  rcases ha [] with ⟨h, _⟩ | ⟨x, x', h1, h2, h3⟩
  · rw [at_nil] at h; cases h
  · rw [at_nil] at h1 h2; cases h1; cases h2; exact h3

theorem Alike.kids {l : Str} {t t' : Element} (ha : Alike l t t') : List.Forall₂ (Alike l) t.children t'.children := by
  rw [List.forall₂_iff_get]
  refine ⟨ha.root.2.2.1.symm, fun i h1 h2 => ?_⟩
  refine ha.at (p := [i]) ?_ ?_
  · rw [Element.at?, List.getElem?_eq_getElem h1]; exact at_nil _
  · rw [Element.at?, List.getElem?_eq_getElem h2]; exact at_nil _

theorem anonType_iff (t : Element) : AnonType t ↔ (t.name = ⟨schemaNS, b!"complexType"⟩ ∨ t.name = ⟨schemaNS, b!"simpleType"⟩) ∧ attrNamed t b!"name" = [] := by
  unfold AnonType
  rw [Wsdl.attr_eq]

theorem Alike.anon {l : Str} {t t' : Element} (ha : Alike l t t') (hl : l ≠ b!"name") : AnonType t' ↔ AnonType t := by
  obtain ⟨h1, _, _, h4⟩ := ha.root
  rw [anonType_iff, anonType_iff, h1, h4 _ (Ne.symm hl)]

theorem Alike.like {l : Str} {t t' : Element} (ha : Alike l t t') (hl : l ≠ b!"name") : Like t t' where
  name := ha.root.1
  anon := ha.anon hl
  has := by
    rintro ⟨k', h1, h2⟩
    have : ∀ {ks ks' : List Element}, List.Forall₂ (Alike l) ks ks' → k' ∈ ks' → ∃ k ∈ ks, Alike l k k' := by
      intro ks ks' h hk
      induction h with
      | nil => cases hk
      | cons h1 _ ih =>
        rcases List.mem_cons.mp hk with rfl | hk
        · exact ⟨_, by simp, h1⟩
        · obtain ⟨k, h2, h3⟩ := ih hk
          exact ⟨k, by simp [h2], h3⟩
    obtain ⟨k, h3, h4⟩ := this ha.kids h1
    exact ⟨k, h3, (h4.anon hl).mp h2⟩

theorem Alike.likes {l : Str} {t t' : Element} (ha : Alike l t t') (hl : l ≠ b!"name") : List.Forall₂ Like t.children t'.children :=
  ha.kids.imp fun _ _ h => h.like hl

theorem Alike.neatAt {l tns : Str} {t t' : Element} (ha : Alike l t t') (hl : l ≠ b!"name") (hr : l ≠ b!"ref") (h : NeatAt tns t) : NeatAt tns t' :=
  neatAt_keep h ha.root.1 ha.root.2.1 (ha.root.2.2.2 _ (Ne.symm hl)) (ha.root.2.2.2 _ (Ne.symm hr)) (ha.likes hl)

theorem Alike.below {l : Str} {t t' : Element} (ha : Alike l t t') {x' : Element} (hx : x' ∈ below t') :
    ∃ p x, p ≠ [] ∧ t.at? p = some x ∧ t'.at? p = some x' ∧ x ∈ below t ∧ Alike l x x' := by
  obtain ⟨p, hp, hx⟩ := (mem_below_iff t' x').mp hx
  rcases ha p with ⟨_, h⟩ | ⟨x, x'', h1, h2, _⟩
  · rw [hx] at h; cases h
  · rw [hx] at h2
    cases h2
    exact ⟨p, x, hp, h1, hx, (mem_below_iff t x).mpr ⟨p, hp, h1⟩, ha.at h1 hx⟩

theorem Alike.neat {l : Str} {t t' : Element} (ha : Alike l t t') (hl : l ≠ b!"name") (hr : l ≠ b!"ref") (ht : l ≠ b!"targetNamespace") (h : Neat t) : Neat t' where
  schema := (isXs_name ha.root.1).mpr h.schema
  top k' hk' hh := by
    obtain ⟨k, h1, h2⟩ := like_left (ha.likes hl) hk'
    exact h.top k h1 (h2.has hh)
  each x' hx' := by
    obtain ⟨_, x, _, _, _, h1, h2⟩ := ha.below hx'
    rw [ha.root.2.2.2 _ (Ne.symm ht)]
    exact h2.neatAt hl hr (h.each x h1)

theorem depths_forall2 {ks ks' : List Element} (h : List.Forall₂ (fun k k' => depth k' = depth k) ks ks') : depths ks' = depths ks := by
  induction h with
  | nil => rfl
  | cons h1 _ ih => rw [depths, depths, h1, ih]

theorem Alike.depth {l : Str} : ∀ {t t' : Element}, Alike l t t' → depth t' = Xsd.depth t := by
  intro t
  induction t using Element.ind with
  | hP n a s c ks ih =>
    intro t' ha
    have hk := ha.kids
    cases t' with
    | mk n' a' s' c' ks' =>
      rw [Xsd.depth, Xsd.depth]
      congr 1
      refine depths_forall2 ?_
      simp only [Element.children] at hk
      clear ha
      induction hk with
      | nil => exact .nil
      | cons h1 _ ih2 => exact .cons (ih _ (by simp) h1) (ih2 fun k hk => ih k (by simp [hk]))

/-! ### Default types -/

/-- Attributes and elements have types. -/
def TypedAt (x : Element) : Prop := IsXs b!"attribute" x ∨ IsXs b!"element" x → attrNamed x b!"type" ≠ []

theorem prefixOf_ne {sc : Scope} {ns loc : Str} (hs : Speaks sc ns) (hl : loc ≠ []) : prefixOf sc ⟨ns, loc⟩ ≠ [] := by
  intro he
  obtain ⟨h1, _, _, h4⟩ := (C07_prefix_unknown_partial sc ⟨ns, loc⟩ hl).2.2.mp he
  rcases hs with rfl | ⟨d, h5, h6⟩
  · exact h1 rfl
  · exact h4 d h5 h6

theorem oneAttr_attr {loc v : Str} {a b : Element} {p : List Nat} (h : OneAttrSetAt loc v a b p) : ∃ y, b.at? p = some y ∧ attrNamed y loc = v := by
  obtain ⟨x, y, _, h2, h3⟩ := h
  refine ⟨y, h2, ?_⟩
  unfold attrNamed
  rcases h3 with ⟨bf, t, af, _, h5, h6, h7⟩ | ⟨h5, h6⟩
  · rw [h7, List.find?_append, List.find?_eq_none.mpr (by simpa using h6)]
    simp [h5]
  · rw [h6, List.find?_append, List.find?_eq_none.mpr (by simpa using h5)]
    simp

theorem attrNamed_attrs {x y : Element} (h : x.attrs = y.attrs) (loc : Str) : attrNamed x loc = attrNamed y loc := by unfold attrNamed; rw [h]

/-- One of the passes for default types. -/
theorem typed_default {kind : Str} {type : Str} {t out : Element} (hty : type ≠ [])
    (hout : SameShape t out ∧ ∀ p,
      (∀ e, p ≠ [] → t.at? p = some e → IsXs kind e → e.attr [] b!"type" = [] →
        OneAttrSetAt b!"type" (prefixOf e.scope ⟨w3cSchemaNS, type⟩) t out p) ∧
      ((p = [] ∨ ∀ e, t.at? p = some e → ¬ (IsXs kind e ∧ e.attr [] b!"type" = [])) → SameAttrsAt t out p))
    (ha : Alike b!"type" t out) (hk : ∀ x ∈ below t, IsXs kind x → Speaks x.scope w3cSchemaNS) :
    (∀ x ∈ below out, IsXs kind x → attrNamed x b!"type" ≠ []) ∧
    ∀ kind', (∀ x ∈ below t, IsXs kind' x → attrNamed x b!"type" ≠ []) → ∀ x ∈ below out, IsXs kind' x → attrNamed x b!"type" ≠ [] := by
  have key : ∀ x' ∈ below out, ∃ x ∈ below t, x'.name = x.name ∧ ((attrNamed x' b!"type" = attrNamed x b!"type" ∧ (IsXs kind x → attrNamed x b!"type" ≠ [])) ∨ attrNamed x' b!"type" ≠ []) := by
    intro x' hx'
    obtain ⟨p, x, hp, h1, h2, h3, h4⟩ := ha.below hx'
    refine ⟨x, h3, h4.root.1, ?_⟩
    by_cases hc : IsXs kind x ∧ x.attr [] b!"type" = []
    · obtain ⟨y, h5, h6⟩ := oneAttr_attr ((hout.2 p).1 x hp h1 hc.1 hc.2)
      rw [h2] at h5
      cases h5
      rw [h6]
      exact Or.inr (prefixOf_ne (hk x h3 hc.1) hty)
    · refine Or.inl ⟨?_, fun hx he => hc ⟨hx, by rw [Wsdl.attr_eq]; exact he⟩⟩
      have := (hout.2 p).2 (Or.inr fun e he => by rw [h1] at he; cases he; exact hc)
      unfold SameAttrsAt at this
      rw [h1, h2] at this
      simp only [Option.map_some, Option.some.injEq] at this
      exact attrNamed_attrs this.symm _
  constructor
  · intro x' hx' hkx
    obtain ⟨x, _, h2, ⟨h3, h4⟩ | h3⟩ := key x' hx'
    · rw [h3]
      exact h4 ((isXs_name h2).mp hkx)
    · exact h3
  · intro kind' hk' x' hx' hkx
    obtain ⟨x, h1, h2, ⟨h3, _⟩ | h3⟩ := key x' hx'
    · rw [h3]
      exact hk' x h1 ((isXs_name h2).mp hkx)
    · exact h3

theorem neat_defaults {t : Element} (h : Neat t) : Neat (elementDefaultType (attributeDefaultType t)) ∧
    (∀ x ∈ below (elementDefaultType (attributeDefaultType t)), TypedAt x) ∧
    depth (attributeDefaultType t) = depth t ∧ depth (elementDefaultType (attributeDefaultType t)) = depth t := by
  have a1 : Alike b!"type" t (attributeDefaultType t) := alike_setAttrs _ _ _ _
  have a2 : Alike b!"type" (attributeDefaultType t) (elementDefaultType (attributeDefaultType t)) := alike_setAttrs _ _ _ _
  have n1 := a1.neat (by decide) (by decide) (by decide) h
  have n2 := a2.neat (by decide) (by decide) (by decide) n1
  have t1 := typed_default (by decide) (C29_attribute_default t) a1 fun x hx hk => (h.each x hx).typedBy (.inl hk)
  have t2 := typed_default (by decide) (C29_element_default (attributeDefaultType t)) a2 fun x hx hk => (n1.each x hx).typedBy (.inr hk)
  refine ⟨n2, ?_, a1.depth, by rw [a2.depth, a1.depth]⟩
  rintro x hx (hk | hk)
  · exact t2.2 _ t1.1 x hx hk
  · exact t2.1 x hx hk

/-! ### Choices -/

/-- The alternatives of a choice are optional. -/
def ChoiceAt (c : Element) : Prop := IsXs b!"choice" c → ∀ s ∈ c.children,
    (IsXs b!"sequence" s → ∀ x ∈ s.children, Lackable x) ∧ (¬ IsXs b!"sequence" s → Lackable s)

theorem choices_set (t : Element) : ∀ c ∈ below (setChoicesOptional t), ChoiceAt c := by
  have a : Alike b!"minOccurs" t (setChoicesOptional t) := alike_setAttrs _ _ _ _
  have hset : ∀ p y, InChoice t p → (setChoicesOptional t).at? p = some y → Lackable y := by
    intro p y hp hy
    obtain ⟨z, h1, h2⟩ := oneAttr_attr (((C30_choices t).2 p).1 hp)
    rw [hy] at h1
    cases h1
    exact h2
  intro c' hc' hch s' hs'
  obtain ⟨p, c, hp, h1, h2, _, h4⟩ := a.below hc'
  obtain ⟨i, hi⟩ := List.getElem?_of_mem hs'
  have hs2 : (setChoicesOptional t).at? (p ++ [i]) = some s' := by
    rw [at_append p [i] h2, Element.at?, hi]; exact at_nil _
  rcases a (p ++ [i]) with ⟨_, h⟩ | ⟨s, s'', g1, g2, g3, _, g5, _⟩
  · rw [hs2] at h; cases h
  rw [hs2] at g2
  cases g2
  have hcx := (isXs_name h4.root.1).mp hch
  constructor
  · intro hseq x' hx'
    obtain ⟨j, hj⟩ := List.getElem?_of_mem hx'
    have hx2 : (setChoicesOptional t).at? (p ++ [i, j]) = some x' := by
      rw [show p ++ [i, j] = (p ++ [i]) ++ [j] by simp, at_append (p ++ [i]) [j] hs2, Element.at?, hj]; exact at_nil _
    rcases a (p ++ [i, j]) with ⟨_, h⟩ | ⟨x, x'', k1, k2, _⟩
    · rw [hx2] at h; cases h
    exact hset _ x' (Or.inr ⟨p, i, j, c, s, x, hp, rfl, h1, hcx, g1, (isXs_name g3).mp hseq, k1⟩) hx2
  · intro hseq
    exact hset _ s' (Or.inl ⟨p, i, c, s, hp, rfl, h1, hcx, g1, fun hh => hseq ((isXs_name g3).mpr hh)⟩) hs2

/-! ### Names -/

theorem findIdx_lt {ks : List Element} {i : Nat} (h : ks.findIdx? (fun k => decide (AnonType k)) = some i) :
    ∃ k, ks[i]? = some k ∧ AnonType k := by
  obtain ⟨h1, h2, _⟩ := List.findIdx?_eq_some_iff_getElem.mp h
  exact ⟨ks[i], List.getElem?_eq_getElem h1, by simpa using h2⟩

theorem anon_attrSet {n : XName} {a : List Attr} {s : Scope} {c c' : Str} {ks ks' : List Element} {l v : Str} (hl : l ≠ b!"name") :
    AnonType (.mk n (attrSet [] l v a) s c' ks') ↔ AnonType (.mk n a s c ks) := by
  unfold AnonType Element.attr
  simp only [Element.name, Element.attrs]
  rw [attr_attrSet_other _ _ _ _ _ _ (Ne.symm hl)]

/-- What the moving of types keeps of all elements, provided what it does to one element keeps it. -/
theorem hoist_every {σ : Type} {P : Plan σ} {Q : Element → Prop}
    (keep : ∀ n a s c ks ks', Q (.mk n a s c ks) → List.Forall₂ Like ks ks' → Q (.mk n a s c ks'))
    (mv : ∀ n a s c ks ks' st i m, Q (.mk n a s c ks) → List.Forall₂ Like ks ks' → P.pick (.mk n a s c ks) = some i →
      (P.move st (.mk n a s c ks)).2 = some m → m.attr ≠ b!"name" ∧ Q (.mk n (attrSet [] m.attr m.value a) s [] (ks'.eraseIdx i)) ∧
        ∀ k, ks'[i]? = some k → Q k → Q (withAttrs m.rename k) ∧ ¬ HasAnon k) (t : Element) : ∀ st, Every Q t →
    Every Q (hoist P t st).1 ∧ Like t (hoist P t st).1 ∧ ∀ y ∈ (hoist P t st).2.1, Every Q y ∧ ¬ HasAnon y := by
  induction t using Element.ind with
  | hP n a s c ks ih =>
    intro st ht
    obtain ⟨hq, hks⟩ := every_iff.mp ht
    have hall : ∀ (js : List Element), (∀ k ∈ js, k ∈ ks) → ∀ st, (∀ k ∈ (hoistAll P js st).1, Every Q k) ∧ List.Forall₂ Like js (hoistAll P js st).1 ∧
        ∀ y ∈ (hoistAll P js st).2.1, Every Q y ∧ ¬ HasAnon y := by
      intro js
      induction js with
      | nil => intro _ st; rw [hoistAll]; exact ⟨by simp, .nil, by simp⟩
      | cons j js ih2 =>
        intro hjs st
        obtain ⟨i1, i2, i3⟩ := ih j (hjs j (by simp)) st (hks j (hjs j (by simp)))
        obtain ⟨j1, j2, j3⟩ := ih2 (fun k hk => hjs k (by simp [hk])) (hoist P j st).2.2
        rw [hoistAll]
        refine ⟨?_, .cons i2 j2, ?_⟩
        · intro k hk
          rcases List.mem_cons.mp hk with rfl | hk
          · exact i1
          · exact j1 k hk
        · intro y hy
          rcases List.mem_append.mp hy with hy | hy
          · exact i3 y hy
          · exact j3 y hy
    have hkeep : ∀ st, Every Q (.mk n a s c (hoistAll P ks st).1) ∧ Like (.mk n a s c ks) (.mk n a s c (hoistAll P ks st).1) := by
      intro st
      obtain ⟨j1, j2, j3⟩ := hall ks (fun _ h => h) st
      exact ⟨every_iff.mpr ⟨keep n a s c ks _ hq j2, j1⟩, rfl, Iff.rfl, hasAnon_like (x := .mk n a s c ks) (x' := .mk n a s c (hoistAll P ks st).1) j2⟩
    rw [hoist]
    cases hp : P.pick (.mk n a s c ks) with
    | none => exact ⟨(hkeep st).1, (hkeep st).2, (hall ks (fun _ h => h) st).2.2⟩
    | some i =>
      dsimp only
      rcases hm : P.move st (.mk n a s c ks) with ⟨st', _ | m⟩
      · exact ⟨(hkeep st').1, (hkeep st').2, (hall ks (fun _ h => h) st').2.2⟩
      · dsimp only
        obtain ⟨j1, j2, j3⟩ := hall ks (fun _ h => h) st'
        obtain ⟨m1, m2, m3⟩ := mv n a s c ks _ st i m hq j2 hp (by rw [hm])
        have hsub : ∀ k ∈ ((hoistAll P ks st').1.eraseIdx i), k ∈ (hoistAll P ks st').1 := fun k hk => List.mem_of_mem_eraseIdx hk
        refine ⟨every_iff.mpr ⟨m2, fun k hk => j1 k (hsub k hk)⟩, ⟨rfl, anon_attrSet m1, ?_⟩, ?_⟩
        · rintro ⟨k, h1, h2⟩
          obtain ⟨k0, h3, h4⟩ := like_left j2 (hsub k h1)
          exact ⟨k0, h3, h4.anon.mp h2⟩
        · intro y hy
          rcases List.mem_append.mp hy with hy | hy
          · cases hk : (hoistAll P ks st').1[i]? with
            | none => rw [hk] at hy; simp at hy
            | some k =>
              rw [hk] at hy
              simp only [Option.map_some, Option.toList_some, List.mem_singleton] at hy
              subst hy
              have hek := every_iff.mp (j1 k (List.mem_of_getElem? hk))
              obtain ⟨r1, r2⟩ := m3 k hk hek.1
              refine ⟨every_iff.mpr ⟨r1, ?_⟩, ?_⟩
              · intro k' hk'
                refine hek.2 k' ?_
                cases k
                exact hk'
              · rintro ⟨k', h1, h2⟩
                refine r2 ⟨k', ?_, h2⟩
                cases k
                exact h1
          · exact j3 y hy

/-! ### The two passes that name types -/

theorem pick_anon {σ : Type} {P : Plan σ} {t : Element} (h : P.pick t ≠ none) : P.cand t = true ∧ HasAnon t := by
  unfold Plan.pick at h
  split at h
  · rename_i hc
    refine ⟨hc, ?_⟩
    cases hf : t.children.findIdx? (fun k => decide (AnonType k)) with
    | none => rw [hf] at h; exact absurd rfl h
    | some i =>
      obtain ⟨k, h1, h2⟩ := findIdx_lt hf
      exact ⟨k, List.mem_of_getElem? h1, h2⟩
  · exact absurd rfl h

theorem pick_at {σ : Type} {P : Plan σ} {t : Element} {i : Nat} (h : P.pick t = some i) : ∃ k, t.children[i]? = some k ∧ AnonType k := by
  unfold Plan.pick at h
  split at h
  · exact findIdx_lt h
  · cases h

theorem filter_eraseIdx {ks : List Element} {i : Nat} {k : Element} (hk : ks[i]? = some k) (ha : AnonType k) :
    ((ks.eraseIdx i).filter AnonType).length + 1 = (ks.filter AnonType).length := by
  induction ks generalizing i with
  | nil => simp at hk
  | cons x ks ih =>
    cases i with
    | zero =>
      simp only [List.getElem?_cons_zero, Option.some.injEq] at hk
      subst hk
      rw [List.eraseIdx_cons_zero, List.filter_cons, if_pos (by simpa using ha), List.length_cons]
    | succ i =>
      rw [List.getElem?_cons_succ] at hk
      rw [List.eraseIdx_cons_succ, List.filter_cons, List.filter_cons]
      split
      · rw [List.length_cons, List.length_cons, ih hk]
      · exact ih hk

theorem like_at {ks ks' : List Element} (h : List.Forall₂ Like ks ks') {i : Nat} {k' : Element} (hk : ks'[i]? = some k') : ∃ k, ks[i]? = some k ∧ Like k k' := by
  induction h generalizing i with
  | nil => simp at hk
  | cons h1 _ ih =>
    cases i with
    | zero => simp only [List.getElem?_cons_zero, Option.some.injEq] at hk ⊢; subst hk; exact ⟨_, rfl, h1⟩
    | succ i => simp only [List.getElem?_cons_succ] at hk ⊢; exact ih hk

theorem attrNamed_other {n : XName} {a : List Attr} {s : Scope} {c c' : Str} {ks ks' : List Element} {l v loc : Str} (hl : loc ≠ l) :
    attrNamed (.mk n (attrSet [] l v a) s c' ks') loc = attrNamed (.mk n a s c ks) loc := by
  rw [← Wsdl.attr_eq, ← Wsdl.attr_eq]
  exact attr_attrSet_other _ _ _ _ _ _ hl

theorem attrNamed_setSame {n : XName} {a : List Attr} {s : Scope} {c : Str} {ks : List Element} {l v : Str} :
    attrNamed (.mk n (attrSet [] l v a) s c ks) l = v := by
  rw [← Wsdl.attr_eq]
  exact attr_attrSet_same _ _ _ _

/-- What each pass keeps. -/
def Kept (tns : Str) (x : Element) : Prop := NeatAt tns x ∧ TypedAt x

/-- A pass that moves types and writes a name wherever it sets a type. -/
structure Namer {σ : Type} (tns : Str) (P : Plan σ) : Prop where
  attr : ∀ {st x m}, NeatAt tns x → HasAnon x → P.cand x = true → (P.move st x).2 = some m →
    m.attr ≠ b!"name" ∧ m.attr ≠ b!"ref" ∧ (m.attr = b!"type" → m.value ≠ [])
  other : ∀ {st x m}, (P.move st x).2 = some m → ∀ a loc, loc = b!"type" ∨ loc = b!"ref" → attrGet [] loc (m.rename a) = attrGet [] loc a

theorem keep_kept {tns : Str} (n : XName) (a : List Attr) (s : Scope) (c : Str) (ks ks' : List Element) (h : Kept tns (.mk n a s c ks))
    (hk : List.Forall₂ Like ks ks') : Kept tns (.mk n a s c ks') :=
  ⟨neatAt_keep h.1 rfl rfl rfl rfl hk, h.2⟩

theorem Namer.mv {σ : Type} {tns : Str} {P : Plan σ} (N : Namer tns P) (n : XName) (a : List Attr) (s : Scope) (c : Str) (ks ks' : List Element) (st : σ) (i : Nat) (m : Move)
    (h : Kept tns (.mk n a s c ks)) (hk : List.Forall₂ Like ks ks') (hp : P.pick (.mk n a s c ks) = some i) (hm : (P.move st (.mk n a s c ks)).2 = some m) :
    m.attr ≠ b!"name" ∧ Kept tns (.mk n (attrSet [] m.attr m.value a) s [] (ks'.eraseIdx i)) ∧
        ∀ k, ks'[i]? = some k → Kept tns k → Kept tns (withAttrs m.rename k) ∧ ¬ HasAnon k := by
  obtain ⟨hc, hh⟩ := pick_anon (P := P) (t := .mk n a s c ks) (by rw [hp]; simp)
  obtain ⟨k0, hk0, ha0⟩ := pick_at hp
  obtain ⟨h1, h2, h3⟩ := N.attr h.1 hh hc hm
  obtain ⟨o1, o2⟩ := h.1.one hh
  simp only [Element.children] at hk0 o1 o2
  obtain ⟨k1, hk1⟩ : ∃ k1, ks'[i]? = some k1 := by
    have : i < ks'.length := by rw [← hk.length_eq]; exact (List.getElem?_eq_some_iff.mp hk0).1
    exact ⟨_, List.getElem?_eq_getElem this⟩
  obtain ⟨k0', e1, e2⟩ := like_at hk hk1
  rw [hk0] at e1
  cases e1
  have hnone : (ks'.eraseIdx i).filter AnonType = [] := by
    have := filter_eraseIdx hk1 (e2.anon.mpr ha0)
    rw [filter_like hk, o1] at this
    exact List.length_eq_zero_iff.mp (by omega)
  refine ⟨h1, ⟨neatAt_none h.1 rfl rfl (attrNamed_other (Ne.symm h2)) ?_ ?_, ?_⟩, ?_⟩
  · rintro ⟨k, g1, g2⟩
    have : k ∈ (ks'.eraseIdx i).filter AnonType := List.mem_filter.mpr ⟨g1, by simpa using g2⟩
    rw [hnone] at this
    cases this
  · intro k' hk'
    obtain ⟨k, g1, g2⟩ := like_left hk (List.mem_of_mem_eraseIdx hk')
    exact ⟨k, g1, g2.name⟩
  · intro ht
    by_cases he : m.attr = b!"type"
    · have := attrNamed_setSame (n := n) (a := a) (s := s) (c := []) (ks := ks'.eraseIdx i) (l := m.attr) (v := m.value)
      rw [he] at this ⊢
      rw [this]
      exact h3 he
    · rw [attrNamed_other (c := c) (ks := ks) (Ne.symm he)]
      exact h.2 ht
  · intro k hk2 hkk
    rw [hk1] at hk2
    cases hk2
    have hno : ¬ HasAnon k1 := fun hh => o2 k0 (List.mem_of_getElem? hk0) (e2.has hh)
    refine ⟨?_, hno⟩
    cases k1 with
    | mk n1 a1 s1 c1 ks1 =>
      have hat : ∀ loc, loc = b!"type" ∨ loc = b!"ref" → attrNamed (withAttrs m.rename (.mk n1 a1 s1 c1 ks1)) loc = attrNamed (.mk n1 a1 s1 c1 ks1) loc := by
        intro loc hl
        rw [← Wsdl.attr_eq, ← Wsdl.attr_eq]
        exact N.other hm a1 loc hl
      refine ⟨neatAt_none hkk.1 rfl rfl (hat _ (.inr rfl)) hno fun k hk => ⟨k, hk, rfl⟩, ?_⟩
      intro ht
      rw [hat _ (.inl rfl)]
      exact hkk.2 ht

theorem hoistAll_every {σ : Type} {tns : Str} {P : Plan σ} (N : Namer tns P) (ks : List Element) : ∀ st, (∀ k ∈ ks, Every (Kept tns) k) →
    (∀ k ∈ (hoistAll P ks st).1, Every (Kept tns) k) ∧ List.Forall₂ Like ks (hoistAll P ks st).1 ∧
      ∀ y ∈ (hoistAll P ks st).2.1, Every (Kept tns) y ∧ ¬ HasAnon y := by
  induction ks with
  | nil => intro st _; rw [hoistAll]; exact ⟨by simp, .nil, by simp⟩
  | cons j js ih =>
    intro st hjs
    obtain ⟨i1, i2, i3⟩ := hoist_every (P := P) keep_kept N.mv j st (hjs j (by simp))
    obtain ⟨j1, j2, j3⟩ := ih (hoist P j st).2.2 fun k hk => hjs k (by simp [hk])
    rw [hoistAll]
    refine ⟨?_, .cons i2 j2, ?_⟩
    · intro k hk
      rcases List.mem_cons.mp hk with rfl | hk
      · exact i1
      · exact j1 k hk
    · intro y hy
      rcases List.mem_append.mp hy with hy | hy
      · exact i3 y hy
      · exact j3 y hy

/-- Neat, with types. -/
structure Ready (t : Element) : Prop where
  neat : Neat t
  typed : ∀ x ∈ below t, TypedAt x

theorem hoistRoot_ready {σ : Type} {P : Plan σ} {t : Element} (N : Namer (attrNamed t b!"targetNamespace") P) (h : Ready t) (st : σ) :
    Ready (hoistRoot P t st).1 := by
  have hk : ∀ k ∈ t.children, Every (Kept (attrNamed t b!"targetNamespace")) k := every_below.mp fun x hx => ⟨h.neat.each x hx, h.typed x hx⟩
  obtain ⟨h1, h2, h3⟩ := hoistAll_every N t.children st hk
  have htop := h.neat.top
  have hsch := h.neat.schema
  cases t with
  | mk n a s c ks =>
    simp only [Element.children] at h1 h2 h3 htop
    have hE : ∀ x ∈ below (hoistRoot P (.mk n a s c ks) st).1, Kept (attrNamed (.mk n a s c ks) b!"targetNamespace") x := by
      rw [every_below]
      intro k hk
      rw [hoistRoot] at hk
      rcases List.mem_append.mp hk with hk | hk
      · exact h1 k hk
      · exact (h3 k hk).1
    refine ⟨⟨?_, ?_, fun x hx => (hE x hx).1⟩, fun x hx => (hE x hx).2⟩
    · exact hsch
    · intro k hk
      rw [hoistRoot] at hk
      rcases List.mem_append.mp hk with hk | hk
      · obtain ⟨k0, g1, g2⟩ := like_left h2 hk
        exact fun hh => htop k0 g1 (g2.has hh)
      · exact (h3 k hk).2

theorem tidy_of_neat {σ : Type} {P : Plan σ} {t : Element} (h : Neat t) : TidyDoc P t := by
  have hno : ∀ k, ¬ HasAnon k → P.pick k = none := fun k hk => Classical.byContradiction fun hh => hk (pick_anon hh).2
  intro k hk
  refine ⟨hno k (h.top k hk), fun p x hx hp => ?_⟩
  obtain ⟨h1, h2⟩ := (every_below.mp h.each k hk p x hx).one (pick_anon hp).2
  exact ⟨h1, fun k hk => hno k (h2 k hk)⟩

theorem holders_of_neat {t : Element} (h : Neat t) : TypeHolders t := by
  intro p x hx hp _ hh
  obtain ⟨loc, h1, h2⟩ := (h.each x ((mem_below_iff t x).mpr ⟨p, hp, hx⟩)).holder hh
  rw [h2]
  exact h1

/-- A name without a prefix. -/
theorem resolve_plain (sc : Scope) (q : Str) (hq : (58 : UInt8) ∉ q) : ∃ ns, resolve sc q = ⟨ns, q⟩ ∧ Speaks sc ns := by
  have hp : QNameParts q [] q := Or.inr ⟨hq, rfl, rfl⟩
  obtain ⟨_, _, h3, h4, h5⟩ := C03_resolveNS sc q [] q hp
  by_cases hd : Declared sc []
  · obtain ⟨ns, hi⟩ := innermost_exists hd
    rw [h5, h3 (by decide) (by decide) ns hi]
    obtain ⟨o, i, rfl, _⟩ := hi
    exact ⟨ns, rfl, Or.inr ⟨_, List.mem_append_right _ (List.mem_cons_self), rfl⟩⟩
  · rw [h5, h4 (by decide) (by decide) hd]
    exact ⟨[], rfl, Or.inl rfl⟩

theorem byElement_namer (tns : Str) : Namer tns (byElement tns) where
  attr := by
    intro st x m hx hh hc hm
    simp only [byElement, decide_eq_true_eq] at hc hm
    split at hm
    · cases hm
    · cases hm
      dsimp only
      refine ⟨by decide +kernel, by decide +kernel, fun _ => ?_⟩
      have hpl := hx.plain hh
      rw [← Wsdl.attr_eq] at hpl
      unfold resolveDefault
      by_cases ht : tns = []
      · rw [if_pos (.inl ht)]
        obtain ⟨ns, h1, h2⟩ := resolve_plain x.scope _ hpl
        rw [h1]
        exact prefixOf_ne h2 hc.2
      · rw [if_neg (by rintro (h | h); exact ht h; exact hpl h)]
        exact prefixOf_ne (hx.speaks hh) hc.2
  other := by
    intro st x m hm a loc hl
    simp only [byElement] at hm
    split at hm
    · cases hm
    · cases hm
      refine attr_attrSet_other _ _ _ _ _ _ ?_
      rcases hl with rfl | rfl <;> decide +kernel

theorem referrer_cases (loc : Str) : referrer loc = b!"itemType" ∨ referrer loc = b!"base" ∨ referrer loc = b!"memberTypes" ∨ (referrer loc = b!"type" ∧ loc ≠ b!"union") := by
  unfold referrer
  split
  · exact .inl rfl
  · split
    · exact .inr (.inl rfl)
    · split
      · exact .inr (.inr (.inl rfl))
      · rename_i h
        exact .inr (.inr (.inr ⟨rfl, h⟩))

theorem numbered_namer (tns : Str) : Namer tns (numbered tns) where
  attr := by
    intro st x m hx hh hc hm
    simp only [numbered] at hm
    split at hm
    · cases hm
      dsimp only
      rcases referrer_cases x.name.loc with h | h | h | ⟨h, hu⟩
      · rw [h]; exact ⟨by decide +kernel, by decide +kernel, fun hh => absurd hh (by decide +kernel)⟩
      · rw [h]; exact ⟨by decide +kernel, by decide +kernel, fun hh => absurd hh (by decide +kernel)⟩
      · rw [h]; exact ⟨by decide +kernel, by decide +kernel, fun hh => absurd hh (by decide +kernel)⟩
      · rw [h]
        refine ⟨by decide +kernel, by decide +kernel, fun _ => ?_⟩
        rw [if_neg hu, List.nil_append]
        exact prefixOf_ne (hx.speaks hh) (by simp)
    · cases hm
  other := by
    intro st x m hm a loc hl
    simp only [numbered] at hm
    split at hm
    · cases hm
      dsimp only
      rw [attr_attrSet_other, attr_attrSet_other]
      · rcases hl with rfl | rfl <;> decide +kernel
      · rcases hl with rfl | rfl <;> decide +kernel
    · cases hm

/-! ### Depths -/

theorem depth_le_depths {k : Element} {ks : List Element} (hk : k ∈ ks) : depth k ≤ depths ks := by
  induction ks with
  | nil => cases hk
  | cons x ks ih =>
    rw [depths]
    rcases List.mem_cons.mp hk with rfl | hk
    · omega
    · have := ih hk; omega

theorem depths_le {ks : List Element} {n : Nat} (h : ∀ k ∈ ks, depth k ≤ n) : depths ks ≤ n := by
  induction ks with
  | nil => rw [depths]; omega
  | cons x ks ih =>
    rw [depths]
    have := h x (by simp)
    have := ih fun k hk => h k (by simp [hk])
    omega

theorem hoistAll_depth {σ : Type} {P : Plan σ} (ks : List Element)
    (ih : ∀ k ∈ ks, ∀ st, depth (hoist P k st).1 ≤ depth k ∧ ∀ y ∈ (hoist P k st).2.1, depth y < depth k) : ∀ st,
    (∀ k ∈ (hoistAll P ks st).1, depth k ≤ depths ks) ∧ ∀ y ∈ (hoistAll P ks st).2.1, depth y < depths ks := by
  induction ks with
  | nil => intro st; rw [hoistAll]; simp
  | cons j js ih2 =>
    intro st
    obtain ⟨i1, i3⟩ := ih j (by simp) st
    obtain ⟨j1, j3⟩ := ih2 (fun k hk => ih k (by simp [hk])) (hoist P j st).2.2
    rw [hoistAll, depths]
    refine ⟨?_, ?_⟩
    · intro k hk
      rcases List.mem_cons.mp hk with rfl | hk
      · omega
      · have := j1 k hk; omega
    · intro y hy
      rcases List.mem_append.mp hy with hy | hy
      · have := i3 y hy; omega
      · have := j3 y hy; omega

theorem hoist_depth {σ : Type} {P : Plan σ} (t : Element) : ∀ st, depth (hoist P t st).1 ≤ depth t ∧ ∀ y ∈ (hoist P t st).2.1, depth y < depth t := by
  induction t using Element.ind with
  | hP n a s c ks ih =>
    intro st
    have hall := hoistAll_depth (P := P) ks ih
    have hkeep : ∀ st, depth (.mk n a s c (hoistAll P ks st).1) ≤ depth (.mk n a s c ks) := by
      intro st
      rw [depth, depth]
      have := depths_le (hall st).1
      omega
    have hmoved : ∀ st, ∀ y ∈ (hoistAll P ks st).2.1, depth y < depth (.mk n a s c ks) := by
      intro st y hy
      have := (hall st).2 y hy
      rw [depth]
      omega
    rw [hoist]
    split
    · exact ⟨hkeep st, hmoved st⟩
    · rename_i i _
      rcases P.move st (.mk n a s c ks) with ⟨st', _ | m⟩
      · exact ⟨hkeep st', hmoved st'⟩
      · dsimp only
        refine ⟨?_, ?_⟩
        · rw [depth, depth]
          have : depths ((hoistAll P ks st').1.eraseIdx i) ≤ depths ks := depths_le fun k hk => (hall st').1 k (List.mem_of_mem_eraseIdx hk)
          omega
        · intro y hy
          rcases List.mem_append.mp hy with hy | hy
          · cases hk : (hoistAll P ks st').1[i]? with
            | none => rw [hk] at hy; simp at hy
            | some k =>
              rw [hk] at hy
              simp only [Option.map_some, Option.toList_some, List.mem_singleton] at hy
              have h1 := (hall st').1 k (List.mem_of_getElem? hk)
              have h2 : depth y = depth k := by subst hy; cases k; rfl
              rw [depth]
              omega
          · exact hmoved st' y hy

theorem hoistRoot_depth {σ : Type} {P : Plan σ} (t : Element) (st : σ) : depth (hoistRoot P t st).1 ≤ depth t := by
  cases t with
  | mk n a s c ks =>
    obtain ⟨h1, h2⟩ := hoistAll_depth (P := P) ks (fun k _ => hoist_depth k) st
    rw [hoistRoot, depth, depth]
    have : depths ((hoistAll P ks st).1 ++ (hoistAll P ks st).2.1) ≤ depths ks := depths_le fun k hk => by
      rcases List.mem_append.mp hk with hk | hk
      · exact h1 k hk
      · exact Nat.le_of_lt (h2 k hk)
    omega

/-! ### After the names -/

theorem none_left {t : Element} (h : Neat t) (k : Nat) (h' : Neat (hoistRoot (numbered (t.attr [] b!"targetNamespace")) t k).1) :
    ∀ x ∈ below (hoistRoot (numbered (t.attr [] b!"targetNamespace")) t k).1, ¬ HasAnon x := by
  intro x hx hh
  obtain ⟨loc, _, h2⟩ := (h'.each x hx).holder hh
  obtain ⟨y, h3, h4⟩ := hh
  have hw : w3cSchemaNS = schemaNS := by decide
  refine (every_below (Q := fun x => x.name.space = schemaNS → ∀ k ∈ x.children, ¬ AnonType k)).mpr
    (C32_none_left (t.attr [] b!"targetNamespace") t (tidy_of_neat h) (holders_of_neat h) k).1 x hx ?_ y h3 h4
  rw [h2, hw]

/-- Everything but the explicit content of complex types. -/
structure Nearly (x : Element) : Prop where
  typed : TypedAt x
  named : ¬ HasAnon x
  choices : ChoiceAt x
  noGroup : ∀ k ∈ x.children, ¬ IsXs b!"group" k ∧ ¬ IsXs b!"attributeGroup" k

/-- The second loop. -/
theorem second_ready {t : Element} (h : Ready t) (k : Nat) :
    Neat (setChoicesOptional (hoistRoot (numbered (t.attr [] b!"targetNamespace")) t k).1) ∧
    (∀ x ∈ below (setChoicesOptional (hoistRoot (numbered (t.attr [] b!"targetNamespace")) t k).1), Nearly x) ∧
    depth (setChoicesOptional (hoistRoot (numbered (t.attr [] b!"targetNamespace")) t k).1) ≤ depth t := by
  have hr : Ready (hoistRoot (numbered (t.attr [] b!"targetNamespace")) t k).1 :=
    hoistRoot_ready (by rw [← Wsdl.attr_eq]; exact numbered_namer _) h k
  have hno := none_left h.neat k hr.neat
  have hd := hoistRoot_depth (P := numbered (t.attr [] b!"targetNamespace")) t k
  generalize (hoistRoot (numbered (t.attr [] b!"targetNamespace")) t k).1 = u at *
  have a : Alike b!"minOccurs" u (setChoicesOptional u) := alike_setAttrs _ _ _ _
  have hn := a.neat (by decide) (by decide) (by decide) hr.neat
  refine ⟨hn, ?_, by rw [a.depth]; exact hd⟩
  intro x' hx'
  obtain ⟨p, x, _, _, _, h3, h4⟩ := a.below hx'
  refine ⟨?_, fun hh => hno x h3 ((h4.like (by decide)).has hh), choices_set u x' hx', (hn.each x' hx').noGroup⟩
  intro ht
  rw [isXs_name h4.root.1, isXs_name h4.root.1] at ht
  rw [h4.root.2.2.2 _ (by decide)]
  exact hr.typed x h3 ht

/-! ### Expanding -/

theorem expandTree_attrs (t : Element) : (expandTree t).attrs = t.attrs := by
  rw [expandTree_eq]
  cases t
  split <;> rfl

theorem anon_expand (t : Element) : AnonType (expandTree t) ↔ AnonType t := by
  unfold AnonType Element.attr
  rw [expandTree_name, expandTree_attrs]

theorem expandTree_plain {t : Element} (h : ¬ Shorthand t) : (expandTree t).children = t.children.map expandTree := by
  rw [expandTree_eq, if_neg h]
  cases t
  rfl

theorem nearly_expand (t : Element) : Every Nearly t → Every Nearly (expandTree t) := by
  induction t using Element.ind with
  | hP n a s c ks ih =>
    intro ht
    obtain ⟨hq, hks⟩ := every_iff.mp ht
    have hw : w3cSchemaNS = schemaNS := by decide
    have hE : ∀ k' ∈ ks.map expandTree, Every Nearly k' := by
      intro k' hk'
      obtain ⟨k, h1, rfl⟩ := List.mem_map.mp hk'
      exact ih k h1 (hks k h1)
    have hanon : ∀ k' ∈ ks.map expandTree, ¬ AnonType k' := by
      intro k' hk' ha
      obtain ⟨k, h1, rfl⟩ := List.mem_map.mp hk'
      exact hq.named ⟨k, h1, (anon_expand k).mp ha⟩
    have hgroup : ∀ k' ∈ ks.map expandTree, ¬ IsXs b!"group" k' ∧ ¬ IsXs b!"attributeGroup" k' := by
      intro k' hk'
      obtain ⟨k, h1, rfl⟩ := List.mem_map.mp hk'
      rw [isXs_name (expandTree_name k), isXs_name (expandTree_name k)]
      exact hq.noGroup k h1
    rw [expandTree_eq]
    by_cases hsh : Shorthand (.mk n a s c ks)
    · rw [if_pos hsh]
      have hn : n = ⟨schemaNS, b!"complexType"⟩ := hsh.1
      subst hn
      simp only [expandBelow, canonical]
      have hR : Every Nearly (.mk ⟨schemaNS, b!"restriction"⟩ [⟨⟨[], b!"base"⟩, prefixOf s ⟨schemaNS, b!"anyType"⟩⟩] s [] ((ks.map expandTree).filter BelongsToContent)) := by
        refine every_iff.mpr ⟨⟨?_, ?_, ?_, ?_⟩, fun k hk => hE k (List.mem_filter.mp hk).1⟩
        · rintro (h | h) <;> (unfold IsXs at h; simp [Element.name] at h)
        · rintro ⟨k, h1, h2⟩
          exact hanon k (List.mem_filter.mp h1).1 h2
        · intro h; unfold IsXs at h; simp [Element.name] at h
        · intro k hk
          exact hgroup k (List.mem_filter.mp hk).1
      have hC : Every Nearly (.mk ⟨schemaNS, b!"complexContent"⟩ [] s []
          [.mk ⟨schemaNS, b!"restriction"⟩ [⟨⟨[], b!"base"⟩, prefixOf s ⟨schemaNS, b!"anyType"⟩⟩] s [] ((ks.map expandTree).filter BelongsToContent)]) := by
        refine every_iff.mpr ⟨⟨?_, ?_, ?_, ?_⟩, fun k hk => by rw [List.mem_singleton.mp hk]; exact hR⟩
        · rintro (h | h) <;> (unfold IsXs at h; simp [Element.name] at h)
        · rintro ⟨k, h1, h2⟩
          rw [List.mem_singleton.mp h1] at h2
          obtain ⟨h2 | h2, _⟩ := h2 <;> simp [Element.name] at h2
        · intro h; unfold IsXs at h; simp [Element.name] at h
        · intro k hk
          rw [List.mem_singleton.mp hk]
          constructor <;> (intro h; unfold IsXs at h; simp [Element.name] at h)
      refine every_iff.mpr ⟨⟨hq.typed, ?_, ?_, ?_⟩, ?_⟩
      · rintro ⟨k, h1, h2⟩
        rcases List.mem_append.mp h1 with h1 | h1
        · exact hanon k (List.mem_filter.mp h1).1 h2
        · rw [List.mem_singleton.mp h1] at h2
          obtain ⟨h2 | h2, _⟩ := h2 <;> simp [Element.name] at h2
      · intro h; unfold IsXs at h; simp [Element.name] at h
      · intro k hk
        rcases List.mem_append.mp hk with h1 | h1
        · exact hgroup k (List.mem_filter.mp h1).1
        · rw [List.mem_singleton.mp h1]
          constructor <;> (intro h; unfold IsXs at h; simp [Element.name] at h)
      · intro k hk
        rcases List.mem_append.mp hk with h1 | h1
        · exact hE k (List.mem_filter.mp h1).1
        · rw [List.mem_singleton.mp h1]; exact hC
    · rw [if_neg hsh]
      simp only [expandBelow]
      refine every_iff.mpr ⟨⟨hq.typed, ?_, ?_, hgroup⟩, hE⟩
      · rintro ⟨k, h1, h2⟩
        exact hanon k h1 h2
      · intro hch s' hs'
        obtain ⟨s0, h1, rfl⟩ := List.mem_map.mp hs'
        obtain ⟨c1, c2⟩ := hq.choices hch s0 h1
        rw [isXs_name (expandTree_name s0)]
        have hlack : ∀ x, Lackable x → Lackable (expandTree x) := by
          intro x hx
          unfold Lackable at hx ⊢
          rw [attrNamed_attrs (expandTree_attrs x)]
          exact hx
        refine ⟨fun hseq x' hx' => ?_, fun hseq => hlack _ (c2 hseq)⟩
        have hns : ¬ Shorthand s0 := by
          intro hh
          have := hh.1
          rw [hseq] at this
          simp at this
        rw [expandTree_plain hns] at hx'
        obtain ⟨x, h3, rfl⟩ := List.mem_map.mp hx'
        exact hlack x (c1 hseq x h3)

theorem expandTree_depth (t : Element) : depth (expandTree t) ≤ 3 * depth t := by
  induction t using Element.ind with
  | hP n a s c ks ih =>
    have hall : ∀ k ∈ ks.map expandTree, depth k ≤ 3 * depths ks := by
      intro k' hk'
      obtain ⟨k, h1, rfl⟩ := List.mem_map.mp hk'
      have := ih k h1
      have := depth_le_depths h1
      omega
    rw [expandTree_eq]
    split
    · simp only [expandBelow, canonical, depth]
      have h1 : depths ((ks.map expandTree).filter BelongsToContent) ≤ 3 * depths ks := depths_le fun k hk => hall k (List.mem_filter.mp hk).1
      have h2 : depths ((ks.map expandTree).filter (¬ BelongsToContent ·) ++ [.mk ⟨schemaNS, b!"complexContent"⟩ [] s []
        [.mk ⟨schemaNS, b!"restriction"⟩ [⟨⟨[], b!"base"⟩, prefixOf s ⟨schemaNS, b!"anyType"⟩⟩] s [] ((ks.map expandTree).filter BelongsToContent)]]) ≤ 3 * depths ks + 2 := by
        refine depths_le fun k hk => ?_
        rcases List.mem_append.mp hk with hk | hk
        · have := hall k (List.mem_filter.mp hk).1
          omega
        · rw [List.mem_singleton.mp hk]
          simp only [depth, depths]
          omega
      omega
    · simp only [expandBelow, depth]
      have := depths_le hall
      omega

theorem expandBelow_depth (t : Element) : depth (expandBelow t) ≤ 3 * depth t := by
  cases t with
  | mk n a s c ks =>
    have : depths (ks.map expandTree) ≤ 3 * depths ks := depths_le fun k' hk' => by
      obtain ⟨k, h1, rfl⟩ := List.mem_map.mp hk'
      have := expandTree_depth k
      have := depth_le_depths h1
      omega
    simp only [expandBelow, depth]
    omega

/-- All of the canonical form that concerns one element, other than references. -/
structure Settled (x : Element) : Prop where
  typed : TypedAt x
  named : ¬ HasAnon x
  choices : ChoiceAt x
  full : ¬ Shorthand x
  noGroup : ∀ k ∈ x.children, ¬ IsXs b!"group" k ∧ ¬ IsXs b!"attributeGroup" k

theorem settled_expand {t : Element} (h : ∀ x ∈ below t, Nearly x) : ∀ x ∈ below (expandBelow t), Settled x := by
  have hk := every_below.mp h
  have hE : ∀ x ∈ below (expandBelow t), Nearly x := by
    rw [every_below]
    intro k' hk'
    cases t
    obtain ⟨k, h1, rfl⟩ := List.mem_map.mp hk'
    exact nearly_expand k (hk k h1)
  have hX : ∀ x ∈ below (expandBelow t), x.name = ⟨schemaNS, b!"complexType"⟩ → ExplicitContent x := by
    rw [every_below]
    intro k' hk'
    cases t
    obtain ⟨k, h1, rfl⟩ := List.mem_map.mp hk'
    exact C31_explicit k
  exact fun x hx => ⟨(hE x hx).typed, (hE x hx).named, (hE x hx).choices, fun hsh => explicit_iff (hX x hx hsh.1) hsh, (hE x hx).noGroup⟩

theorem canonical_settled {t : Element} (hs : IsXs b!"schema" t) (h : ∀ x ∈ below t, Settled x) (hr : ∀ x ∈ below t, ¬ IsRef x) : Canonical t := by
  have hw : w3cSchemaNS = schemaNS := by decide
  refine ⟨hs, fun x hx => (h x hx).typed, ?_, fun x hx => (h x hx).choices, fun x hx => (h x hx).full, fun x hx => Classical.byContradiction (hr x hx), fun x hx => (h x hx).noGroup⟩
  intro x hx k hk ht hn
  refine (h x hx).named ⟨k, hk, (anonType_iff k).mpr ⟨?_, hn⟩⟩
  unfold IsXs at ht
  rw [hw] at ht
  exact ht

theorem noNested_of_neat {t : Element} (h : Neat t) : NoNestedTypes t := by
  intro p x hx hsh k hk hshk
  have hw : w3cSchemaNS = schemaNS := by decide
  cases p with
  | nil =>
    rw [at_nil] at hx
    cases hx
    have := h.schema
    unfold IsXs at this
    rw [hsh.1] at this
    simp at this
  | cons i p =>
    refine (h.each x ((mem_below_iff t x).mpr ⟨i :: p, by simp, hx⟩)).apart ?_ k hk ?_
    · unfold IsXs; rw [hw]; exact hsh.1
    · unfold IsXs; rw [hw]; exact hshk.1

/-! ### Loading -/

theorem loadDocs_apart (grow : Nat → Nat → Nat) : ∀ (docs : List Element) (h : EHeap),
    (∃ xs, (loadDocs grow docs h).1 = h ++ xs) ∧ (loadDocs grow docs h).2.length = docs.length ∧
    ∃ fps : List (List Nat), List.Forall₂ (fun d fp => ∃ e, (loadDocs grow docs h).1.get d.1 = some e ∧ Owns (loadDocs grow docs h).1 d.2 e fp)
        ((loadDocs grow docs h).2.zip docs) fps ∧ fps.flatten.Nodup ∧ (loadDocs grow docs h).2.Nodup ∧
      (∀ p ∈ (loadDocs grow docs h).2, h.length ≤ p.arr ∧ p.arr ∉ fps.flatten) ∧ ∀ a ∈ fps.flatten, h.length ≤ a := by
  intro docs
  induction docs with
  | nil => intro h; exact ⟨⟨[], by simp [loadDocs]⟩, rfl, [], by simp [loadDocs], by simp, by simp [loadDocs], by simp [loadDocs], by simp⟩
  | cons d docs ih =>
    intro h
    obtain ⟨fp, o1, o2, o3⟩ := load_owns grow d h
    obtain ⟨ys, hy⟩ := load_mono grow d h
    have olt := owns_lt d o1
    obtain ⟨⟨zs, i1⟩, i2, fps, i3, i4, i5, i6, i7⟩ := ih (loadDoc grow d h).1
    have hlen : (loadDoc grow d h).1.length = (load grow d h).1.length + 1 := by unfold loadDoc; simp
    have hle : h.length ≤ (load grow d h).1.length := by rw [hy]; simp
    have hroot : (loadDoc grow d h).2 = ⟨(load grow d h).1.length, 0⟩ := rfl
    have hold : (loadDoc grow d h).1 = (load grow d h).1 ++ [[(load grow d h).2]] := rfl
    simp only [loadDocs]
    refine ⟨⟨ys ++ [[(load grow d h).2]] ++ zs, by rw [i1, hold, hy]; simp⟩, by simp [i2], fp :: fps, ?_, ?_, ?_, ?_, ?_⟩
    · rw [List.zip_cons_cons]
      refine .cons ⟨(load grow d h).2, ?_, ?_⟩ i3
      · rw [i1, hroot, get_append_left _ _ (by show (load grow d h).1.length < _; omega), hold, get_new]
        rfl
      · rw [i1, hold]
        exact owns_append _ (owns_append _ o1)
    · rw [List.flatten_cons, List.nodup_append]
      refine ⟨o2, i4, fun a ha b hb he => ?_⟩
      subst he
      have := olt a ha
      have := i7 a hb
      omega
    · refine List.nodup_cons.mpr ⟨fun hm => ?_, i5⟩
      have := (i6 _ hm).1
      rw [hroot] at this
      dsimp only at this
      omega
    · intro p hp
      rw [List.flatten_cons, List.mem_append, not_or]
      rcases List.mem_cons.mp hp with rfl | hp
      · rw [hroot]
        dsimp only
        refine ⟨hle, fun hm => ?_, fun hm => ?_⟩
        · have := olt _ hm; omega
        · have := i7 _ hm; omega
      · obtain ⟨g1, g2⟩ := i6 p hp
        refine ⟨by omega, fun hm => ?_, g2⟩
        have := olt _ hm; omega
    · intro a ha
      rw [List.flatten_cons, List.mem_append] at ha
      rcases ha with ha | ha
      · exact o3 a ha
      · have := i7 a ha; omega

theorem loadDocs_docs (grow : Nat → Nat → Nat) (docs : List Element) :
    HoldsDocs (loadDocs grow docs []).1 ((loadDocs grow docs []).2.zip docs) ∧ SlicesOk (loadDocs grow docs []).1 ∧
      ((loadDocs grow docs []).2.zip docs).map (·.1) = (loadDocs grow docs []).2 ∧ ((loadDocs grow docs []).2.zip docs).map (·.2) = docs := by
  obtain ⟨_, h2, fps, h3, h4, h5, h6, _⟩ := loadDocs_apart grow docs []
  have hm1 : ((loadDocs grow docs []).2.zip docs).map (·.1) = (loadDocs grow docs []).2 := List.map_fst_zip (by omega)
  refine ⟨⟨fps, h3, h4, by rw [hm1]; exact h5, fun d hd => (h6 d.1 ?_).2⟩, (loadDocs_holds grow docs (by intro p e he; simp [EHeap.get] at he)).1, hm1, List.map_snd_zip (by omega)⟩
  rw [← hm1]
  exact List.mem_map.mpr ⟨d, hd, rfl⟩

/-! ### Schemas inside documents -/

/-- Trees in memory, with their arrays, which are among those of a larger tree. -/
structure Found (h : EHeap) (fp : List Nat) (L : List (Ptr × Element × List Nat)) : Prop where
  holds : ∀ d ∈ L, ∃ e, h.get d.1 = some e ∧ Owns h d.2.1 e d.2.2
  nodup : (L.flatMap (·.2.2)).Nodup
  sub : ∀ a ∈ L.flatMap (·.2.2), a ∈ fp
  roots : ∀ d ∈ L, d.1.arr ∈ fp ∧ d.1.arr ∉ L.flatMap (·.2.2)
  ptrs : (L.map (·.1)).Nodup

theorem Found.append {h : EHeap} {f g : List Nat} {L L' : List (Ptr × Element × List Nat)} (a : Found h f L) (b : Found h g L')
    (hd : ∀ x ∈ f, x ∉ g) : Found h (f ++ g) (L ++ L') where
  holds d hm := by rcases List.mem_append.mp hm with hm | hm; exact a.holds d hm; exact b.holds d hm
  nodup := by
    rw [List.flatMap_append]
    exact List.nodup_append.mpr ⟨a.nodup, b.nodup, fun x hx y hy he => hd x (a.sub x hx) (by rw [he]; exact b.sub y hy)⟩
  sub x hx := by
    rw [List.flatMap_append] at hx
    rcases List.mem_append.mp hx with hx | hx
    · simp [a.sub x hx]
    · simp [b.sub x hx]
  roots d hm := by
    rw [List.flatMap_append, List.mem_append, List.mem_append, not_or]
    rcases List.mem_append.mp hm with hm | hm
    · obtain ⟨h1, h2⟩ := a.roots d hm
      exact ⟨.inl h1, h2, fun h3 => hd _ h1 (b.sub _ h3)⟩
    · obtain ⟨h1, h2⟩ := b.roots d hm
      exact ⟨.inr h1, fun h3 => hd _ (a.sub _ h3) h1, h2⟩
  ptrs := by
    rw [List.map_append]
    refine List.nodup_append.mpr ⟨a.ptrs, b.ptrs, fun x hx y hy he => ?_⟩
    obtain ⟨d, h1, rfl⟩ := List.mem_map.mp hx
    obtain ⟨d', h2, rfl⟩ := List.mem_map.mp hy
    exact hd _ (a.roots d h1).1 (by rw [he]; exact (b.roots d' h2).1)

theorem found_schemas {h : EHeap} {pred : HElem → Bool} {fn : Element → Bool} (hpf : ∀ x e fp, Owns h x e fp → pred e = fn x) (n : Nat) :
    ∀ {t : Element} {e : HElem} {fp : List Nat}, Owns h t e fp → fp.Nodup → depth t ≤ n →
      (∀ x ∈ below t, fn x = true → ∀ y ∈ below x, fn y = false) →
      ∃ L, searchH h pred n e.kids = some (L.map (·.1)) ∧ L.map (·.2.1) = (below t).filter fn ∧ Found h fp L := by
  induction n with
  | zero => intro t e fp _ _ hn; cases t; rw [depth] at hn; omega
  | succ n ih =>
    intro t e fp ho hnd hn hap
    obtain ⟨_, _, _, _, h5, h6, fps, rfl, h7⟩ := owns_iff.mp ho
    have hbel : below t = belows t.children := by cases t; rfl
    have hkn : ∀ k ∈ t.children, depth k ≤ n := fun k hk => by have := depth_kid hk; omega
    rw [hbel] at hap ⊢
    obtain ⟨nd1, nd2⟩ := List.nodup_cons.mp hnd
    rw [searchH]
    -- the children from index `i` on
    have key : ∀ (ks : List Element) (cs : List HElem) (g : List Nat) (i : Nat), OwnsAll h ks cs g → g.Nodup → e.kids.arr ∉ g → (∀ k ∈ ks, depth k ≤ n) →
        (∀ x ∈ belows ks, fn x = true → ∀ y ∈ below x, fn y = false) → (∀ j c, cs[j]? = some c → h.get ⟨e.kids.arr, i + j⟩ = some c) →
        ∃ L : List (Ptr × Element × List Nat), searchCells (searchH h pred n) pred e.kids.arr i cs = some (L.map (·.1)) ∧ L.map (·.2.1) = (belows ks).filter fn ∧
          (∀ d ∈ L, ∃ e', h.get d.1 = some e' ∧ Owns h d.2.1 e' d.2.2) ∧ (L.flatMap (·.2.2)).Nodup ∧ (∀ a ∈ L.flatMap (·.2.2), a ∈ g) ∧
          (∀ d ∈ L, (d.1.arr ∈ g ∨ (d.1.arr = e.kids.arr ∧ i ≤ d.1.idx)) ∧ d.1.arr ∉ L.flatMap (·.2.2)) ∧ (L.map (·.1)).Nodup := by
      intro ks
      induction ks with
      | nil =>
        intro cs g i ho _ _ _ _ _
        cases cs with
        | nil => exact ⟨[], rfl, rfl, by simp, by simp, by simp, by simp, by simp⟩
        | cons => simp [OwnsAll] at ho
      | cons k ks ih2 =>
        intro cs g i ho hnd harr hdk hap hget
        cases cs with
        | nil => simp [OwnsAll] at ho
        | cons c cs =>
          obtain ⟨f, g, rfl, o1, o2⟩ := ho
          obtain ⟨m1, m2, m3⟩ := List.nodup_append.mp hnd
          rw [List.mem_append, not_or] at harr
          rw [belows] at hap
          obtain ⟨L1, a1, a2, a3⟩ := ih o1 m1 (hdk k (by simp)) fun x hx => hap x (by simp [hx])
          obtain ⟨L2, b1, b2, b3, b4, b5, b6, b7⟩ := ih2 cs g (i + 1) o2 m2 harr.2 (fun k hk => hdk k (by simp [hk])) (fun x hx => hap x (by simp [hx]))
            fun j c' hj => by have := hget (j + 1) c' (by simpa using hj); rw [show i + 1 + j = i + (j + 1) by omega]; exact this
          rw [searchCells, a1, b1]
          dsimp only
          have hdis : ∀ x ∈ f, x ∉ g := fun x hx hy => m3 x hx x hy rfl
          rw [belows, List.filter_cons, List.filter_append, ← a2, ← b2, hpf k c f o1]
          cases hk : fn k with
          | true =>
            have hL1 : L1 = [] := by
              have : (below k).filter fn = [] := List.filter_eq_nil_iff.mpr fun y hy => by rw [hap k (by simp) hk y hy]; simp
              rw [this] at a2
              exact List.map_eq_nil_iff.mp a2
            subst hL1
            refine ⟨(⟨e.kids.arr, i⟩, k, f) :: L2, by simp, by simp, ?_, ?_, ?_, ?_, ?_⟩
            · intro d hd
              rcases List.mem_cons.mp hd with rfl | hd
              · exact ⟨c, by simpa using hget 0 c rfl, o1⟩
              · exact b3 d hd
            · rw [List.flatMap_cons]
              exact List.nodup_append.mpr ⟨m1, b4, fun x hx y hy he => hdis x hx (by rw [he]; exact b5 y hy)⟩
            · intro a ha
              rw [List.flatMap_cons, List.mem_append] at ha
              rcases ha with ha | ha
              · simp [ha]
              · simp [b5 a ha]
            · intro d hd
              rw [List.flatMap_cons, List.mem_append, List.mem_append, not_or]
              rcases List.mem_cons.mp hd with rfl | hd
              · exact ⟨.inr ⟨rfl, Nat.le_refl _⟩, harr.1, fun hh => harr.2 (b5 _ hh)⟩
              · obtain ⟨h1, h2⟩ := b6 d hd
                refine ⟨?_, ?_, h2⟩
                · rcases h1 with h1 | ⟨h1, h3⟩
                  · exact .inl (by simp [h1])
                  · exact .inr ⟨h1, by omega⟩
                · intro hh
                  rcases h1 with h1 | ⟨h1, _⟩
                  · exact hdis _ hh h1
                  · rw [h1] at hh; exact harr.1 hh
            · rw [List.map_cons, List.nodup_cons]
              refine ⟨fun hm => ?_, b7⟩
              obtain ⟨d, h1, h2⟩ := List.mem_map.mp hm
              rcases (b6 d h1).1 with h3 | ⟨_, h3⟩
              · rw [h2] at h3; exact harr.2 h3
              · rw [h2] at h3; dsimp only at h3; omega
          | false =>
            refine ⟨L1 ++ L2, by simp, by simp, ?_, ?_, ?_, ?_, ?_⟩
            · intro d hd
              rcases List.mem_append.mp hd with hd | hd
              · exact a3.holds d hd
              · exact b3 d hd
            · rw [List.flatMap_append]
              exact List.nodup_append.mpr ⟨a3.nodup, b4, fun x hx y hy he => hdis x (a3.sub x hx) (by rw [he]; exact b5 y hy)⟩
            · intro a ha
              rw [List.flatMap_append, List.mem_append] at ha
              rcases ha with ha | ha
              · simp [a3.sub a ha]
              · simp [b5 a ha]
            · intro d hd
              rw [List.flatMap_append, List.mem_append, List.mem_append, not_or]
              rcases List.mem_append.mp hd with hd | hd
              · obtain ⟨h1, h2⟩ := a3.roots d hd
                exact ⟨.inl (by simp [h1]), h2, fun hh => hdis _ h1 (b5 _ hh)⟩
              · obtain ⟨h1, h2⟩ := b6 d hd
                refine ⟨?_, ?_, h2⟩
                · rcases h1 with h1 | ⟨h1, h3⟩
                  · exact .inl (by simp [h1])
                  · exact .inr ⟨h1, by omega⟩
                · intro hh
                  rcases h1 with h1 | ⟨h1, _⟩
                  · exact hdis _ (a3.sub _ hh) h1
                  · rw [h1] at hh; exact harr.1 (a3.sub _ hh)
            · rw [List.map_append]
              refine List.nodup_append.mpr ⟨a3.ptrs, b7, fun x hx y hy he => ?_⟩
              obtain ⟨d, h1, rfl⟩ := List.mem_map.mp hx
              obtain ⟨d', h2, rfl⟩ := List.mem_map.mp hy
              have h3 := (a3.roots d h1).1
              rw [he] at h3
              rcases (b6 d' h2).1 with h4 | ⟨h4, _⟩
              · exact hdis _ h3 h4
              · rw [h4] at h3; exact harr.1 h3
    obtain ⟨L, b1, b2, b3, b4, b5, b6, b7⟩ := key t.children _ fps 0 h7 nd2 nd1 hkn hap (by
      intro j c hc
      rw [cells_get] at hc
      split at hc
      · rw [Nat.zero_add]; exact hc
      · cases hc)
    refine ⟨L, b1, b2, b3, b4, fun a ha => by simp [b5 a ha], fun d hd => ⟨?_, (b6 d hd).2⟩, b7⟩
    rcases (b6 d hd).1 with h1 | ⟨h1, _⟩
    · simp [h1]
    · simp [h1]

theorem nameMatches_xs (loc : Str) (x : Element) : nameMatches schemaNS loc x = decide (x.name = ⟨schemaNS, loc⟩) := by
  unfold nameMatches
  have : schemaNS ≠ [] := by decide
  obtain ⟨⟨sp, lo⟩, a, s, c, ks⟩ := x
  simp only [Element.name]
  by_cases h : loc = lo
  · subst h; simp [this, eq_comm]
  · simp [h, Ne.symm h]

/-- The schemas of documents, in memory. -/
theorem schemas_docs {n : Nat} {h : EHeap} {docs : List (Ptr × Element)} (hh : HoldsDocs h docs) (hn : ∀ d ∈ docs, depth d.2 ≤ n)
    (hap : ∀ d ∈ docs, SchemasApart d.2) :
    ∃ docs', schemasOf n h (docs.map (·.1)) = some (docs'.map (·.1)) ∧ docs'.map (·.2) = (docs.map (·.2)).flatMap schemasIn ∧ HoldsDocs h docs' := by
  obtain ⟨fps, hf, hnd, hptr, hR⟩ := hh
  have hw : w3cSchemaNS = schemaNS := by decide
  have key : ∀ (docs : List (Ptr × Element)) (fps : List (List Nat)), List.Forall₂ (fun d fp => ∃ e, h.get d.1 = some e ∧ Owns h d.2 e fp) docs fps → fps.flatten.Nodup →
      (docs.map (·.1)).Nodup → (∀ d ∈ docs, d.1.arr ∉ fps.flatten) → (∀ d ∈ docs, depth d.2 ≤ n) → (∀ d ∈ docs, SchemasApart d.2) →
      ∃ L : List (Ptr × Element × List Nat), schemasOf n h (docs.map (·.1)) = some (L.map (·.1)) ∧ L.map (·.2.1) = (docs.map (·.2)).flatMap schemasIn ∧
        (∀ d ∈ L, ∃ e', h.get d.1 = some e' ∧ Owns h d.2.1 e' d.2.2) ∧ (L.flatMap (·.2.2)).Nodup ∧ (∀ a ∈ L.flatMap (·.2.2), a ∈ fps.flatten) ∧
          (∀ d ∈ L, (d.1.arr ∈ fps.flatten ∨ d.1 ∈ docs.map (·.1)) ∧ d.1.arr ∉ L.flatMap (·.2.2)) ∧ (L.map (·.1)).Nodup := by
    intro docs
    induction docs with
    | nil => intro fps _ _ _ _ _ _; exact ⟨[], rfl, rfl, by simp, by simp, by simp, by simp, by simp⟩
    | cons d docs ih =>
      intro fps hf hnd hptr hR hn hap
      cases hf with
      | @cons _ f _ g hd0 hf =>
        obtain ⟨e, he, ho⟩ := hd0
        rw [List.flatten_cons] at hnd
        obtain ⟨m1, m2, m3⟩ := List.nodup_append.mp hnd
        rw [List.map_cons, List.nodup_cons] at hptr
        have hRd := hR d (by simp)
        rw [List.flatten_cons, List.mem_append, not_or] at hRd
        obtain ⟨L2, b1, b2, b3, b4, b5, b6, b7⟩ := ih g hf m2 hptr.2
          (fun d' hd' hm => hR d' (by simp [hd']) (by rw [List.flatten_cons, List.mem_append]; exact Or.inr hm))
          (fun d' hd' => hn d' (by simp [hd'])) (fun d' hd' => hap d' (by simp [hd']))
        have hdis : ∀ x ∈ f, x ∉ g.flatten := fun x hx hy => m3 x hx x hy rfl
        have hother : ∀ d' ∈ docs.map (·.1), d'.arr ∉ f := by
          intro p hp hm
          obtain ⟨d', h1, rfl⟩ := List.mem_map.mp hp
          exact hR d' (by simp [h1]) (by rw [List.flatten_cons, List.mem_append]; exact Or.inl hm)
        rw [List.map_cons, List.map_cons, List.flatMap_cons, ← b2, schemasOf, b1]
        have hnm : e.name = d.2.name := name_of_reads (owns_reads _ ho)
        by_cases hs : d.2.name = ⟨w3cSchemaNS, b!"schema"⟩
        · have h1 : schemaPtrs n h d.1 = some [d.1] := by
            unfold schemaPtrs
            rw [he, Option.bind_some, if_pos (by rw [hnm, hs, hw])]
          rw [h1]
          refine ⟨(d.1, d.2, f) :: L2, by simp, by simp [schemasIn, hs], ?_, ?_, ?_, ?_, ?_⟩
          · intro x hx
            rcases List.mem_cons.mp hx with rfl | hx
            · exact ⟨e, he, ho⟩
            · exact b3 x hx
          · rw [List.flatMap_cons]
            exact List.nodup_append.mpr ⟨m1, b4, fun x hx y hy he => hdis x hx (by rw [he]; exact b5 y hy)⟩
          · intro a ha
            rw [List.flatMap_cons, List.mem_append] at ha
            rw [List.flatten_cons, List.mem_append]
            rcases ha with ha | ha
            · exact .inl ha
            · exact .inr (b5 a ha)
          · intro x hx
            rw [List.flatMap_cons, List.mem_append, not_or, List.flatten_cons, List.mem_append]
            rcases List.mem_cons.mp hx with rfl | hx
            · exact ⟨.inr (by simp), hRd.1, fun hh => hRd.2 (b5 _ hh)⟩
            · obtain ⟨h1, h2⟩ := b6 x hx
              refine ⟨?_, ?_, h2⟩
              · rcases h1 with h1 | h1
                · exact .inl (.inr h1)
                · exact .inr (List.mem_cons_of_mem _ h1)
              · intro hh
                rcases h1 with h1 | h1
                · exact hdis _ hh h1
                · exact hother _ h1 hh
          · rw [List.map_cons, List.nodup_cons]
            refine ⟨fun hm => ?_, b7⟩
            obtain ⟨x, h1, h2⟩ := List.mem_map.mp hm
            rcases (b6 x h1).1 with h3 | h3
            · rw [h2] at h3; exact hRd.2 h3
            · rw [h2] at h3; exact hptr.1 h3
        · have hall : allNamed d.2 w3cSchemaNS b!"schema" = (below d.2).filter (nameMatches schemaNS b!"schema") := by
            unfold allNamed
            refine List.filter_congr fun x _ => ?_
            rw [nameMatches_xs, hw]
          have hsch : schemasIn d.2 = (below d.2).filter (nameMatches schemaNS b!"schema") := by
            unfold schemasIn
            rw [if_neg hs, hall]
          obtain ⟨L1, a1, a2, a3⟩ := found_schemas (h := h) (pred := fun e => nameMatches schemaNS b!"schema" e.tag) (fn := nameMatches schemaNS b!"schema")
            (fun x e fp ho => by
              have : e.tag.name = x.name := name_of_reads (owns_reads _ ho)
              rw [nameMatches_xs, nameMatches_xs, this]) n ho m1 (hn d (by simp)) (by
                intro x hx hfx y hy
                have := hap d (by simp) x (by rw [hsch]; exact List.mem_filter.mpr ⟨hx, hfx⟩) y hy
                unfold IsXs at this
                rw [nameMatches_xs, ← hw]
                simpa using this)
          have h1 : schemaPtrs n h d.1 = some (L1.map (·.1)) := by
            unfold schemaPtrs searchPtr
            rw [he, Option.bind_some, if_neg (by rw [hnm, ← hw]; exact hs), Option.bind_some]
            exact a1
          rw [h1]
          refine ⟨L1 ++ L2, by simp, by rw [List.map_append, a2, hsch], ?_, ?_, ?_, ?_, ?_⟩
          · intro x hx
            rcases List.mem_append.mp hx with hx | hx
            · exact a3.holds x hx
            · exact b3 x hx
          · rw [List.flatMap_append]
            exact List.nodup_append.mpr ⟨a3.nodup, b4, fun x hx y hy he => hdis x (a3.sub x hx) (by rw [he]; exact b5 y hy)⟩
          · intro a ha
            rw [List.flatMap_append, List.mem_append] at ha
            rw [List.flatten_cons, List.mem_append]
            rcases ha with ha | ha
            · exact .inl (a3.sub a ha)
            · exact .inr (b5 a ha)
          · intro x hx
            rw [List.flatMap_append, List.mem_append, not_or, List.flatten_cons, List.mem_append]
            rcases List.mem_append.mp hx with hx | hx
            · obtain ⟨h1, h2⟩ := a3.roots x hx
              exact ⟨.inl (.inl h1), h2, fun hh => hdis _ h1 (b5 _ hh)⟩
            · obtain ⟨h1, h2⟩ := b6 x hx
              refine ⟨?_, ?_, h2⟩
              · rcases h1 with h1 | h1
                · exact .inl (.inr h1)
                · exact .inr (List.mem_cons_of_mem _ h1)
              · intro hh
                rcases h1 with h1 | h1
                · exact hdis _ (a3.sub _ hh) h1
                · exact hother _ h1 (a3.sub _ hh)
          · rw [List.map_append]
            refine List.nodup_append.mpr ⟨a3.ptrs, b7, fun x hx y hy he => ?_⟩
            obtain ⟨x, h1, rfl⟩ := List.mem_map.mp hx
            obtain ⟨y, h2, rfl⟩ := List.mem_map.mp hy
            have h3 := (a3.roots x h1).1
            rw [he] at h3
            rcases (b6 y h2).1 with h4 | h4
            · exact hdis _ h3 h4
            · exact hother _ h4 h3
  obtain ⟨L, b1, b2, b3, b4, b5, b6, b7⟩ := key docs fps hf hnd hptr hR hn hap
  refine ⟨L.map fun d => (d.1, d.2.1), by rw [b1, List.map_map]; rfl, by rw [← b2, List.map_map]; rfl, L.map (·.2.2), ?_, by rw [← List.flatMap_def]; exact b4,
    by rw [List.map_map]; exact b7, ?_⟩
  · clear * - b3
    induction L with
    | nil => exact .nil
    | cons d L ih => exact .cons (b3 d (by simp)) (ih fun x hx => b3 x (by simp [hx]))
  · intro d hd
    obtain ⟨x, h1, rfl⟩ := List.mem_map.mp hd
    rw [← List.flatMap_def]
    exact (b6 x h1).2

/-! ### The whole -/

theorem holds_docs {h : EHeap} {docs : List (Ptr × Element)} (hh : HoldsDocs h docs) : ∀ d ∈ docs, Holds h d.1 d.2 := by
  obtain ⟨fps, hf, _⟩ := hh
  intro d hd
  clear * - hf hd
  induction hf with
  | nil => cases hd
  | cons h1 _ ih =>
    rcases List.mem_cons.mp hd with rfl | hd
    · obtain ⟨e, g1, g2⟩ := h1
      exact ⟨e, g1, owns_reads _ g2⟩
    · exact ih hd

theorem readAll_holds {h : EHeap} {n : Nat} : ∀ (docs : List (Ptr × Element)), (∀ d ∈ docs, Holds h d.1 d.2 ∧ depth d.2 ≤ n + 1) →
    readAll h n (docs.map (·.1)) = some (docs.map (·.2)) := by
  intro docs
  induction docs with
  | nil => intro _; rfl
  | cons d docs ih =>
    intro hd
    obtain ⟨h1, h2⟩ := hd d (by simp)
    simp only [List.map_cons, readAll, readPtr_holds h1 h2, ih fun x hx => hd x (by simp [hx])]

/-- The second loop for all schemas, and the explicit content of complex types. -/
def finished : List Element → Nat → List Element
  | [], _ => []
  | t :: ts, k =>
    let r := hoistRoot (numbered (t.attr [] b!"targetNamespace")) t k
    expandBelow (setChoicesOptional r.1) :: finished ts r.2

theorem chain_first {docs docs' : List (Ptr × Element)} {st st' : Unit}
    (hc : Threaded (fun t (st : Unit) t' st' => FirstLoop t t' ∧ st' = st) docs st docs' st') : List.Forall₂ FirstLoop (docs.map (·.2)) (docs'.map (·.2)) := by
  induction hc with
  | nil => exact .nil
  | cons h1 _ ih => exact .cons h1.1 ih

theorem chain_second {docs docs' : List (Ptr × Element)} {k k' : Nat} (hc : Threaded SecondLoop docs k docs' k') :
    docs'.map (fun d => expandBelow d.2) = finished (docs.map (·.2)) k := by
  induction hc with
  | nil => rfl
  | cons h1 _ ih =>
    obtain ⟨rfl, rfl⟩ := h1
    simp only [List.map_cons, finished]
    rw [ih]

theorem chain_right {σ : Type} {rel : Element → σ → Element → σ → Prop} {docs docs' : List (Ptr × Element)} {st st' : σ} (hc : Threaded rel docs st docs' st') :
    ∀ d' ∈ docs', ∃ d ∈ docs, ∃ s s', rel d.2 s d'.2 s' := by
  induction hc with
  | nil => intro d hd; cases hd
  | cons h1 _ ih =>
    intro d' hd'
    rcases List.mem_cons.mp hd' with rfl | hd'
    · exact ⟨(_, _), List.mem_cons_self, _, _, h1⟩
    · obtain ⟨d, g1, g2⟩ := ih d' hd'
      exact ⟨d, by simp [g1], g2⟩

theorem first_ready {t t' : Element} (h : Neat t) (hf : FirstLoop t t') : Ready t' ∧ depth t' ≤ depth t := by
  obtain ⟨n1, n2, _, n4⟩ := neat_defaults h
  obtain ⟨used, _, rfl⟩ := hf
  refine ⟨hoistRoot_ready (by rw [← Wsdl.attr_eq]; exact byElement_namer _) ⟨n1, n2⟩ used, ?_⟩
  rw [← n4]
  exact hoistRoot_depth _ _

/-! ### What survives -/

theorem Survives.trans {a b c : Element} (h : Survives a b) (h' : Survives b c) : Survives a c where
  name := h'.name.trans h.name
  tns := h'.tns.trans h.tns
  decls := by
    obtain ⟨old, new, e1, f1, n1⟩ := h.decls
    obtain ⟨old', new', e2, f2, n2⟩ := h'.decls
    rw [e1] at f2
    have hb : List.Forall₂ Kin a.children (old'.take old.length) := by
      have := List.forall₂_take_append _ _ _ f2.flip
      have h2 := this.flip
      clear * - f1 h2
      generalize old'.take old.length = x at h2 ⊢
      generalize a.children = y at f1 ⊢
      revert x
      induction f1 with
      | nil => intro x h2; cases h2; exact .nil
      | cons hk _ ih =>
        intro x h2
        cases h2 with
        | cons g1 g2 => exact .cons ⟨g1.1.trans hk.1, g1.2.trans hk.2⟩ (ih _ g2)
    refine ⟨old'.take old.length, old'.drop old.length ++ new', ?_, hb, ?_⟩
    · rw [e2, ← List.append_assoc, List.take_append_drop]
    · intro k hk
      rcases List.mem_append.mp hk with hk | hk
      · have := (List.forall₂_drop_append _ _ _ f2.flip).flip
        have hx : ∃ j ∈ new, Kin j k := by
          clear * - this hk
          generalize old'.drop old.length = x at this hk
          induction this with
          | nil => cases hk
          | @cons x y _ _ hxy _ ih =>
            rcases List.mem_cons.mp hk with rfl | hk
            · exact ⟨x, by simp, hxy⟩
            · obtain ⟨j, h1, h2⟩ := ih hk
              exact ⟨j, by simp [h1], h2⟩
        obtain ⟨j, g1, g2⟩ := hx
        rw [isXs_name g2.1, isXs_name g2.1]
        exact n1 j g1
      · exact n2 k hk

theorem Alike.survives {l : Str} {t t' : Element} (ha : Alike l t t') (hl : l ≠ b!"name") (ht : l ≠ b!"targetNamespace") : Survives t t' where
  name := ha.root.1
  tns := ha.root.2.2.2 _ ht.symm
  decls := ⟨t'.children, [], by simp, ha.kids.imp fun _ _ h => ⟨h.root.1, h.root.2.2.2 _ hl.symm⟩, by simp⟩

theorem survives_expand (t : Element) : Survives t (expandBelow t) := by
  cases t with
  | mk n a s c ks =>
    refine ⟨rfl, rfl, _, [], (List.append_nil _).symm, ?_, by simp⟩
    show List.Forall₂ Kin ks (ks.map expandTree)
    rw [List.forall₂_map_right_iff, List.forall₂_same]
    exact fun k _ => ⟨expandTree_name k, attrNamed_attrs (expandTree_attrs k) _⟩

theorem hoistAll_types {σ : Type} {P : Plan σ} (ks : List Element)
    (ih : ∀ k ∈ ks, ∀ st, (hoist P k st).1.name = k.name ∧ ∀ y ∈ (hoist P k st).2.1, IsXs b!"complexType" y ∨ IsXs b!"simpleType" y) : ∀ st,
    (hoistAll P ks st).1.map (·.name) = ks.map (·.name) ∧ ∀ y ∈ (hoistAll P ks st).2.1, IsXs b!"complexType" y ∨ IsXs b!"simpleType" y := by
  induction ks with
  | nil => intro st; rw [hoistAll]; simp
  | cons j js ih2 =>
    intro st
    obtain ⟨i1, i3⟩ := ih j (by simp) st
    obtain ⟨j1, j3⟩ := ih2 (fun k hk => ih k (by simp [hk])) (hoist P j st).2.2
    rw [hoistAll]
    refine ⟨by simp [i1, j1], fun y hy => ?_⟩
    rcases List.mem_append.mp hy with hy | hy
    · exact i3 y hy
    · exact j3 y hy

theorem hoist_types {σ : Type} {P : Plan σ} (t : Element) : ∀ st, (hoist P t st).1.name = t.name ∧
    ∀ y ∈ (hoist P t st).2.1, IsXs b!"complexType" y ∨ IsXs b!"simpleType" y := by
  induction t using Element.ind with
  | hP n a s c ks ih =>
    intro st
    have hall := hoistAll_types (P := P) ks ih
    rw [hoist]
    split
    · exact ⟨rfl, (hall st).2⟩
    · rename_i i hi
      rcases P.move st (.mk n a s c ks) with ⟨st', _ | m⟩
      · exact ⟨rfl, (hall st').2⟩
      · dsimp only
        refine ⟨rfl, fun y hy => ?_⟩
        rcases List.mem_append.mp hy with hy | hy
        · cases hk : (hoistAll P ks st').1[i]? with
          | none => rw [hk] at hy; simp at hy
          | some k =>
            rw [hk] at hy
            simp only [Option.map_some, Option.toList_some, List.mem_singleton] at hy
            obtain ⟨k0, h1, h2⟩ := pick_at hi
            have h3 : y.name = k0.name := by
              have h5 : y.name = k.name := by subst hy; cases k; rfl
              have h4 := congrArg (·[i]?) (hall st').1
              simp only [Element.children] at h1
              simp only [List.getElem?_map, hk, h1, Option.map_some, Option.some.injEq] at h4
              rw [h5, h4]
            have hw : w3cSchemaNS = schemaNS := by decide
            unfold IsXs
            rw [hw, h3]
            exact h2.1
        · exact (hall st').2 y hy

theorem survives_hoist {σ : Type} {P : Plan σ} {t : Element} (htop : ∀ k ∈ t.children, ¬ HasAnon k) (st : σ) : Survives t (hoistRoot P t st).1 := by
  cases t with
  | mk n a s c ks =>
    refine ⟨rfl, rfl, _, _, rfl, ?_, (hoistAll_types ks (fun k _ => hoist_types k) st).2⟩
    simp only [Element.children] at htop ⊢
    induction ks generalizing st with
    | nil => rw [hoistAll]; exact .nil
    | cons k ks ih =>
      rw [hoistAll]
      refine .cons ?_ (ih _ fun j hj => htop j (by simp [hj]))
      have hp : P.pick k = none := by
        by_contra hc
        exact htop k (by simp) (pick_anon hc).2
      cases k
      rw [hoist, hp]
      exact ⟨rfl, rfl⟩

theorem first_survives {t t' : Element} (h : Neat t) (hf : FirstLoop t t') : Survives t t' := by
  have a1 : Alike b!"type" t (attributeDefaultType t) := alike_setAttrs _ _ _ _
  have a2 : Alike b!"type" (attributeDefaultType t) (elementDefaultType (attributeDefaultType t)) := alike_setAttrs _ _ _ _
  obtain ⟨used, _, rfl⟩ := hf
  exact ((a1.survives (by decide) (by decide)).trans (a2.survives (by decide) (by decide))).trans (survives_hoist (neat_defaults h).1.top used)

theorem survives_finished {docs docs' : List Element} (h : List.Forall₂ FirstLoop docs docs') (hd : ∀ t ∈ docs, Neat t) : ∀ k,
    List.Forall₂ Survives docs (finished docs' k) := by
  induction h with
  | nil => intro k; exact .nil
  | @cons t t' ts ts' h1 _ ih =>
    intro k
    rw [finished]
    refine .cons ?_ (ih (fun x hx => hd x (by simp [hx])) _)
    have hn := hd t (by simp)
    have a : ∀ u, Alike b!"minOccurs" u (setChoicesOptional u) := fun u => alike_setAttrs _ _ _ _
    exact (((first_survives hn h1).trans (survives_hoist (first_ready hn h1).1.neat.top k)).trans ((a _).survives (by decide) (by decide))).trans (survives_expand _)

end GoXml.Xsd
