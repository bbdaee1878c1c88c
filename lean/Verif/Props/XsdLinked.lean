import Verif.Proofs.XsdLinked
import Verif.Proofs.XsdContent
import Verif.Props.XsdgenDocuments
set_option autoImplicit false

/-! C155: references to types stand for the types of those names. -/

namespace GoXml.Xsd
open Wsdl (attrNamed allNamed denoted defines refersTo)

/-! ### Names of elements -/

/-- C85, partial: an element has the name written, in the target namespace, if its type is built in or from that namespace. -/
theorem C85_home_partial (env : ParseEnv) (ns : Str) (el : Element) (e : XElem) (h : parseElement env ns el = some e) (ht : Homely ns el) :
    e.name = defines ns el := by
  by_cases h1 : attrNamed el b!"type" = []
  · exact C85_name_partial env ns el e h (Or.inl h1)
  · rcases ht with ht | ⟨b, b1, b2, b3⟩ | ht
    · exact absurd ht h1
    · exact C85_name_partial env ns el e h (Or.inr ⟨b, Or.inl ⟨b, b1, b2, b3, rfl⟩⟩)
    · unfold parseElement at h
      rw [Wsdl.resolveDefault_eq, Wsdl.refersTo_eq] at h
      split at h
      · cases h
        dsimp only
        split
        · rename_i n hn
          rw [if_neg (by rw [Wsdl.attr_eq]; exact h1)] at hn
          rcases parseType_named (refersTo el b!"type") with ⟨b, -, -, -, hb⟩ | ⟨-, hl⟩
          · rw [hb] at hn; cases hn
          · rw [hl] at hn
            cases hn
            rw [ht]
        · rfl
      · cases h

/-! ### Complex types -/

theorem forall₂_mem_left {α β : Type} {R : α → β → Prop} {l : List α} {l' : List β} (h : List.Forall₂ R l l') : ∀ x ∈ l, ∃ y ∈ l', R x y := by
  induction h with
  | nil => exact fun x hx => (by cases hx)
  | cons h1 _ ih =>
    intro x hx
    rcases List.mem_cons.mp hx with rfl | hx
    · exact ⟨_, List.mem_cons_self, h1⟩
    · obtain ⟨y, hy, hr⟩ := ih x hx
      exact ⟨y, List.mem_cons_of_mem _ hy, hr⟩

theorem forall₂_mem_right {α β : Type} {R : α → β → Prop} {l : List α} {l' : List β} (h : List.Forall₂ R l l') : ∀ y ∈ l', ∃ x ∈ l, R x y := by
  induction h with
  | nil => exact fun x hx => (by cases hx)
  | cons h1 _ ih =>
    intro x hx
    rcases List.mem_cons.mp hx with rfl | hx
    · exact ⟨_, List.mem_cons_self, h1⟩
    · obtain ⟨y, hy, hr⟩ := ih x hx
      exact ⟨y, List.mem_cons_of_mem _ hy, hr⟩

theorem forall₂_map_right {α β γ : Type} {R : α → β → Prop} {S : α → γ → Prop} {f : β → γ} {l : List α} {l' : List β} (h : List.Forall₂ R l l') :
    (∀ x, ∀ y ∈ l', R x y → S x (f y)) → List.Forall₂ S l (l'.map f) := by
  induction h with
  | nil => exact fun _ => .nil
  | cons h1 _ ih => exact fun hh => .cons (hh _ _ List.mem_cons_self h1) (ih fun x y hy => hh x y (List.mem_cons_of_mem _ hy))

theorem parseElement_wildcard {env : ParseEnv} {ns : Str} {el : Element} {e : XElem} (h : parseElement env ns el = some e) : e.wildcard = false := by
  unfold parseElement at h
  split at h
  · cases h; rfl
  · cases h

theorem mem_of_firsts {α : Type} [DecidableEq α] {l : List α} {x : α} (h : x ∈ firsts l) : x ∈ l := by
  induction l with
  | nil => cases h
  | cons y l ih =>
    rcases List.mem_cons.mp h with rfl | h
    · exact List.mem_cons_self
    · exact List.mem_cons_of_mem _ (ih (List.mem_filter.mp h).1)

theorem mem_firsts_of {α : Type} [DecidableEq α] {l : List α} {x : α} (h : x ∈ l) : x ∈ firsts l := by
  induction l with
  | nil => cases h
  | cons y l ih =>
    by_cases e : x = y
    · exact e ▸ List.mem_cons_self
    · rcases List.mem_cons.mp h with h | h
      · exact absurd h e
      · exact List.mem_cons_of_mem _ (List.mem_filter.mpr ⟨ih h, by simpa using e⟩)

/-- The fields of a complex type in the result. -/
theorem linked_complex {ss : List Schema} {H : THeap} {env : ParseEnv} {ns : Str} {root el : Element} {t : ComplexT} {o : TObj} (hc : ContentModel root el)
    (hp : parseComplexType env ns root = some t) (hl : Joined ss H (.complex t) o) :
    ∃ c, o = .complex c ∧ (∃ b, c.base = some b ∧ Denotes ss H (refersTo el b!"base") b) ∧ (c.extends_ = true ↔ el.name.loc = b!"extension") ∧
      ElementsOf ss H ns el c.elements ∧ AttributesOf ss H el c.attributes := by
  obtain ⟨f, m, rfl, hfb, hf⟩ := hl
  obtain ⟨any, ds, ms, h1, h2, -, -, h5, h6, -, h8, -⟩ := C35_merged env ns root el hc t hp
  obtain ⟨cc, k1, k2, k3, k4⟩ := hc
  obtain ⟨-, -, -, -, ⟨b, hb, hbn⟩, hext, hattr⟩ := C83_complex env ns root cc el t k1 k2 k3 k4 hp
  have elemTy : ∀ e ∈ t.elements, e.type ∈ (TObj.complex t).tys := by
    intro e he
    simp only [TObj.tys, List.mem_append, List.mem_map]
    exact Or.inl (Or.inr ⟨e, he, rfl⟩)
  have declared : ∀ v ∈ allNamed el w3cSchemaNS b!"element", ∀ d ∈ t.elements, ∀ d', parseElement env ns v = some d' → d.name = d'.name → d.type = d'.type →
      d.name.loc = (defines ns v).loc ∧ (Homely ns v → d.name = defines ns v) ∧ TypedAs ss H v (f d.type) := by
    intro v hv d hd d' hp' e1 e2
    obtain ⟨c1, c2, c3⟩ := C85_type env ns v d' hp'
    refine ⟨by rw [e1, c1], fun hh => by rw [e1, C85_home_partial env ns v d' hp' hh], fun hn => ?_, fun hn => ?_⟩
    · rw [e2, c2 hn, hfb]
    · exact hf _ (elemTy d hd) _ (e2 ▸ c3 hn)
  refine ⟨_, rfl, ⟨f b, ?_, ?_⟩, ?_, ⟨?_, ?_⟩, ?_⟩
  · simp [hb]
  · refine hf b ?_ _ hbn
    simp [TObj.tys, hb]
  · exact hext
  · intro m' hm' hw
    obtain ⟨e, he, rfl⟩ := List.mem_map.mp hm'
    rw [h1] at he
    rcases List.mem_append.mp he with he' | he'
    · have := h2 e he'
      exact absurd hw (by simp [this])
    · obtain ⟨d, hd, e1, e2, -⟩ := (h8 e he').first
      have hd := (List.mem_filter.mp (List.mem_of_mem_head? hd)).1
      obtain ⟨v, hv, hpv⟩ := forall₂_mem_right h5 d hd
      exact ⟨v, hv, declared v hv e (by rw [h1]; exact he) d hpv e1 e2⟩
  · intro v hv
    obtain ⟨d, hd, hpv⟩ := forall₂_mem_left h5 v hv
    have hmem : d.name ∈ ms.map (·.name) := by rw [h6]; exact mem_firsts_of (List.mem_map_of_mem hd)
    obtain ⟨e, he, hen⟩ := List.mem_map.mp hmem
    have het : e ∈ t.elements := by rw [h1]; exact List.mem_append_right _ he
    obtain ⟨d', hd', -, -, e3, -⟩ := (h8 e he).first
    have hd' := (List.mem_filter.mp (List.mem_of_mem_head? hd')).1
    obtain ⟨v', -, hpv'⟩ := forall₂_mem_right h5 d' hd'
    refine ⟨_, List.mem_map_of_mem het, ?_, ?_, ?_⟩
    · show e.wildcard = false
      rw [e3, parseElement_wildcard hpv']
    · show e.name.loc = _
      rw [hen, (C85_type env ns v d hpv).1]
    · intro hh
      show e.name = _
      rw [hen, C85_home_partial env ns v d hpv hh]
  · have key : ∀ (vs : List Element) (as : List XAttr), (∀ a ∈ as, a.type ∈ (TObj.complex t).tys) →
        List.Forall₂ (fun v a => parseAttribute env ns v = some a) vs as →
        List.Forall₂ (fun v (a : XAttr) => Denotes ss H (refersTo v b!"type") a.type ∧
          ((58 : UInt8) ∉ attrNamed v b!"name" → a.name.loc = attrNamed v b!"name")) vs (as.map fun a => { a with type := f a.type }) := by
      intro vs as hm hh
      induction hh with
      | nil => exact .nil
      | @cons v a _ _ h1 _ ih =>
        obtain ⟨-, -, c3, c4⟩ := C84_attribute_partial env ns v a h1
        refine .cons ⟨hf _ (hm _ List.mem_cons_self) _ c3, fun hn => ?_⟩ (ih fun a ha => hm a (List.mem_cons_of_mem _ ha))
        show a.name.loc = _
        rw [c4 hn]
    refine key _ _ ?_ hattr
    intro a ha
    simp only [TObj.tys, List.mem_append, List.mem_map]
    exact Or.inr ⟨a, ha, rfl⟩

/-- C155, as claimed: for all schemas that `Parse` accepts, the result has every complex type of every schema, and its base, the types of its
elements and those of its attributes are the types that the schema names. Refuted below. -/
def C155_types_full : Prop :=
  ∀ (env : ParseEnv) (ord : MapOrder) (roots : List Element) (ss : List Schema) (H : THeap), parseSchemas env ord roots = .ok (ss, H) →
    ∀ r ∈ roots, (typeNames r).Nodup → ∀ e ∈ allNamed r w3cSchemaNS b!"complexType", ∀ el, ContentModel e el →
      ∃ s ∈ ss, s.targetNS = target r ∧ ∃ (id : Nat) (c : ComplexT), s.types.get (defines (target r) e) = some (.obj id) ∧ H[id]? = some (.complex c) ∧
        (∃ b, c.base = some b ∧ Denotes ss H (refersTo el b!"base") b) ∧ ElementsOf ss H (target r) el c.elements ∧
        AttributesOf ss H el c.attributes

/-- C155, partial: if no two schemas have the same target namespace and no schema defines a type twice, the result has every complex type of
every schema; its base, the types of its elements and those of its attributes are the types that the schema names. Missing for C155: several
documents with the same target namespace. -/
theorem C155_complex_partial (env : ParseEnv) (ord : MapOrder) (roots : List Element) (hd : (roots.map target).Nodup)
    (ht : ∀ r ∈ roots, (typeNames r).Nodup) (hu : ∀ r ∈ roots, target r = [] → denoted r.scope b!"_self" = selfName r)
    (ss : List Schema) (H : THeap) (h : parseSchemas env ord roots = .ok (ss, H)) (r : Element) (hr : r ∈ roots) (e : Element)
    (he : e ∈ allNamed r w3cSchemaNS b!"complexType") (el : Element) (hc : ContentModel e el) :
    ∃ s ∈ ss, s.targetNS = target r ∧ ∃ (id : Nat) (c : ComplexT), s.types.get (defines (target r) e) = some (.obj id) ∧ H[id]? = some (.complex c) ∧
      (∃ b, c.base = some b ∧ Denotes ss H (refersTo el b!"base") b) ∧ (c.extends_ = true ↔ el.name.loc = b!"extension") ∧
      ElementsOf ss H (target r) el c.elements ∧ AttributesOf ss H el c.attributes := by
  obtain ⟨s, hs, h1, h2, -⟩ := parse_linked hd ht hu h r hr
  obtain ⟨id, o0, o, g1, g2, g3, g4⟩ := h2 e (List.mem_append_left _ he)
  have hn : e.name.loc = b!"complexType" := by
    have := (List.mem_filter.mp he).2
    simp only [decide_eq_true_eq] at this
    rw [this]
  unfold parseDecl at g3
  rw [if_pos hn, Option.map_eq_some_iff] at g3
  obtain ⟨t, g3, rfl⟩ := g3
  obtain ⟨c, rfl, hrest⟩ := linked_complex hc g3 g4
  exact ⟨s, hs, h1, id, c, g1, g2, hrest⟩

/-- C155, partial: the same for simple types. The base is the type that a restriction names, or the type of the items of a list; the members of a
union are the types that it names, in order. -/
theorem C155_simple_partial (env : ParseEnv) (ord : MapOrder) (roots : List Element) (hd : (roots.map target).Nodup)
    (ht : ∀ r ∈ roots, (typeNames r).Nodup) (hu : ∀ r ∈ roots, target r = [] → denoted r.scope b!"_self" = selfName r)
    (ss : List Schema) (H : THeap) (h : parseSchemas env ord roots = .ok (ss, H)) (r : Element) (hr : r ∈ roots) (e : Element)
    (he : e ∈ allNamed r w3cSchemaNS b!"simpleType") (el : Element) (hk : schemaKids e = [el]) :
    ∃ s ∈ ss, s.targetNS = target r ∧ ∃ (id : Nat) (t : SimpleT), s.types.get (defines (target r) e) = some (.obj id) ∧ H[id]? = some (.simple t) ∧
      (el.name.loc = b!"restriction" → ∃ b, t.base = some b ∧ Denotes ss H (refersTo el b!"base") b) ∧
      (el.name.loc = b!"list" → ∃ b, t.base = some b ∧ Denotes ss H (refersTo el b!"itemType") b) ∧
      (el.name.loc = b!"union" → ∃ ws, Words (attrNamed el b!"memberTypes") ws ∧
        List.Forall₂ (fun w t => Denotes ss H (denoted el.scope w) t) ws t.union) := by
  obtain ⟨s, hs, h1, h2, -⟩ := parse_linked hd ht hu h r hr
  obtain ⟨id, o0, o, g1, g2, g3, g4⟩ := h2 e (List.mem_append_right _ he)
  have hn : e.name.loc = b!"simpleType" := by
    have := (List.mem_filter.mp he).2
    simp only [decide_eq_true_eq] at this
    rw [this]
  unfold parseDecl at g3
  rw [if_neg (by rw [hn]; decide), Option.map_eq_some_iff] at g3
  obtain ⟨t, g3, rfl⟩ := g3
  obtain ⟨f, m, rfl, hfb, hf⟩ := g4
  obtain ⟨b1, b2, -⟩ := C82_base env (target r) e el t hk g3
  obtain ⟨-, -, -, tss, u1, u2⟩ := C82_simple env (target r) e t g3
  refine ⟨s, hs, h1, id, _, g1, g2, ?_, ?_, ?_⟩
  · intro hl
    obtain ⟨b, hb, hbn, -⟩ := b1 hl
    exact ⟨f b, by simp [hb], hf b (by simp [TObj.tys, hb]) _ hbn⟩
  · intro hl
    obtain ⟨b, hb, hbn, -⟩ := b2 hl
    exact ⟨f b, by simp [hb], hf b (by simp [TObj.tys, hb]) _ hbn⟩
  · intro hl
    have hsp : el.name.space = w3cSchemaNS := by
      have : el ∈ schemaKids e := by rw [hk]; exact List.mem_singleton_self _
      have := (List.mem_filter.mp this).2
      simp only [decide_eq_true_eq] at this
      exact this.1
    have hku : kidsNamed e [b!"union"] = [el] := by
      have : kidsNamed e [b!"union"] = (schemaKids e).filter fun c => decide (c.name.loc = b!"union") := by
        unfold kidsNamed schemaKids
        rw [List.filter_filter]
        congr 1
        funext c
        by_cases hl : c.name.loc = b!"union"
        · simp only [hl]
          by_cases hs : c.name.space = w3cSchemaNS
          · simp only [hs]; decide
          · simp [hs]
        · simp [hl]
      rw [this, hk]
      simp [hl]
    rw [hku] at u1
    cases u1 with
    | cons hm hnil =>
      cases hnil
      obtain ⟨ws, w1, w2⟩ := hm
      refine ⟨ws, w1, ?_⟩
      simp only [List.flatten_cons, List.flatten_nil, List.append_nil] at u2
      show List.Forall₂ _ ws (t.union.map f)
      have hmem : ∀ x ∈ t.union, x ∈ (TObj.simple t).tys := fun x hx => List.mem_append_right _ hx
      rw [← u2] at w2
      exact forall₂_map_right w2 fun w x hx hn => hf x (hmem x hx) _ hn

/-! ### Documents -/

theorem selfTree_model (r : Element) : ContentModel (selfTree r)
    (.mk ⟨schemaNS, b!"restriction"⟩ [⟨⟨[], b!"base"⟩, prefixOf r.scope (builtinName AnyType)⟩] r.scope []
      (r.children.filter fun el => decide (el.name = ⟨schemaNS, b!"element"⟩))) :=
  ⟨_, rfl, rfl, rfl, Or.inr rfl⟩

theorem allNamed_of_child {e : Element} {ns l : Str} {c : Element} (hc : c ∈ e.children) (hn : c.name = ⟨ns, l⟩) : c ∈ allNamed e ns l := by
  unfold allNamed
  rw [below_children]
  exact List.mem_filter.mpr ⟨mem_belows_iff.mpr ⟨c, hc, List.mem_cons_self⟩, by simpa using hn⟩

/-- C155, partial: the type `_self` of a schema has the top-level elements, with the types that the schema names; so an element can be found under its
qualified name if its type is built in or from the target namespace. -/
theorem C155_elements_partial (env : ParseEnv) (ord : MapOrder) (roots : List Element) (hd : (roots.map target).Nodup)
    (ht : ∀ r ∈ roots, (typeNames r).Nodup) (hu : ∀ r ∈ roots, target r = [] → denoted r.scope b!"_self" = selfName r)
    (ss : List Schema) (H : THeap) (h : parseSchemas env ord roots = .ok (ss, H)) (r : Element) (hr : r ∈ roots) :
    ∃ s ∈ ss, s.targetNS = target r ∧ ∃ (id : Nat) (c : ComplexT), s.types.get ⟨target r, b!"_self"⟩ = some (.obj id) ∧ H[id]? = some (.complex c) ∧
      (∀ m ∈ c.elements, m.wildcard = false → ∃ top ∈ r.children, top.name = ⟨w3cSchemaNS, b!"element"⟩ ∧
        ∃ v ∈ top :: allNamed top w3cSchemaNS b!"element", m.name.loc = (defines (target r) v).loc ∧ TypedAs ss H v m.type) ∧
      ∀ v ∈ r.children, v.name = ⟨w3cSchemaNS, b!"element"⟩ → ∃ m ∈ c.elements, m.name.loc = (defines (target r) v).loc ∧
        (Homely (target r) v → m.name = defines (target r) v) := by
  obtain ⟨s, hs, h1, -, id, self, o, g1, g2, g3, g4⟩ := parse_linked hd ht hu h r hr
  obtain ⟨c, rfl, -, -, ⟨e1, e2⟩, -⟩ := linked_complex (selfTree_model r) g3 g4
  refine ⟨s, hs, h1, id, c, g1, g2, ?_, ?_⟩
  · intro m hm hw
    obtain ⟨v, hv, k1, -, k3⟩ := e1 m hm hw
    obtain ⟨hv1, hv2⟩ := List.mem_filter.mp hv
    rw [below_children] at hv1
    obtain ⟨top, ht1, ht2⟩ := mem_belows_iff.mp hv1
    obtain ⟨ht1, ht3⟩ := List.mem_filter.mp ht1
    refine ⟨top, ht1, of_decide_eq_true ht3, v, ?_, k1, k3⟩
    rcases List.mem_cons.mp ht2 with rfl | ht2
    · exact List.mem_cons_self
    · exact List.mem_cons_of_mem _ (List.mem_filter.mpr ⟨ht2, hv2⟩)
  · intro v hv hn
    obtain ⟨m, hm, -, k2, k3⟩ := e2 v (allNamed_of_child (by simpa [Element.children] using ⟨hv, hn⟩) hn)
    exact ⟨m, hm, k2, k3⟩

/-! ### Schemas that meet the conditions -/

/-- The extension or restriction of a complex type. -/
def modelOf (e : Element) : Option Element :=
  match schemaKids e with
  | [cc] => if cc.name.loc = b!"complexContent" then
      match schemaKids cc with
      | [el] => if el.name.loc = b!"extension" ∨ el.name.loc = b!"restriction" then some el else none
      | _ => none
    else none
  | _ => none

theorem modelOf_model {e el : Element} (h : modelOf e = some el) : ContentModel e el := by
  unfold modelOf at h
  split at h
  · rename_i cc h1
    split at h
    · rename_i h2
      split at h
      · rename_i el' h3
        split at h
        · rename_i h4
          cases h
          exact ⟨cc, h1, h2, h3, h4⟩
        · cases h
      · cases h
    · cases h
  · cases h

/-- The types of the elements and attributes of the type `Order`, as named in the schema: types of its own namespace, the anonymous type of an element
that it refers to, and a type of another namespace. Of the types of the other schema, one is a union of two types. -/
example : ∃ roots ss H, Xsdgen.ordersRoots = some roots ∧ (roots.map target).Nodup ∧ (∀ r ∈ roots, (typeNames r).Nodup) ∧
    (∀ r ∈ roots, target r = [] → denoted r.scope b!"_self" = selfName r) ∧ parseSchemas Xsdgen.testEnv inOrder roots = .ok (ss, H) ∧
    (∃ r ∈ roots, ∃ e ∈ allNamed r w3cSchemaNS b!"complexType", ∃ el, ContentModel e el ∧
      (allNamed el w3cSchemaNS b!"element").map (fun v => refersTo v b!"type") = [⟨b!"urn:u", b!"Order"⟩, ⟨b!"urn:u", b!"Sizes"⟩, ⟨w3cSchemaNS, b!"anyType"⟩] ∧
      (allNamed el w3cSchemaNS b!"attribute").map (fun v => refersTo v b!"type") = [⟨b!"urn:v", b!"State"⟩]) ∧
    ∃ r ∈ roots, ∃ e ∈ allNamed r w3cSchemaNS b!"simpleType", ∃ el, schemaKids e = [el] ∧ el.name.loc = b!"union" ∧
      attrNamed el b!"memberTypes" = b!"State xs:int" := by
  have : Xsdgen.ordersTypes.map (fun (x : List Element × List Schema × THeap) => orderlyOk x.1 &&
      (x.1.any fun r => (allNamed r w3cSchemaNS b!"complexType").any fun e => (modelOf e).any fun el =>
        decide ((allNamed el w3cSchemaNS b!"element").map (fun v => refersTo v b!"type") = [⟨b!"urn:u", b!"Order"⟩, ⟨b!"urn:u", b!"Sizes"⟩, ⟨w3cSchemaNS, b!"anyType"⟩]) &&
        decide ((allNamed el w3cSchemaNS b!"attribute").map (fun v => refersTo v b!"type") = [⟨b!"urn:v", b!"State"⟩])) &&
      (x.1.any fun r => (allNamed r w3cSchemaNS b!"simpleType").any fun e => match schemaKids e with
        | [el] => decide (el.name.loc = b!"union") && decide (attrNamed el b!"memberTypes" = b!"State xs:int")
        | _ => false)) = some true := by decide +kernel
  obtain ⟨⟨roots, ss, H⟩, hx, h⟩ := Option.map_eq_some_iff.mp this
  rw [Bool.and_eq_true, Bool.and_eq_true] at h
  obtain ⟨⟨h1, h2⟩, h3⟩ := h
  have ho := orderly_of h1
  unfold Xsdgen.ordersTypes at hx
  obtain ⟨roots', hr, hx⟩ := Option.bind_eq_some_iff.mp hx
  split at hx
  · rename_i res hres
    cases hx
    refine ⟨_, ss, H, hr, ho.targets, ho.types, ho.unnamed, hres, ?_, ?_⟩
    · obtain ⟨r, hr, h2⟩ := List.any_eq_true.mp h2
      obtain ⟨e, he, h2⟩ := List.any_eq_true.mp h2
      obtain ⟨el, hel, h2⟩ := (Option.any_eq_true _ _).mp h2
      rw [Bool.and_eq_true, decide_eq_true_iff, decide_eq_true_iff] at h2
      exact ⟨r, hr, e, he, el, modelOf_model hel, h2⟩
    · obtain ⟨r, hr, h3⟩ := List.any_eq_true.mp h3
      obtain ⟨e, he, h3⟩ := List.any_eq_true.mp h3
      split at h3
      · rename_i el hel
        rw [Bool.and_eq_true, decide_eq_true_iff, decide_eq_true_iff] at h3
        exact ⟨r, hr, e, he, el, hel, h3⟩
      · cases h3
  · cases hx

/-! ### Several documents with the same target namespace -/

/-- C155 is false for two documents with the same target namespace: the types of the first are not in the result. -/
theorem C155_types_refuted : ¬ C155_types_full := by
  intro hall
  let r1 := schemaTree b!"urn:a" xsScope [extensionTree xsScope b!"t" b!"anyType"]
  let r2 := schemaTree b!"urn:a" xsScope [extensionTree xsScope b!"u" b!"anyType"]
  have h : (resultOf (parseSchemas plainEnv inOrder [r1, r2])).map (fun r => r.1.all fun s => (s.types.get ⟨b!"urn:a", b!"t"⟩).isNone) = some true := by
    decide +kernel
  rw [Option.map_eq_some_iff] at h
  obtain ⟨⟨ss, H⟩, h1, h2⟩ := h
  have hm : modelOf (extensionTree xsScope b!"t" b!"anyType") ≠ none := by decide
  obtain ⟨el, hel⟩ := Option.ne_none_iff_exists'.mp hm
  obtain ⟨s, hs, -, id, c, hg, -⟩ := hall plainEnv inOrder [r1, r2] ss H (resultOf_ok h1) r1 (by simp) (by decide)
    (extensionTree xsScope b!"t" b!"anyType") (allNamed_of_child (List.mem_singleton_self _) rfl) el (modelOf_model hel)
  have := List.all_eq_true.mp h2 s hs
  have e : defines (target r1) (extensionTree xsScope b!"t" b!"anyType") = ⟨b!"urn:a", b!"t"⟩ := by decide
  rw [e] at hg
  rw [hg] at this
  cases this

end GoXml.Xsd
