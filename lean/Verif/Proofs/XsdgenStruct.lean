import Verif.Spec.XsdgenStruct
import Verif.Proofs.XsdgenDerivable
set_option autoImplicit false

/-! From the schema documents to the struct of a complex type. -/

namespace GoXml.Xsd
open Wsdl (attrNamed allNamed below defines refersTo denoted)

theorem repeated_iff {v : Element} {p : Bool} (h : parsePlural v = some p) : p = true ↔ Repeated v := by
  obtain ⟨lo, h1, h2⟩ := (C36_plural v p).mp h
  have hu : ∀ n, Means (attrNamed v b!"minOccurs") n → n = lo := fun n hn => by
    have a := (parseInt_iff _ _).mpr hn
    have b := (parseInt_iff _ _).mpr h1
    rw [a] at b
    exact Option.some.inj b
  rcases h2 with ⟨h2, rfl⟩ | ⟨h2, hi, h3, h4⟩
  · exact ⟨fun _ => ⟨lo, h1, Or.inl h2⟩, fun _ => rfl⟩
  · refine h4.trans ⟨fun h5 => ⟨lo, h1, Or.inr ⟨hi, h3, h5⟩⟩, ?_⟩
    rintro ⟨lo', h5, h6⟩
    rw [hu lo' h5] at h6
    rcases h6 with h6 | ⟨hi', h6, h7⟩
    · exact absurd h6 (not_lt_of_ge h2)
    · have a := (parseInt_iff _ _).mpr h6
      have b := (parseInt_iff _ _).mpr h3
      rw [a] at b
      rw [← Option.some.inj b]
      exact h7

theorem lacking_iff {env : ParseEnv} {ns : Str} {v : Element} {d : XElem} (h : parseElement env ns v = some d) :
    (d.optional = true ∨ d.nillable = true) ↔ Lacking v := by
  obtain ⟨-, h1, -, h2, -⟩ := C36_flags env ns v d h
  have h3 : d.nillable = true ↔ BoolText (attrNamed v b!"nillable") true := by
    refine ⟨fun e => e ▸ h2, fun e => ?_⟩
    have a := (parseBool_iff _ _).mpr h2
    rw [(parseBool_iff _ _).mpr e] at a
    exact (Option.some.inj a).symm
  rw [h1, h3]
  exact or_assoc

/-- A field for the declaration `v`, one of `vs`. -/
structure ElementAs (ss : List Schema) (H : THeap) (ns : Str) (vs : List Element) (v : Element) (m : XElem) : Prop where
  loc : m.name.loc = (defines ns v).loc
  home : Homely ns v → m.name = defines ns v
  typed : ∃ v0 ∈ vs, (defines ns v0).loc = (defines ns v).loc ∧ TypedAs ss H v0 m.type
  plural : Repeated v → m.plural = true
  single : (∀ w ∈ vs, (defines ns w).loc = (defines ns v).loc → ¬ Repeated w) → m.plural = false
  absent : Lacking v → m.optional = true ∨ m.nillable = true
  present : (∀ w ∈ vs, (defines ns w).loc = (defines ns v).loc → ¬ Lacking w) → m.optional = false ∧ m.nillable = false

theorem elements_as {ss : List Schema} {H : THeap} {env : ParseEnv} {ns : Str} {root el : Element} {t : ComplexT} {f : Ty → Ty} (hc : ContentModel root el)
    (hp : parseComplexType env ns root = some t) (hfb : ∀ b, f (.builtin b) = .builtin b)
    (hf : ∀ ty ∈ (TObj.complex t).tys, ∀ n, Named n ty → Denotes ss H n (f ty)) :
    (∀ v ∈ allNamed el w3cSchemaNS b!"element", ∃ x ∈ t.elements, x.wildcard = false ∧
      ElementAs ss H ns (allNamed el w3cSchemaNS b!"element") v { x with type := f x.type }) ∧
    ∀ x ∈ t.elements, x.wildcard = true ∧ allNamed el w3cSchemaNS b!"any" ≠ [] ∨ x.wildcard = false ∧ ∃ v ∈ allNamed el w3cSchemaNS b!"element",
      ElementAs ss H ns (allNamed el w3cSchemaNS b!"element") v { x with type := f x.type } := by
  obtain ⟨any, ds, ms, h1, h2, -, h4, h5, h6, -, h8, -⟩ := C35_merged env ns root el hc t hp
  have elemTy : ∀ e ∈ t.elements, e.type ∈ (TObj.complex t).tys := by
    intro e he
    simp only [TObj.tys, List.mem_append, List.mem_map]
    exact Or.inl (Or.inr ⟨e, he, rfl⟩)
  have key : ∀ m ∈ ms, ∀ v ∈ allNamed el w3cSchemaNS b!"element", ∀ d ∈ ds, parseElement env ns v = some d → d.name = m.name →
      m.wildcard = false ∧ ElementAs ss H ns (allNamed el w3cSchemaNS b!"element") v { m with type := f m.type } := by
    intro m hm v hv d hd hpv hdm
    have hI := h8 m hm
    obtain ⟨d0, hd0, e1, e2, e3, -⟩ := hI.first
    obtain ⟨hd0, hd0n⟩ := List.mem_filter.mp (List.mem_of_mem_head? hd0)
    obtain ⟨v0, hv0, hpv0⟩ := forall₂_mem_right h5 d0 hd0
    obtain ⟨c1, c2, c3⟩ := C85_type env ns v0 d0 hpv0
    have hloc : m.name.loc = (defines ns v).loc := by rw [← hdm, (C85_type env ns v d hpv).1]
    have hsame : ∀ d' ∈ ds.filter (fun d => decide (d.name = m.name)), ∃ w ∈ allNamed el w3cSchemaNS b!"element",
        (defines ns w).loc = (defines ns v).loc ∧ parseElement env ns w = some d' := by
      intro d' hd'
      obtain ⟨k1, k2⟩ := List.mem_filter.mp hd'
      obtain ⟨w, hw, hpw⟩ := forall₂_mem_right h5 d' k1
      exact ⟨w, hw, by rw [← hloc, ← of_decide_eq_true k2, (C85_type env ns w d' hpw).1], hpw⟩
    have hdin : d ∈ ds.filter (fun d => decide (d.name = m.name)) := List.mem_filter.mpr ⟨hd, decide_eq_true hdm⟩
    refine ⟨by rw [e3, parseElement_wildcard hpv0], hloc, fun hh => ?_, ⟨v0, hv0, ?_, fun hn => ?_, fun hn => ?_⟩, fun hr => ?_, fun hr => ?_, fun hl => ?_,
      fun hl => ?_⟩
    · show m.name = _
      rw [← hdm, C85_home_partial env ns v d hpv hh]
    · rw [← c1, ← e1, hloc]
    · show f m.type = _
      rw [e2, c2 hn, hfb]
    · exact hf _ (elemTy m (by rw [h1]; exact List.mem_append_right _ hm)) _ (e2 ▸ c3 hn)
    · exact hI.plural.mpr ⟨d, hdin, (repeated_iff (C36_flags env ns v d hpv).1).mpr hr⟩
    · show m.plural = false
      by_contra hne
      obtain ⟨d', hd', hp'⟩ := hI.plural.mp (by simpa using hne)
      obtain ⟨w, hw, hl, hpw⟩ := hsame d' hd'
      exact hr w hw hl ((repeated_iff (C36_flags env ns w d' hpw).1).mp hp')
    · rcases (lacking_iff hpv).mpr hl with hl | hl
      · exact Or.inl (hI.optional.mpr ⟨d, hdin, hl⟩)
      · exact Or.inr (hI.nillable.mpr ⟨d, hdin, hl⟩)
    · have no : ∀ d' ∈ ds.filter (fun d => decide (d.name = m.name)), ¬ (d'.optional = true ∨ d'.nillable = true) := by
        intro d' hd' hx
        obtain ⟨w, hw, hl', hpw⟩ := hsame d' hd'
        exact hl w hw hl' ((lacking_iff hpw).mp hx)
      constructor
      · show m.optional = false
        by_contra hne
        obtain ⟨d', hd', hp'⟩ := hI.optional.mp (by simpa using hne)
        exact no d' hd' (Or.inl hp')
      · show m.nillable = false
        by_contra hne
        obtain ⟨d', hd', hp'⟩ := hI.nillable.mp (by simpa using hne)
        exact no d' hd' (Or.inr hp')
  refine ⟨fun v hv => ?_, fun x hx => ?_⟩
  · obtain ⟨d, hd, hpv⟩ := forall₂_mem_left h5 v hv
    have hmem : d.name ∈ ms.map (·.name) := by rw [h6]; exact mem_firsts_of (List.mem_map_of_mem hd)
    obtain ⟨m, hm, hmn⟩ := List.mem_map.mp hmem
    obtain ⟨k1, k2⟩ := key m hm v hv d hd hpv hmn.symm
    exact ⟨m, by rw [h1]; exact List.mem_append_right _ hm, k1, k2⟩
  · rw [h1] at hx
    rcases List.mem_append.mp hx with hx | hx
    · refine Or.inl ⟨h2 x hx, fun e => ?_⟩
      rw [h4.mpr e] at hx
      cases hx
    · obtain ⟨d, hd, e1, -⟩ := (h8 x hx).first
      obtain ⟨hd, -⟩ := List.mem_filter.mp (List.mem_of_mem_head? hd)
      obtain ⟨v, hv, hpv⟩ := forall₂_mem_right h5 d hd
      obtain ⟨k1, k2⟩ := key x hx v hv d hd hpv e1.symm
      exact Or.inr ⟨k1, v, hv, k2⟩

/-- The attributes of a type with simple content are declared in its definition. -/
theorem simple_attributes {env : ParseEnv} {ns : Str} {root el : Element} {t : ComplexT} (hm : SimpleModel root el)
    (h : parseComplexType env ns root = some t) : ∀ a ∈ t.attributes, ∃ v ∈ allNamed el w3cSchemaNS b!"attribute", parseAttribute env ns v = some a := by
  by_cases hx : el.name.loc = b!"extension"
  · obtain ⟨-, -, -, -, -, -, -, h1⟩ := C83_simple_partial env ns root el t hm h
    exact forall₂_mem_right (h1 hx)
  · obtain ⟨sc, hr, hsc, hk, hel⟩ := hm
    have hel := hel.resolve_left hx
    unfold parseComplexType at h
    split at h
    · rename_i abs mixed habs hmixed
      rw [Option.map_eq_some_iff] at h
      obtain ⟨r, h, rfl⟩ := h
      obtain ⟨s1, s2, e1, h1, e2⟩ := walkFold_one _ (fun s : ComplexT × Str => s.1) sc (by
        intro s e s' _ ha hf
        rw [if_pos ha, Option.map_eq_some_iff] at hf
        obtain ⟨d, _, rfl⟩ := hf
        rfl) root.children _ r hr h
      simp only [hsc] at h1
      rw [if_neg (by decide), if_pos trivial, Option.map_eq_some_iff] at h1
      obtain ⟨t1, h1, rfl⟩ := h1
      dsimp only at e1 e2
      rw [e1] at h1
      unfold parseSimpleContent at h1
      rw [Option.map_eq_some_iff] at h1
      obtain ⟨r2, h1, rfl⟩ := h1
      obtain ⟨s3, s4, e3, h3, e4⟩ := walkFold_one _ (fun s : ComplexT × Str => s.1) el (by
        intro s e s' _ ha hf
        rw [if_pos ha, Option.map_eq_some_iff] at hf
        obtain ⟨d, _, rfl⟩ := hf
        rfl) sc.children _ r2 hk h1
      dsimp only at e3 e4
      rw [if_neg (by rw [hel]; decide), if_pos hel] at h3
      cases h3
      rw [e2, e4]
      dsimp only
      rw [e3]
      intro a ha
      cases ha
    · cases h

/-- Two definitions of one name are the same. -/
theorem decl_unique {roots : List Element} (ho : Orderly roots) {r r' e e' : Element} (hr : r ∈ roots) (hr' : r' ∈ roots) (he : e ∈ typeDecls r)
    (he' : e' ∈ typeDecls r') (h : defines (target r) e = defines (target r') e') : r = r' ∧ e = e' := by
  have hs := ho.spaces r hr _ (Or.inl (List.mem_append_left _ (List.mem_map_of_mem he)))
  have hs' := ho.spaces r' hr' _ (Or.inl (List.mem_append_left _ (List.mem_map_of_mem he')))
  rw [h, hs'] at hs
  obtain rfl := List.inj_on_of_nodup_map ho.targets hr' hr hs
  have hn := ho.types r' hr'
  unfold typeNames at hn
  exact ⟨rfl, List.inj_on_of_nodup_map (List.nodup_append.mp hn).1 he he' h⟩

/-- The type in the result that a definition of a complex type is made into. -/
theorem declared_object {env : ParseEnv} {ord : MapOrder} {roots : List Element} {ss : List Schema} {H : THeap} (ho : Orderly roots) (hd : Derivable roots)
    (h : parseSchemas env ord roots = .ok (ss, H)) {r e : Element} (hr : r ∈ roots) (he : e ∈ allNamed r w3cSchemaNS b!"complexType") :
    ∃ s ∈ ss, s.targetNS = target r ∧ ∃ (id : Nat) (t : ComplexT) (f : Ty → Ty) (m : Bool), s.types.get (defines (target r) e) = some (.obj id) ∧
      H[id]? = some (((TObj.complex t).mapTy f).withMixed m) ∧ t.name = defines (target r) e ∧ parseComplexType env (target r) e = some t ∧
      (∀ b, f (.builtin b) = .builtin b) ∧ ∀ ty ∈ (TObj.complex t).tys, ∀ n, Named n ty → Denotes ss H n (f ty) := by
  obtain ⟨s, hs, h1, h2, -⟩ := parse_linked ho.targets ho.types ho.unnamed h r hr
  obtain ⟨id, o0, o, g1, g2, g3, g4⟩ := h2 e (List.mem_append_left _ he)
  have hn : e.name.loc = b!"complexType" := by
    have := (List.mem_filter.mp he).2
    simp only [decide_eq_true_eq] at this
    rw [this]
  unfold parseDecl at g3
  rw [if_pos hn, Option.map_eq_some_iff] at g3
  obtain ⟨t, g3, rfl⟩ := g3
  obtain ⟨f, m, rfl, hfb, hf⟩ := g4
  refine ⟨s, hs, h1, id, t, f, m, g1, g2, ?_, g3, hfb, hf⟩
  obtain ⟨el, hm | hm⟩ := hd.shaped r hr e he
  · obtain ⟨cc, k1, k2, k3, k4⟩ := hm
    exact (C83_complex env _ e cc el t k1 k2 k3 k4 g3).1
  · exact (C83_simple_partial env _ e el t hm g3).1

end GoXml.Xsd

namespace GoXml.Xsdgen
open Xsd
open Wsdl (attrNamed allNamed below defines refersTo)

theorem anc_present {H : THeap} (hc : Coherent H) {t a : Ty} (h : Ancestor H t a) : Present H t → Present H a := by
  induction h with
  | self => exact id
  | @base t b a hb _ ih =>
    intro ht
    refine ih ?_
    rcases ht with ⟨i, rfl, -⟩ | ⟨j, rfl, hj⟩
    · cases hb
    · obtain ⟨o, ho⟩ : ∃ o, H[j]? = some o := ⟨_, List.getElem?_eq_getElem hj⟩
      obtain ⟨b', hb', hp⟩ := hc.based j o ho
      simp only [baseOf, ho] at hb
      rw [hb] at hb'
      cases hb'
      exact hp

theorem stands_ancestor {H : THeap} (hc : Coherent H) {t a : Ty} (ht : Present H t) (h : Stands H t a) : Ancestor H t a := by
  rcases h with h | ⟨rfl, d, hd, hn, hb⟩
  · exact h
  · exfalso
    rcases anc_present hc hd ht with ⟨i, rfl, -⟩ | ⟨j, rfl, hj⟩
    · exact hb i rfl
    · obtain ⟨o, ho⟩ : ∃ o, H[j]? = some o := ⟨_, List.getElem?_eq_getElem hj⟩
      obtain ⟨b', hb', -⟩ := hc.based j o ho
      simp only [baseOf, ho, hb'] at hn
      cases hn

theorem goType_named {env : Env} {cfg : Config} {H : THeap} (hc : Coherent H) {t : Ty} {x : GoExpr} (ht : Present H t) (h : exprOf env cfg H t = .ok x) :
    GoTypeNamed env cfg (xmlName H t) x := by
  rcases ht with ⟨i, rfl, h1, h2, -⟩ | ⟨j, rfl, hj⟩
  · refine Or.inl ⟨i, h1, h2, rfl, ?_⟩
    simp only [exprOf] at h
    obtain ⟨o, ho, h⟩ := bind_ok h
    cases o with
    | none => cases h
    | some y => cases h; exact ho
  · obtain ⟨o, ho⟩ : ∃ o, H[j]? = some o := ⟨_, List.getElem?_eq_getElem hj⟩
    refine Or.inr ⟨fun b hb => hc.own j o ho b ?_, ?_⟩
    · rw [hb]
      simp only [xmlName, ho]
    · cases h
      rfl

section
variable {penv : ParseEnv} {ord : MapOrder} {roots : List Element} {schemas : List Schema} {H : THeap} {env : Env} {cfg : Config}

theorem composed_defined {n : XName} (h : Composed roots n) : ∃ r ∈ roots, n ∈ typeNames r := by
  cases h with
  | any hr' he' _ _ => exact ⟨_, hr', List.mem_append_left _ (List.mem_map_of_mem (List.mem_append_left _ he'))⟩
  | step hr' he' _ _ => exact ⟨_, hr', List.mem_append_left _ (List.mem_map_of_mem (List.mem_append_left _ he'))⟩

/-- Types whose content is built on any content are such types in the result. -/
theorem composed_any (ho : Orderly roots) (hd : Derivable roots) (hp : parseSchemas penv ord roots = .ok (schemas, H)) (hc : Coherent H) {n : XName}
    (h : Composed roots n) : ∀ (id : Nat) (o : TObj), H[id]? = some o → o.name = n → FromAny H id := by
  have base : ∀ {r e el : Element}, r ∈ roots → e ∈ allNamed r w3cSchemaNS b!"complexType" → ContentModel e el → ∀ (id : Nat) (o : TObj),
      H[id]? = some o → o.name = defines (target r) e → ∃ c b, o = .complex c ∧ c.base = some b ∧ Denotes schemas H (refersTo el b!"base") b := by
    intro r e el hr he hm id o hid hn
    obtain ⟨s, -, -, j, t, f, m, -, hj, htn, hpt, -, hf⟩ := declared_object ho hd hp hr he
    obtain rfl := hc.named id j _ _ hid hj (by rw [hn, ← htn]; rfl)
    rw [hj] at hid
    cases hid
    obtain ⟨cc, k1, k2, k3, k4⟩ := hm
    obtain ⟨-, -, -, -, ⟨b, hb, hbn⟩, -⟩ := C83_complex penv _ e cc el t k1 k2 k3 k4 hpt
    exact ⟨_, f b, rfl, by simp [hb], hf b (by simp [TObj.tys, hb]) _ hbn⟩
  induction h with
  | any hr he hm hb =>
    intro id o hid hn
    obtain ⟨c, b, rfl, hcb, hden⟩ := base hr he hm id o hid hn
    refine .base hid ?_
    rw [hb] at hden
    rcases hden with ⟨i, i1, i2, i3, rfl⟩ | ⟨hno, -⟩
    · rw [hcb]
      have := (C26_parse_only ⟨w3cSchemaNS, b!"anyType"⟩ i).mpr ⟨i1, i2, i3⟩
      have e : parseBuiltin ⟨w3cSchemaNS, b!"anyType"⟩ = some AnyType := by decide +kernel
      rw [e] at this
      rw [Option.some.inj this]
    · exact absurd (by decide +kernel) (hno AnyType (by decide) (by decide))
  | step hr he hm hb ih =>
    intro id o hid hn
    obtain ⟨c, b, rfl, hcb, hden⟩ := base hr he hm id o hid hn
    obtain ⟨r', hr', hmem⟩ := composed_defined hb
    rcases hden with ⟨i, -, -, i3, rfl⟩ | ⟨-, s, -, j, o', -, hj, hjn, rfl⟩
    · exact absurd i3.symm (ho.own r' hr' _ (Or.inl hmem) i)
    · exact .step hid hcb (ih j o' hj hjn)


theorem simple_object (ho : Orderly roots) (hp : parseSchemas penv ord roots = .ok (schemas, H)) {r e : Element} (hr : r ∈ roots)
    (he : e ∈ allNamed r w3cSchemaNS b!"simpleType") : ∃ (id : Nat) (t : SimpleT) (f : Ty → Ty) (m : Bool),
      H[id]? = some (((TObj.simple t).mapTy f).withMixed m) ∧ t.name = defines (target r) e ∧ parseSimpleType penv (target r) e = some t := by
  obtain ⟨s, hs, h1, h2, -⟩ := parse_linked ho.targets ho.types ho.unnamed hp r hr
  obtain ⟨id, o0, o, g1, g2, g3, g4⟩ := h2 e (List.mem_append_right _ he)
  have hn : e.name.loc = b!"simpleType" := by rw [of_decide_eq_true (List.mem_filter.mp he).2]
  unfold parseDecl at g3
  rw [if_neg (by rw [hn]; decide), Option.map_eq_some_iff] at g3
  obtain ⟨t, g3, rfl⟩ := g3
  obtain ⟨f, m, rfl, -⟩ := g4
  exact ⟨id, t, f, m, g2, (C82_simple penv _ e t g3).1, g3⟩

/-- A simple type that is more than another name for its base has something to say. -/
theorem refined_content (ho : Orderly roots) (hp : parseSchemas penv ord roots = .ok (schemas, H)) (hc : Coherent H) {r e : Element} (hr : r ∈ roots)
    (he : e ∈ allNamed r w3cSchemaNS b!"simpleType") (href : Refined e) (id : Nat) (o : TObj) (hid : H[id]? = some o)
    (hn : o.name = defines (target r) e) : HasContent cfg o := by
  obtain ⟨j, t, f, m, hj, htn, hpt⟩ := simple_object ho hp hr he
  obtain rfl := hc.named id j _ _ hid hj (by rw [hn, ← htn]; rfl)
  rw [hj] at hid
  cases hid
  obtain ⟨-, -, hlist, tss, hun, hflat⟩ := C82_simple penv _ e t hpt
  show t.list = true ∨ t.union.map f ≠ [] ∨ _
  rcases href with h | ⟨u, hu, hw⟩ | ⟨el, hk, hloc, hen⟩
  · exact Or.inl (hlist.mpr h)
  · right; left
    obtain ⟨ts, hts, ws, hws, hfor⟩ := forall₂_mem_left hun u hu
    rw [ne_eq, List.map_eq_nil_iff, hflat]
    intro hnil
    have : ts = [] := List.flatten_eq_nil_iff.mp hnil ts hts
    subst this
    cases hfor
    exact hw _ hws rfl
  · right; right
    obtain ⟨h1, -⟩ := C82_base penv _ e el t hk hpt
    obtain ⟨b, -, -, hres⟩ := h1 hloc
    obtain ⟨k1, -, k2, k3, -⟩ := C81_facets penv b el _ hres
    show t.restriction.enum ≠ [] ∨ t.restriction.pattern ≠ none ∨ t.restriction.minLength ≠ 0 ∨ t.restriction.maxLength ≠ 0
    rcases hen with hen | ⟨k, hk, hb⟩
    · left
      rw [k1]
      unfold facetValues
      rw [ne_eq, List.map_eq_nil_iff]
      exact hen
    · simp only [List.mem_cons, List.not_mem_nil, or_false] at hk
      rcases hk with rfl | rfl
      · exact Or.inr (Or.inr (Or.inl (hb _ k2)))
      · exact Or.inr (Or.inr (Or.inr (hb _ k3)))

/-- What is not to be left out is not ignored. -/
theorem stated_kept {om : Omitted} (hom : Omits cfg om) {ns : Str} {v : Element} {a a' : XAttr} (hst : Stated om v)
    (hpa : parseAttribute penv ns v = some a) (hn : a'.name = a.name) : ¬ AttrIgnored cfg a' := by
  rintro ⟨p, hp, hb⟩
  obtain ⟨-, -, -, c4⟩ := C84_attribute_partial penv ns v a hpa
  rcases hom.2 with ⟨h, -⟩ | h
  · rw [h] at hp; cases hp
  · rw [h] at hp
    cases hp
    have hb := of_decide_eq_true hb
    rw [hn] at hb
    rcases hst with h0 | ⟨h1, h2⟩
    · rw [h0] at hb; cases hb
    · rw [c4 h1] at hb
      exact h2 hb

/-- Such types are worth a declaration. -/
theorem lasting_worth (ho : Orderly roots) (hd : Derivable roots) (hp : parseSchemas penv ord roots = .ok (schemas, H)) (hc : Coherent H)
    {om : Omitted} (hom : Omits cfg om) {n : XName} (h : Lasting roots om n) (id : Nat) (o : TObj) (hid : H[id]? = some o) (hn : o.name = n) : Worth cfg H id o := by
  rcases h with h | ⟨r, hr, e, he, el, rfl, hm, v, hv, hst⟩ | ⟨r, hr, e, he, rfl, href⟩
  · exact Or.inr (Or.inr (composed_any ho hd hp hc h id o hid hn))
  · obtain ⟨s, -, -, j, t, f, m, -, hj, htn, hpt, -, -⟩ := declared_object ho hd hp hr he
    obtain rfl := hc.named id j _ _ hid hj (by rw [hn, ← htn]; rfl)
    rw [hj] at hid
    cases hid
    have hfor : List.Forall₂ (fun v a => parseAttribute penv (target r) v = some a) (allNamed el w3cSchemaNS b!"attribute") t.attributes := by
      rcases hm with ⟨cc, k1, k2, k3, k4⟩ | ⟨hsm, hx⟩
      · exact (C83_complex penv _ e cc el t k1 k2 k3 k4 hpt).2.2.2.2.2.2
      · obtain ⟨-, -, -, -, -, -, -, h⟩ := C83_simple_partial penv _ e el t hsm hpt
        exact h hx
    obtain ⟨a, ha, hpa⟩ := forall₂_mem_left hfor v hv
    refine Or.inl (Or.inr ⟨_, List.mem_map_of_mem ha, fun p hp' ty => ?_⟩)
    have := stated_kept hom hst hpa rfl (a' := { a with type := ty })
    cases hb : p { a with type := ty }
    · rfl
    · exact absurd ⟨p, hp', hb⟩ this
  · exact Or.inl (refined_content ho hp hc hr he href id o hid hn)

/-- The Go type of a field. -/
theorem goType_for (ho : Orderly roots) (hr : Regular roots) (hd : Derivable roots) (hp : parseSchemas penv ord roots = .ok (schemas, H)) (hc : Coherent H)
    {om : Omitted} (hom : Omits cfg om) {t t' : Ty} {x : GoExpr} (ht : Present H t) (hq : (xmlName H t).loc ≠ b!"_self")
    (hs : Replaces (Deserving cfg H) H t t') (h : exprOf env cfg H t' = .ok x) : GoTypeFor env cfg roots om (xmlName H t) x := by
  have ha := stands_ancestor hc ht hs.1
  refine ⟨_, (ancestor_comes ho hr hd hp ha hq).2, fun hlast => ?_, goType_named hc (anc_present hc ha ht) h⟩
  rcases ht with ⟨i, rfl, -⟩ | ⟨j, rfl, hj⟩
  · rw [builtin_ancestor ha]
  · obtain ⟨o, ho'⟩ : ∃ o, H[j]? = some o := ⟨_, List.getElem?_eq_getElem hj⟩
    rw [hs.2 j ⟨o, ho', lasting_worth ho hd hp hc hom hlast j o ho' (by simp only [xmlName, ho'])⟩ rfl]

theorem typedAs_name {ss : List Schema} {v : Element} {t : Ty} (h : TypedAs ss H v t) : xmlName H t = typeNamed v := by
  unfold typeNamed
  split
  · rename_i hn
    rw [h.1 hn]
    exact (by decide +kernel : builtinName 0 = ⟨w3cSchemaNS, b!"anyType"⟩)
  · rename_i hn
    exact denotes_name (h.2 hn)

theorem typeNamed_quiet (hr : Regular roots) {r v : Element} (hrr : r ∈ roots) (hv : v ∈ below r) : (typeNamed v).loc ≠ b!"_self" := by
  unfold typeNamed
  split
  · decide
  · exact hr.quiet r hrr v hv _ (by simp)

theorem fieldOf_element (ho : Orderly roots) (hr : Regular roots) (hd : Derivable roots) (hp : parseSchemas penv ord roots = .ok (schemas, H)) (hc : Coherent H)
    {om : Omitted} (hom : Omits cfg om) {r v : Element} (hrr : r ∈ roots) {vs : List Element} (hvs : ∀ v ∈ vs, v ∈ below r) {m m' : XElem} {f : Field} (ha : ElementAs schemas H (target r) vs v m)
    (hw : m.wildcard = false) (hpres : Present H m.type) (hl : LikeElem (Deserving cfg H) H m m') (hf : ElemField env cfg H m' f) :
    FieldOfElement env cfg roots om (target r) vs v f := by
  obtain ⟨item, h1, h2, -, h3, h4⟩ := hf
  obtain ⟨v0, hv0, hloc, hty⟩ := ha.typed
  obtain ⟨hl1, hl2⟩ := hl
  have e1 : m'.name = m.name := by rw [← hl1]
  have e2 : m'.wildcard = m.wildcard := by rw [← hl1]
  have e3 : m'.plural = m.plural := by rw [← hl1]
  have e4 : m'.optional = m.optional := by rw [← hl1]
  have e5 : m'.nillable = m.nillable := by rw [← hl1]
  have hname := typedAs_name hty
  refine ⟨m.name.space, item, v0, m.plural, m.optional || m.nillable, fun hh => by rw [ha.home hh], hv0, hloc, ?_, ?_, ?_, ha.plural, ha.single, ?_, ?_⟩
  · rw [← hname]
    refine goType_for ho hr hd hp hc hom hpres ?_ hl2 h1
    rw [hname]
    exact typeNamed_quiet hr hrr (hvs v0 hv0)
  · simp only [e2, hw, e3] at h2
    simpa using h2
  · rw [← ha.loc]
    rw [e1, e2, e4, e5] at h3 h4
    cases ho' : m.optional <;> cases hn' : m.nillable
    · rw [h4 hw ⟨ho', hn'⟩]; simp
    · rw [h3 hw (Or.inr hn')]; simp
    · rw [h3 hw (Or.inl ho')]; simp
    · rw [h3 hw (Or.inl ho')]; simp
  · intro hl
    rcases ha.absent hl with h | h <;> simp [h]
  · intro hl
    obtain ⟨k1, k2⟩ := ha.present hl
    simp [k1, k2]

theorem fieldOf_attribute (ho : Orderly roots) (hr : Regular roots) (hd : Derivable roots) (hp : parseSchemas penv ord roots = .ok (schemas, H)) (hc : Coherent H)
    {om : Omitted} (hom : Omits cfg om) {r v : Element} (hrr : r ∈ roots) (hv : v ∈ below r) {a a' : XAttr} {g : Ty → Ty} {f : Field} (hpa : parseAttribute penv (target r) v = some a)
    (hden : ∀ n, Named n a.type → Denotes schemas H n (g a.type)) (hpres : Present H (g a.type)) (hl : LikeAttr (Deserving cfg H) H { a with type := g a.type } a')
    (hf : AttrField env cfg H a' f) : FieldOfAttribute env cfg roots om (target r) v f := by
  obtain ⟨h1, sp, h2, h3, h4⟩ := hf
  obtain ⟨hl1, hl2⟩ := hl
  obtain ⟨c1, -, c3, c4⟩ := C84_attribute_partial penv (target r) v a hpa
  have e1 : a'.name = a.name := by have := congrArg XAttr.name hl1; exact this
  have e2 : a'.attr = a.attr := by have := congrArg XAttr.attr hl1; exact this
  have e3 : a'.optional = a.optional := by have := congrArg XAttr.optional hl1; exact this
  have e4 : a.attr = v.attrs ∧ a.name.space = target r := by
    unfold parseAttribute at hpa
    split at hpa
    · cases hpa
    · cases hpa
      exact ⟨rfl, rfl⟩
  have hname := denotes_name (hden _ c3)
  rw [e2, e4.1, e1, e4.2] at h2
  rw [e2, e4.1] at h3
  refine ⟨sp, a.name.loc, ?_, fun hn => by rw [c4 hn], h2, h3, ?_⟩
  · rw [← hname]
    refine goType_for ho hr hd hp hc hom hpres ?_ hl2 h1
    rw [hname]
    exact hr.quiet r hrr v hv _ (by simp)
  · rw [h4, e1, e3]
    congr 1
    cases hopt : a.optional
    · rw [if_neg (by simp), if_pos (c1.mp hopt)]
    · rw [if_pos rfl, if_neg (fun e => by rw [c1.mpr e] at hopt; cases hopt)]

end

end GoXml.Xsdgen
