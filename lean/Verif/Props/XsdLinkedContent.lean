import Verif.Props.XsdLinked
import Verif.Proofs.XsdgenDerivableCheck
set_option autoImplicit false

/-! C155: the types that complex types with simple content refer to. -/

namespace GoXml.Xsd
open Wsdl (attrNamed allNamed denoted defines refersTo)

/-- The attributes of a type in the result. -/
theorem linked_attributes {ss : List Schema} {H : THeap} {env : ParseEnv} {ns : Str} {f : Ty → Ty} {vs : List Element} {as : List XAttr}
    (hh : List.Forall₂ (fun v a => parseAttribute env ns v = some a) vs as) (hf : ∀ a ∈ as, ∀ n, Named n a.type → Denotes ss H n (f a.type)) :
    List.Forall₂ (fun v (a : XAttr) => Denotes ss H (refersTo v b!"type") a.type ∧
      ((58 : UInt8) ∉ attrNamed v b!"name" → a.name.loc = attrNamed v b!"name")) vs (as.map fun a => { a with type := f a.type }) := by
  induction hh with
  | nil => exact .nil
  | @cons v a _ _ h1 _ ih =>
    obtain ⟨-, -, c3, c4⟩ := C84_attribute_partial env ns v a h1
    refine .cons ⟨hf _ List.mem_cons_self _ c3, fun hn => ?_⟩ (ih fun a ha => hf a (List.mem_cons_of_mem _ ha))
    show a.name.loc = _
    rw [c4 hn]

/-- C155, partial: the same for complex types with simple content. They have no elements; the base is the type that is named, and so are the types
of the attributes of an extension. Missing for C155: several documents with the same target namespace. -/
theorem C155_content_partial (env : ParseEnv) (ord : MapOrder) (roots : List Element) (hd : (roots.map target).Nodup)
    (ht : ∀ r ∈ roots, (typeNames r).Nodup) (hu : ∀ r ∈ roots, target r = [] → denoted r.scope b!"_self" = selfName r)
    (ss : List Schema) (H : THeap) (h : parseSchemas env ord roots = .ok (ss, H)) (r : Element) (hr : r ∈ roots) (e : Element)
    (he : e ∈ allNamed r w3cSchemaNS b!"complexType") (el : Element) (hc : SimpleModel e el) :
    ∃ s ∈ ss, s.targetNS = target r ∧ ∃ (id : Nat) (c : ComplexT), s.types.get (defines (target r) e) = some (.obj id) ∧ H[id]? = some (.complex c) ∧
      (∃ b, c.base = some b ∧ Denotes ss H (refersTo el b!"base") b) ∧ (c.extends_ = true ↔ el.name.loc = b!"extension") ∧
      c.elements = [] ∧ (el.name.loc = b!"extension" → AttributesOf ss H el c.attributes) := by
  obtain ⟨s, hs, h1, h2, -⟩ := parse_linked hd ht hu h r hr
  obtain ⟨id, o0, o, g1, g2, g3, g4⟩ := h2 e (List.mem_append_left _ he)
  have hn : e.name.loc = b!"complexType" := by
    have := (List.mem_filter.mp he).2
    simp only [decide_eq_true_eq] at this
    rw [this]
  unfold parseDecl at g3
  rw [if_pos hn, Option.map_eq_some_iff] at g3
  obtain ⟨t, g3, rfl⟩ := g3
  obtain ⟨f, m, rfl, hfb, hf⟩ := g4
  obtain ⟨-, -, -, -, hels, ⟨b, hb, hbn⟩, hext, hattr⟩ := C83_simple_partial env (target r) e el t hc g3
  refine ⟨s, hs, h1, id, _, g1, g2, ⟨f b, ?_, ?_⟩, hext, ?_, fun hx => linked_attributes (hattr hx) fun a ha n hna => hf _ ?_ n hna⟩
  · simp [hb]
  · refine hf b ?_ _ hbn
    simp [TObj.tys, hb]
  · simp [hels]
  · simp only [TObj.tys, List.mem_append, List.mem_map]
    exact Or.inr ⟨a, ha, rfl⟩

/-- The type `Price` of the schema of states: a union with an attribute. -/
example : ∃ roots ss H, Xsdgen.ordersRoots = some roots ∧ (roots.map target).Nodup ∧ (∀ r ∈ roots, (typeNames r).Nodup) ∧
    (∀ r ∈ roots, target r = [] → denoted r.scope b!"_self" = selfName r) ∧ parseSchemas Xsdgen.testEnv inOrder roots = .ok (ss, H) ∧
    ∃ r ∈ roots, ∃ e ∈ allNamed r w3cSchemaNS b!"complexType", ∃ el, SimpleModel e el ∧ refersTo el b!"base" = ⟨b!"urn:v", b!"Either"⟩ ∧
      (allNamed el w3cSchemaNS b!"attribute").map (fun v => refersTo v b!"type") = [⟨w3cSchemaNS, b!"string"⟩] := by
  have : Xsdgen.ordersTypes.map (fun (x : List Element × List Schema × THeap) => orderlyOk x.1 &&
      (x.1.any fun r => (allNamed r w3cSchemaNS b!"complexType").any fun e => (simpleModelOf e).any fun el =>
        decide (refersTo el b!"base" = ⟨b!"urn:v", b!"Either"⟩) &&
        decide ((allNamed el w3cSchemaNS b!"attribute").map (fun v => refersTo v b!"type") = [⟨w3cSchemaNS, b!"string"⟩]))) = some true := by decide +kernel
  obtain ⟨⟨roots, ss, H⟩, hx, h⟩ := Option.map_eq_some_iff.mp this
  rw [Bool.and_eq_true] at h
  obtain ⟨h1, h2⟩ := h
  have ho := orderly_of h1
  unfold Xsdgen.ordersTypes at hx
  obtain ⟨roots', hr, hx⟩ := Option.bind_eq_some_iff.mp hx
  split at hx
  · rename_i res hres
    cases hx
    refine ⟨_, ss, H, hr, ho.targets, ho.types, ho.unnamed, hres, ?_⟩
    obtain ⟨r, hr, h2⟩ := List.any_eq_true.mp h2
    obtain ⟨e, he, h2⟩ := List.any_eq_true.mp h2
    obtain ⟨el, hel, h2⟩ := (Option.any_eq_true _ _).mp h2
    rw [Bool.and_eq_true, decide_eq_true_iff, decide_eq_true_iff] at h2
    exact ⟨r, hr, e, he, el, simpleModelOf_model hel, h2⟩
  · cases hx

end GoXml.Xsd
