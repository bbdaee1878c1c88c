import Verif.Proofs.XsdgenReads
import Verif.Props.XsdgenValues
set_option autoImplicit false

/-! Theorems about reading of documents that are not quite as the schema says: C132 (what is not declared), C133 (another
order) and C135 (what is absent). -/

namespace GoXml.Values
open Xsd Xsdgen

/-! ### C132 -/

/-- C132: attributes and elements that a type does not declare change nothing when a document is read, and are no errors. Nor do they hide what is
declared. -/
theorem C132_unknown {V : Type} (S : Setting V) (c : ComplexT) (acc : Acc) (hf : S.Fine c acc) (n : Nat) (old : GoVal V) (name : XName)
    (attrs : List Attr) (kids : List XNode) :
    S.prog.decode n (.ident (publicName S.env S.cfg c.name)) old (.elem name attrs kids) =
      S.prog.decode n (.ident (publicName S.env S.cfg c.name)) old (.elem name (S.knownAttrs c attrs) (S.knownKids c kids)) := by
  obtain ⟨text, elems, attrs', h⟩ := hf.slots
  obtain ⟨es, he, hv⟩ := h.reading hf
  rw [decode_fine hf he, decode_fine hf he]
  have hname : ∀ a b : XName, nameMatches a b = true → Means a b := by
    intro a b h
    unfold nameMatches at h
    simpa [Means] using h
  have h1 : S.prog.readAttrs es (S.knownAttrs c attrs) = S.prog.readAttrs es attrs := by
    refine funext (readAttrs_filter S.prog es _ (fun x hx e hm hmode => ?_) attrs)
    rcases view_names h hv hm with h' | ⟨h', _⟩ | ⟨_, a, ha, hn⟩
    · rw [h'] at hmode; cases hmode
    · rw [h'] at hmode; cases hmode
    · rw [hn]
      by_cases hma : nameMatches (attrName a) x.name = true
      · exact absurd ⟨a, ha, hname _ _ hma⟩ (of_decide_eq_false hx)
      · simpa using hma
  have h2 : ∀ vs, S.prog.decodeKids n es vs (S.knownKids c kids) = S.prog.decodeKids n es vs kids := by
    refine decodeKids_filter S.prog n es _ (fun nm as ks hx => ?_) (fun _ => rfl) kids
    refine entryFor_none (fun e hm hmode => ?_) (fun e hm hmode => ?_)
    · rcases view_names h hv hm with h' | ⟨h', _⟩ | ⟨h', _⟩ <;> rw [h'] at hmode <;> cases hmode
    · rcases view_names h hv hm with h' | ⟨_, el, hel, hn⟩ | ⟨h', _⟩
      · rw [h'] at hmode; cases hmode
      · rw [hn]
        by_cases hma : nameMatches el.name nm = true
        · exact absurd ⟨el, hel, hname _ _ hma⟩ (of_decide_eq_false hx)
        · simpa using hma
      · rw [h'] at hmode; cases hmode
  have h3 : textIn (S.knownKids c kids) = textIn kids := textIn_filter _ (fun _ => rfl) kids
  simp only [h1, h2, h3]

/-- An order with an attribute and elements that are not declared. -/
example : (trial orderHeap).knownAttrs orderType [att b!"other" b!"y", att b!"id" b!"7", ⟨⟨b!"p", b!"note"⟩, b!"x"⟩] =
      [att b!"id" b!"7", ⟨⟨b!"p", b!"note"⟩, b!"x"⟩] ∧
    (trial orderHeap).knownKids orderType [.elem ⟨b!"p", b!"name"⟩ [] [], txt b!"name" b!"Bob", .text b!" ", txt b!"price" b!"3"] =
      [txt b!"name" b!"Bob", .text b!" "] := by decide +kernel

example : (trial orderHeap).prog.again 10 (.ident b!"Order") (elem b!"order" [att b!"other" b!"y", att b!"id" b!"7"]
      [.elem ⟨b!"p", b!"name"⟩ [] [], txt b!"name" b!"Bob", .text b!" ", txt b!"price" b!"3"]) =
    some [elem b!"order" [att b!"id" b!"7"] [txt b!"name" b!"Bob"]] := by decide +kernel

/-! ### C133 -/

/-- C133: the order in which a document has attributes, and elements with different names, does not matter for what is read. -/
theorem C133_order {V : Type} (S : Setting V) (c : ComplexT) (acc : Acc) (hf : S.Fine c acc) (n : Nat) (old : GoVal V) (name : XName)
    (attrs attrs' : List Attr) (ha : attrs.Perm attrs') (hd : (attrs.map (·.name.loc)).Nodup) (kids kids' : List XNode) (hk : Reordered kids kids') :
    S.prog.decode n (.ident (publicName S.env S.cfg c.name)) old (.elem name attrs kids) =
      S.prog.decode n (.ident (publicName S.env S.cfg c.name)) old (.elem name attrs' kids') := by
  obtain ⟨text, elems, as, h⟩ := hf.slots
  obtain ⟨es, he, hv⟩ := h.reading hf
  rw [decode_fine hf he, decode_fine hf he]
  have hany : ∀ e ∈ es, e.info.mode ≠ .any := by
    intro e hm hmode
    rcases view_names h hv hm with h' | ⟨h', _⟩ | ⟨h', _⟩ <;> rw [h'] at hmode <;> cases hmode
  simp only [readAttrs_perm S.prog es hv.once ha hd, decodeKids_reordered S.prog n es hany hv.once hk, reordered_text hk]

/-- An order whose elements come in another order than the schema says. -/
example : Reordered [txt b!"name" b!"Bob", .text b!" ", txt b!"qty" b!"1", elem b!"item" [att b!"n" b!"1"] [], elem b!"item" [att b!"n" b!"2"] []]
    [.text b!" ", txt b!"qty" b!"1", elem b!"item" [att b!"n" b!"1"] [], txt b!"name" b!"Bob", elem b!"item" [att b!"n" b!"2"] []] :=
  .trans (.symm (.text ..)) (.cons _ (.trans (.swap _ _ _ _ _ _ _ (by decide)) (.cons _ (.swap _ _ _ _ _ _ _ (by decide)))))

example : (trial orderHeap).prog.again 10 (.ident b!"Order") (elem b!"order" [att b!"id" b!"7"]
      [.text b!" ", txt b!"qty" b!"1", elem b!"item" [att b!"n" b!"1"] [], txt b!"name" b!"Bob", elem b!"item" [att b!"n" b!"2"] []]) =
    some [elem b!"order" [att b!"id" b!"7"] [txt b!"name" b!"Bob", elem b!"item" [att b!"n" b!"1"] [], elem b!"item" [att b!"n" b!"2"] [],
      txt b!"qty" b!"1"]] := by decide +kernel

/-- The names matter: of two attributes that differ in the namespace only, the last is read. -/
theorem C133_attrs :
    (trial orderHeap).prog.again 10 (.ident b!"Order") (elem b!"order" [att b!"id" b!"7", ⟨⟨b!"p", b!"id"⟩, b!"8"⟩] []) =
      some [elem b!"order" [att b!"id" b!"8"] [elem b!"name" [] []]] ∧
    (trial orderHeap).prog.again 10 (.ident b!"Order") (elem b!"order" [⟨⟨b!"p", b!"id"⟩, b!"8"⟩, att b!"id" b!"7"] []) =
      some [elem b!"order" [att b!"id" b!"7"] [elem b!"name" [] []]] := by decide +kernel

/-! ### C135 -/

/-- C135 is false: attributes and elements with a default that are absent are not read as the default, but as 0, or as an empty string. -/
theorem C135_refuted :
    let p := (fromSchema (schemaO [complexType b!"doc" [] [xs b!"sequence" [] [declare1 b!"n" b!"xs:int" [(b!"default", b!"5")]],
      xs b!"attribute" [(b!"name", b!"k"), (b!"type", b!"xs:string"), (b!"default", b!"v")] []]])).prog
    ((p.overrides.get b!"Doc").getD []).map (·.dflt) = [b!"5", b!"v"] ∧
    ∃ z, p.zero 10 (.ident b!"Doc") = some z ∧
      p.decode 10 (.ident b!"Doc") z (elem b!"doc" [] []) = some (.struct [.leaf (.num 0), .leaf (.str [])]) := by
  refine ⟨by decide +kernel, .struct [.leaf (.num 0), .leaf (.str [])], rfl, rfl⟩

/-- C135, as far as it holds: the field of an attribute or an element that is absent keeps its value, whatever else is read. A default is not looked
at. -/
theorem C135_absent_partial {V : Type} (S : Setting V) (c : ComplexT) (acc : Acc) (hf : S.Fine c acc) (n : Nat) (vs : List (GoVal V)) (v : GoVal V)
    (name : XName) (attrs : List Attr) (kids : List XNode)
    (h : S.prog.decode n (.ident (publicName S.env S.cfg c.name)) (.struct vs) (.elem name attrs kids) = some v) :
    (∀ (j : Nat) a, (S.attributes c)[j]? = some a → (∀ x ∈ attrs, ¬ Means (attrName a) x.name) →
      ∃ vs', v = .struct vs' ∧ vs'[acc.fields.length - (S.attributes c).length + j]? = vs[acc.fields.length - (S.attributes c).length + j]?) ∧
    ∀ (j : Nat) el, (S.elements c)[j]? = some el → (∀ nm as ks, .elem nm as ks ∈ kids → ¬ Means el.name nm) →
      ∃ vs', v = .struct vs' ∧ vs'[acc.fields.length - (S.attributes c).length - (S.elements c).length + j]? =
        vs[acc.fields.length - (S.attributes c).length - (S.elements c).length + j]? := by
  obtain ⟨text, elems, as, hs⟩ := hf.slots
  obtain ⟨es, he, hv⟩ := hs.reading hf
  have hlen : acc.fields.length = text.length + (S.elements c).length + (S.attributes c).length := by
    rw [hs.fields, hs.elems.length_eq, hs.attrs.length_eq]
    simp [Nat.add_assoc]
  have hany : ∀ e ∈ es, e.info.mode ≠ .any := by
    intro e hm hmode
    rcases view_names hs hv hm with h' | ⟨h', _⟩ | ⟨h', _⟩ <;> rw [h'] at hmode <;> cases hmode
  have hname : ∀ a b : XName, nameMatches a b = true → Means a b := by
    intro a b h
    unfold nameMatches at h
    simpa [Means] using h
  constructor
  · intro j a hj hab
    have hi : acc.fields.length - (S.attributes c).length + j = text.length + elems.length + j := by rw [hlen, hs.elems.length_eq]; omega
    rw [hi]
    have slot : ∀ e ∈ es, e.idx = text.length + elems.length + j → e.info.mode = .attr ∧ e.info.name = attrName a := by
      intro e hm hidx
      obtain ⟨s, hs1, hs2, _⟩ := hv.sound e hm
      rw [hidx] at hs1
      rcases hs.cases hs1 with ⟨hlt, _⟩ | ⟨j', el, hj', hel, _⟩ | ⟨j', a', hj', ha', his⟩
      · omega
      · have := (List.getElem?_eq_some_iff.mp hel).1
        rw [hs.elems.length_eq] at this
        omega
      · have : j' = j := by omega
        subst this
        rw [hj] at ha'
        cases ha'
        rw [hs2, his.info]
        exact ⟨rfl, rfl⟩
    refine keep_fine hf he (fun x hx e hm hmode hmat hidx => ?_) (fun nm as' js hk e hent hidx => ?_) (fun e hm hmode hidx => ?_) h
    · exact hab x hx (hname _ _ ((slot e hm hidx).2 ▸ hmat))
    · obtain ⟨m1, m2, _⟩ := entryFor_mem hany hent
      rw [(slot e m1 hidx).1] at m2
      cases m2
    · rw [(slot e hm hidx).1] at hmode
      cases hmode
  · intro j el hj hab
    have hi : acc.fields.length - (S.attributes c).length - (S.elements c).length + j = text.length + j := by omega
    rw [hi]
    have hlt := (List.getElem?_eq_some_iff.mp hj).1
    have slot : ∀ e ∈ es, e.idx = text.length + j → e.info.mode = .element ∧ e.info.name = el.name := by
      intro e hm hidx
      obtain ⟨s, hs1, hs2, _⟩ := hv.sound e hm
      rw [hidx] at hs1
      rcases hs.cases hs1 with ⟨hlt, _⟩ | ⟨j', el', hj', hel, his⟩ | ⟨j', a', hj', ha', _⟩
      · omega
      · have : j' = j := by omega
        subst this
        rw [hj] at hel
        cases hel
        rw [hs2, his.info]
        exact ⟨rfl, rfl⟩
      · rw [hs.elems.length_eq] at hlt
        omega
    refine keep_fine hf he (fun x hx e hm hmode hmat hidx => ?_) (fun nm as' js hk e hent hidx => ?_) (fun e hm hmode hidx => ?_) h
    · rw [(slot e hm hidx).1] at hmode
      cases hmode
    · obtain ⟨m1, _, m3⟩ := entryFor_mem hany hent
      exact hab nm as' js hk (hname _ _ ((slot e m1 hidx).2 ▸ m3))
    · rw [(slot e hm hidx).1] at hmode
      cases hmode

/-- An order without a note (the second attribute) and without a day (the second element). -/
example : ((trial orderHeap).attributes orderType)[1]?.map attrName = some ⟨[], b!"note"⟩ ∧
    (∀ x ∈ [att b!"id" b!"7"], ¬ Means ⟨[], b!"note"⟩ x.name) ∧ ((trial orderHeap).elements orderType)[1]? = some dayElem ∧
    ¬ Means dayElem.name ⟨b!"o", b!"name"⟩ := by decide +kernel

end GoXml.Values
