import Verif.Proofs.XsdRelinked
import Verif.Props.XsdCanonical
set_option autoImplicit false

/-! Property C149: what `Normalize` makes of schemas; also C137, C29 and C30 for documents in memory. -/

namespace GoXml.Xsd
open Wsdl

/-! ### C149 -/

/-- C149, partial: `Normalize` brings neat schemas into canonical form, whether they are documents or parts of
documents. One schema results for each, with the same attributes; its first children are those there were, with the
same names, and types follow. References are gone, provided they are `Linked`; if there are none, this holds. Missing for C149: references to
groups and to declarations with contents other than types, which C33, C34 and C36 are about, and the cases for which it is false. -/
theorem C149_canonical_partial (grow : Nat → Nat → Nat) (n : Nat) (docs : List Element) (hn : ∀ t ∈ docs, depth t ≤ n)
    (hap : ∀ t ∈ docs, SchemasApart t) (hd : ∀ t ∈ docs.flatMap schemasIn, Neat t ∧ 3 * depth t ≤ n) (hl : Linked (docs.flatMap schemasIn)) :
    ∃ out, normalize grow n docs = some out ∧ List.Forall₂ Survives (docs.flatMap schemasIn) out ∧ ∀ t ∈ out, Canonical t := by
  obtain ⟨docs', out, h1, h2, _, h4, h5, _⟩ := normalize_linked grow n docs hn hap hd hl
  have hneat : ∀ t ∈ docs.flatMap schemasIn, Neat t := fun t ht => (hd t ht).1
  exact ⟨out, h2, survives_all (survives_finished h1 hneat 0) h4 (top_finished hl h1 hneat), fun t ht => (h5 t ht).1⟩

/-- Schemas without references are linked. -/
theorem C149_linked (ts : List Element) (h : ∀ t ∈ ts, ∀ x ∈ below t, ¬ IsRef x) : Linked ts := linked_none h

/-- Where there is no reference, nothing is replaced. -/
theorem C149_unlinked {T : Element → Element → Prop} {t t' : Element} (hn : ∀ x ∈ below t, ¬ IsRef x) (h : DocRelinked T t t') : t' = t :=
  docRelinked_same hn h

/-- C149, the passes one after the other: default types, names of elements for anonymous types, numbered names for the rest,
alternatives of choices, contents of complex types; finally every reference is replaced by a declaration of the same kind that has the name
it refers to. -/
theorem C149_passes_partial (grow : Nat → Nat → Nat) (n : Nat) (docs : List Element) (hn : ∀ t ∈ docs, depth t ≤ n)
    (hap : ∀ t ∈ docs, SchemasApart t) (hd : ∀ t ∈ docs.flatMap schemasIn, Neat t ∧ 3 * depth t ≤ n) (hl : Linked (docs.flatMap schemasIn)) :
    ∃ docs' out, List.Forall₂ FirstLoop (docs.flatMap schemasIn) docs' ∧ normalize grow n docs = some out ∧
      List.Forall₂ (DocRelinked (Target (finished docs' 0))) (finished docs' 0) out := by
  obtain ⟨docs', out, h1, h2, _, h4, _⟩ := normalize_linked grow n docs hn hap hd hl
  exact ⟨docs', out, h1, h2, h4⟩

/-- C137, partial: for neat schemas `Normalize` is idempotent. -/
theorem C137_neat_partial (grow : Nat → Nat → Nat) (n : Nat) (docs : List Element) (hn : ∀ t ∈ docs, depth t ≤ n)
    (hap : ∀ t ∈ docs, SchemasApart t) (hd : ∀ t ∈ docs.flatMap schemasIn, Neat t ∧ 3 * depth t ≤ n) (hl : Linked (docs.flatMap schemasIn)) :
    ∃ once, normalize grow n docs = some once ∧ normalize grow n once = some once := by
  obtain ⟨docs', out, _, h2, _, _, h5, _⟩ := normalize_linked grow n docs hn hap hd hl
  exact ⟨_, h2, C137_canonical_partial grow n _ (fun t ht => (h5 t ht).2) fun t ht => (h5 t ht).1⟩

/-- The schemas that are normalized are those of the documents, in order. -/
theorem C149_schemas (grow : Nat → Nat → Nat) (n : Nat) (docs : List Element) (hn : ∀ t ∈ docs, depth t ≤ n) (hap : ∀ t ∈ docs, SchemasApart t) :
    ∃ ps, schemasOf n (loadDocs grow docs []).1 (loadDocs grow docs []).2 = some ps ∧
      List.Forall₂ (Holds (loadDocs grow docs []).1) ps (docs.flatMap schemasIn) := by
  obtain ⟨l1, _, l3, l4⟩ := loadDocs_docs grow docs
  have hmem : ∀ d ∈ (loadDocs grow docs []).2.zip docs, d.2 ∈ docs := fun d hm => by rw [← l4]; exact List.mem_map.mpr ⟨d, hm, rfl⟩
  obtain ⟨D, q1, q2, q3⟩ := schemas_docs l1 (fun d hm => hn d.2 (hmem d hm)) fun d hm => hap d.2 (hmem d hm)
  rw [l3] at q1
  rw [l4] at q2
  refine ⟨_, q1, ?_⟩
  rw [← q2]
  have h := holds_docs q3
  clear * - h
  induction D with
  | nil => exact .nil
  | cons d D ih => exact .cons (h d (by simp)) (ih fun x hx => h x (by simp [hx]))

/-- A type with anonymous types inside. -/
def neatType : Element :=
  xs b!"complexType" [(b!"name", b!"order")] [
    xs b!"sequence" [] [
      xs b!"element" [(b!"name", b!"item")] [
        xs b!"complexType" [] [xs b!"choice" [] [xs b!"element" [(b!"name", b!"a")] [], xs b!"element" [(b!"name", b!"b")] [
          xs b!"simpleType" [] [xs b!"restriction" [(b!"base", b!"xs:string")] []]]]]]],
    xs b!"attribute" [(b!"name", b!"id")] [xs b!"simpleType" [] [xs b!"list" [] [xs b!"simpleType" [] [xs b!"restriction" [(b!"base", b!"xs:int")] []]]]]]

def neatDoc : Element := xs b!"schema" [(b!"targetNamespace", b!"urn:t")] [neatType, xs b!"element" [(b!"name", b!"o"), (b!"type", b!"t:order")] []]

/-- A WSDL document with a schema. -/
def neatWsdl : Element := .mk ⟨b!"http://schemas.xmlsoap.org/wsdl/", b!"definitions"⟩ [] [] [] [
  .mk ⟨b!"http://schemas.xmlsoap.org/wsdl/", b!"types"⟩ [] [] [] [neatDoc, xs b!"schema" [(b!"targetNamespace", b!"urn:u")] []]]

example : ([neatDoc].flatMap schemasIn).length = 1 ∧ Neat neatDoc ∧ SchemasApart neatDoc ∧ 3 * depth neatDoc ≤ 30 := by decide +kernel

example : ([neatWsdl].flatMap schemasIn).map (attrNamed · b!"targetNamespace") = [b!"urn:t", b!"urn:u"] ∧ SchemasApart neatWsdl ∧
    (∀ t ∈ [neatWsdl].flatMap schemasIn, Neat t ∧ 3 * depth t ≤ 30) ∧ depth neatWsdl ≤ 30 := by decide +kernel

example : Linked ([neatWsdl].flatMap schemasIn) := C149_linked _ (by decide +kernel)

/-- A type with references to an element and an attribute, which have types of their own. -/
def refsDoc : Element := xs b!"schema" [(b!"targetNamespace", b!"urn:t")] [
  xs b!"element" [(b!"name", b!"e"), (b!"type", b!"xs:int")] [],
  xs b!"attribute" [(b!"name", b!"a"), (b!"default", b!"x")] [],
  xs b!"complexType" [(b!"name", b!"c")] [
    xs b!"choice" [] [xs b!"element" [(b!"ref", b!"t:e"), (b!"maxOccurs", b!"2")] [], xs b!"element" [(b!"name", b!"f")] []],
    xs b!"attribute" [(b!"ref", b!"t:a"), (b!"type", b!"xs:token")] [xs b!"annotation" [] []]]]

example : ([refsDoc].flatMap schemasIn).length = 1 ∧ Neat refsDoc ∧ SchemasApart refsDoc ∧ 3 * depth refsDoc ≤ 30 ∧
    ((below refsDoc).filter fun x => decide (IsRef x)).length = 2 := by decide +kernel

theorem refsDoc_linked : Linked ([refsDoc].flatMap schemasIn) := by decide +kernel

/-- What becomes of the references. -/
example : (normalize doubling 30 [refsDoc]).map (·.flatMap fun t => (below t).filterMap fun x => if attrNamed x b!"name" = b!"e" ∨ attrNamed x b!"name" = b!"a" then
      some (x.attrs.map fun a => (a.name.loc, a.value)) else none) =
    some [[(b!"name", b!"e"), (b!"type", b!"xs:int")], [(b!"name", b!"a"), (b!"default", b!"x"), (b!"type", b!"xs:anySimpleType")],
      [(b!"name", b!"e"), (b!"type", b!"xs:anyType"), (b!"maxOccurs", b!"2"), (b!"minOccurs", b!"0")],
      [(b!"name", b!"a"), (b!"default", b!"x"), (b!"type", b!"xs:token")]] := by decide +kernel

/-- The types that it declares afterwards. -/
example : (normalize doubling 30 [neatDoc]).map (·.flatMap fun t => t.children.map (attrNamed · b!"name")) =
    some [b!"order", b!"o", b!"item", b!"b", b!"id", b!"_anon1"] := by decide +kernel

/-- C149 as stated: the schemas that `Normalize` returns are in canonical form. -/
def C149_canonical_full : Prop := ∀ (grow : Nat → Nat → Nat) (n : Nat) (docs out : List Element),
  (∀ t ∈ docs, IsXs b!"schema" t) → normalize grow n docs = some out → ∀ t ∈ out, Canonical t

/-- The target namespace has no prefix. -/
def mute (loc : Str) (attrs : List (Str × Str)) (kids : List Element) : Element :=
  .mk ⟨schemaNS, loc⟩ (attrs.map fun (k, v) => ⟨⟨[], k⟩, v⟩) [⟨schemaNS, b!"xs"⟩] [] kids

def muteDoc : Element := mute b!"schema" [(b!"targetNamespace", b!"urn:t")] [mute b!"complexType" [(b!"name", b!"a")] [mute b!"sequence" [] [
  mute b!"element" [(b!"name", b!"b")] [mute b!"simpleType" [] [mute b!"restriction" [(b!"base", b!"xs:string")] []]]]]]

/-- C149 is false if the target namespace has no prefix: the type gets a name, to which its element refers by an empty
string. -/
theorem C149_prefix_refuted : ∃ out, normalize doubling 20 [muteDoc] = some [out] ∧
    (below out).filterMap (fun x => if IsXs b!"element" x then some (attrNamed x b!"name", attrNamed x b!"type") else none) = [(b!"b", [])] ∧
    attrNamed <$> out.children.getLast? <*> some b!"name" = some b!"b" ∧ ¬ C149_canonical_full := by
  have h : (normalize doubling 20 [muteDoc]).map (fun out => decide (out.length = 1 ∧ ∃ o ∈ out,
      (below o).filterMap (fun x => if IsXs b!"element" x then some (attrNamed x b!"name", attrNamed x b!"type") else none) = [(b!"b", [])] ∧
      attrNamed <$> o.children.getLast? <*> some b!"name" = some b!"b" ∧ ∃ x ∈ below o, IsXs b!"element" x ∧ attrNamed x b!"type" = [])) = some true := by
    decide +kernel
  cases hn : normalize doubling 20 [muteDoc] with
  | none => rw [hn] at h; cases h
  | some out =>
    rw [hn] at h
    obtain ⟨hl, o, ho, h1, h2, x, h3, h4, h5⟩ := of_decide_eq_true (Option.some.inj h)
    obtain ⟨o', rfl⟩ := List.length_eq_one_iff.mp hl
    cases List.mem_singleton.mp ho
    refine ⟨o, rfl, h1, h2, fun hf => ?_⟩
    exact (hf doubling 20 [muteDoc] [o] (by decide) hn o (by simp)).typed x h3 (Or.inr h4) h5

/-- It is false for global elements with anonymous types too: of four of them, two keep their types. -/
theorem C149_global_refuted : ∃ out, normalize doubling 20 [manyDoc] = some [out] ∧
    (below out).filterMap (fun x => if IsXs b!"element" x ∧ HasAnon x then some (attrNamed x b!"name", attrNamed x b!"type") else none) =
      [(b!"c", b!"xs:anyType"), (b!"d", b!"xs:anyType")] ∧ ¬ C149_canonical_full := by
  have h : (normalize doubling 20 [manyDoc]).map (fun out => decide (out.length = 1 ∧ ∃ o ∈ out,
      (below o).filterMap (fun x => if IsXs b!"element" x ∧ HasAnon x then some (attrNamed x b!"name", attrNamed x b!"type") else none) =
        [(b!"c", b!"xs:anyType"), (b!"d", b!"xs:anyType")] ∧
      ∃ x ∈ below o, ∃ k ∈ x.children, IsXs b!"complexType" k ∧ attrNamed k b!"name" = [])) = some true := by
    decide +kernel
  cases hn : normalize doubling 20 [manyDoc] with
  | none => rw [hn] at h; cases h
  | some out =>
    rw [hn] at h
    obtain ⟨hl, o, ho, h1, x, h3, k, h4, h5, h6⟩ := of_decide_eq_true (Option.some.inj h)
    obtain ⟨o', rfl⟩ := List.length_eq_one_iff.mp hl
    cases List.mem_singleton.mp ho
    refine ⟨o, rfl, h1, fun hf => ?_⟩
    exact (hf doubling 20 [manyDoc] [o] (by decide) hn o (by simp)).named x h3 k h4 (Or.inl h5) h6

/-! ### C29 and C30 in memory -/

/-- A pass without a state, for documents in memory. -/
theorem pass_documents {f : EHeap → Ptr → Option EHeap} {g : Element → Element} {n : Nat}
    (L : Lifts (σ := Unit) (plain f) (fun t st t' st' => t' = g t ∧ st' = st) fun t => depth t ≤ n)
    (grow : Nat → Nat → Nat) (docs : List Element) (hn : ∀ t ∈ docs, depth t ≤ n) :
    ∃ h', eachRoot f (loadDocs grow docs []).2 (loadDocs grow docs []).1 = some h' ∧ List.Forall₂ (Holds h') (loadDocs grow docs []).2 (docs.map g) := by
  obtain ⟨l1, l2, l3, l4⟩ := loadDocs_docs grow docs
  have hmem : ∀ d ∈ (loadDocs grow docs []).2.zip docs, d.2 ∈ docs := fun d hm => by rw [← l4]; exact List.mem_map.mpr ⟨d, hm, rfl⟩
  obtain ⟨h', st', docs', a1, a2, _, a4⟩ := lifts_docs L (st := ()) l2 l1 fun d hm => hn d.2 (hmem d hm)
  rw [eachRoot_plain, l3] at a1
  cases hr : eachRoot f (loadDocs grow docs []).2 (loadDocs grow docs []).1 with
  | none => rw [hr] at a1; cases a1
  | some h1 =>
    rw [hr] at a1
    cases a1
    refine ⟨_, rfl, ?_⟩
    have hh := holds_docs a4
    have e1 := a2.roots
    rw [l3] at e1
    have e2 : docs'.map (·.2) = docs.map g := by
      rw [← l4]
      have : ∀ {D D' : List (Ptr × Element)} {s s' : Unit}, Threaded (fun t (st : Unit) t' st' => t' = g t ∧ st' = st) D s D' s' →
          D'.map (·.2) = (D.map (·.2)).map g := fun h => by
        induction h with
        | nil => rfl
        | cons h1 _ ih => simp only [List.map_cons, h1.1, ih]
      exact this a2
    rw [← e1, ← e2, List.forall₂_map_left_iff, List.forall₂_map_right_iff, List.forall₂_same]
    exact hh

/-- C29: in memory, with slices that share arrays, the default types are set as on trees, in all documents. -/
theorem C29_documents (grow : Nat → Nat → Nat) (n : Nat) (docs : List Element) (hn : ∀ t ∈ docs, depth t ≤ n) :
    (∃ h', eachRoot (defaultTypeH b!"attribute" b!"anySimpleType" n) (loadDocs grow docs []).2 (loadDocs grow docs []).1 = some h' ∧
      List.Forall₂ (Holds h') (loadDocs grow docs []).2 (docs.map attributeDefaultType)) ∧
    ∃ h', eachRoot (defaultTypeH b!"element" b!"anyType" n) (loadDocs grow docs []).2 (loadDocs grow docs []).1 = some h' ∧
      List.Forall₂ (Holds h') (loadDocs grow docs []).2 (docs.map elementDefaultType) :=
  ⟨pass_documents (defaultTypeH_lifts _ _ n) grow docs hn, pass_documents (defaultTypeH_lifts _ _ n) grow docs hn⟩

/-- C30: likewise for the alternatives of choices. -/
theorem C30_documents (grow : Nat → Nat → Nat) (n : Nat) (docs : List Element) (hn : ∀ t ∈ docs, depth t ≤ n) :
    ∃ h', eachRoot (setChoicesOptionalH n) (loadDocs grow docs []).2 (loadDocs grow docs []).1 = some h' ∧
      List.Forall₂ (Holds h') (loadDocs grow docs []).2 (docs.map setChoicesOptional) :=
  pass_documents (setChoicesOptionalH_lifts n) grow docs hn

example : (∀ t ∈ [neatDoc, manyDoc], depth t ≤ 20) ∧ ((below (setChoicesOptional neatDoc)).filter fun x => decide (Lackable x)).length = 2 ∧
    ((below (attributeDefaultType neatDoc)).filter fun x => attrNamed x b!"type" = b!"xs:anySimpleType").length = 1 := by decide +kernel

end GoXml.Xsd
