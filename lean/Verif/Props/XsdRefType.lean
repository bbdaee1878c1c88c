import Verif.Props.XsdDeref
import Verif.Props.XsdNormalize
import Verif.Props.XsdHeapRef
import Verif.Props.XsdSchema
import Verif.Props.XmlSource
import Verif.Model.XsdPipeline
set_option autoImplicit false

/-! Property C138: a reference to an element or attribute has the type of its declaration. `Normalize` gives
default types to everything that has none (C29), references included, before it resolves references (C33, C34), and attributes of the
reference overwrite those of the declaration. -/

namespace GoXml.Xsd

/-! ### C138 -/

/-- The type of the result of `deref` if the reference has its `type` as last attribute of this name, written with a favoured prefix. -/
theorem deref_own_type (ref real : Element) (before : List Attr) (n : XName) (pre : Str)
    (ha : ref.attrs = before ++ [⟨⟨[], b!"type"⟩, prefixOf ref.scope n⟩])
    (hns : n.space ≠ [] ∧ n.space ≠ xmlLangURI ∧ n.space ≠ xmlNamespaceURI) (hloc : n.loc ≠ [] ∧ (58 : UInt8) ∉ n.loc)
    (hsc : ∀ d ∈ ref.scope, (58 : UInt8) ∉ d.loc ∧ d.loc ≠ b!"xml" ∧ d.loc ≠ b!"xmlns")
    (hf : Favoured ref.scope n.space pre) (hi : Innermost ref.scope pre n.space) :
    resolve (deref ref real).scope ((deref ref real).attr [] b!"type") = n := by
  have hattr : (deref ref real).attr [] b!"type" = prefixOf ref.scope n :=
    (C33_deref ref real).2.2.2.2.1 before ⟨⟨[], b!"type"⟩, prefixOf ref.scope n⟩ [] ha (show (⟨[], b!"type"⟩ : XName) ≠ ⟨[], b!"ref"⟩ by decide) (by simp)
  rw [hattr]
  have hpre := C06_prefix_favoured ref.scope n.space n.loc pre hns hloc.1 hf
  have hmem : (⟨n.space, pre⟩ : XName) ∈ ref.scope := by
    obtain ⟨o, i, e, _⟩ := hi
    rw [e]; simp
  obtain ⟨hc, hx, hxn⟩ := hsc _ hmem
  have hqn : QNameParts (prefixOf ref.scope n) pre n.loc := by
    rw [show n = ⟨n.space, n.loc⟩ from rfl, hpre]
    split
    · rename_i h; right; exact ⟨hloc.2, h, rfl⟩
    · left; exact ⟨rfl, hc⟩
  have hsco : Innermost (deref ref real).scope pre n.space := by
    show Innermost (if _ then _ else _) _ _
    split
    · exact innermost_joinScope hi
    · exact hi
  obtain ⟨_, _, h3, _, h5⟩ := C03_resolveNS (deref ref real).scope _ _ _ hqn
  rw [h5, h3 hx hxn _ hsco]

/-- What `Normalize` does with the default types of one document (xsd/parse.go:107-109). -/
theorem defaults_at (root ref : Element) (p : List Nat) (hp : p ≠ []) (h : root.at? p = some ref) (ht : ∀ a ∈ ref.attrs, a.name.loc ≠ b!"type") :
    (IsXs b!"element" ref → ∃ ref', (elementDefaultType (attributeDefaultType root)).at? p = some ref' ∧ ref'.scope = ref.scope ∧
      ref'.attrs = ref.attrs ++ [⟨⟨[], b!"type"⟩, prefixOf ref.scope ⟨w3cSchemaNS, b!"anyType"⟩⟩]) ∧
    (IsXs b!"attribute" ref → ∃ ref', (elementDefaultType (attributeDefaultType root)).at? p = some ref' ∧ ref'.scope = ref.scope ∧
      ref'.attrs = ref.attrs ++ [⟨⟨[], b!"type"⟩, prefixOf ref.scope ⟨w3cSchemaNS, b!"anySimpleType"⟩⟩]) := by
  have hnone : ref.attr [] b!"type" = [] := by
    rcases C01_attr_first_match ref [] b!"type" with ⟨bf, t, af, e, ⟨h1, _⟩, _⟩ | ⟨_, h2⟩
    · exact absurd h1 (ht t (by rw [e]; simp))
    · exact h2
  have same : ∀ {a b : Element} {x : Element}, SameShape a b → a.at? p = some x → SameAttrsAt a b p →
      ∃ y, b.at? p = some y ∧ y.name = x.name ∧ y.scope = x.scope ∧ y.attrs = x.attrs := by
    intro a b x hs hx ha
    rcases hs p with h | ⟨x', y, h1, h2, h3, h4, _⟩
    · rw [hx] at h; cases h.1
    · rw [hx] at h1; cases h1
      unfold SameAttrsAt at ha
      rw [hx, h2] at ha
      exact ⟨y, h2, h3.symm, h4.symm, by simpa using ha.symm⟩
  have one : ∀ {a b : Element} {x : Element} {v : Str}, SameShape a b → a.at? p = some x → (∀ z ∈ x.attrs, z.name.loc ≠ b!"type") →
      OneAttrSetAt b!"type" v a b p → ∃ y, b.at? p = some y ∧ y.name = x.name ∧ y.scope = x.scope ∧ y.attrs = x.attrs ++ [⟨⟨[], b!"type"⟩, v⟩] := by
    intro a b x v hs hx hz ho
    obtain ⟨x', y, h1, h2, h3⟩ := ho
    rw [hx] at h1; cases h1
    rcases hs p with h | ⟨x', y', k1, k2, k3, k4, _⟩
    · rw [hx] at h; cases h.1
    · rw [hx] at k1; cases k1
      rw [h2] at k2; cases k2
      rcases h3 with ⟨bf, t, af, e, hl, _⟩ | ⟨_, e⟩
      · exact absurd hl (hz t (by rw [e]; simp))
      · exact ⟨y, h2, k3.symm, k4.symm, e⟩
  constructor
  · intro hx
    obtain ⟨y, h1, h2, h3, h4⟩ := same (C29_attribute_default root).1 h (((C29_attribute_default root).2 p).2 (Or.inr (by
      intro e he hk
      rw [h] at he; cases he
      have := hk.1; unfold IsXs at hx this; rw [hx] at this; exact absurd this (by decide))))
    have hy : y.attr [] b!"type" = [] := by
      show attrGet _ _ y.attrs = _
      rw [h4]; exact hnone
    obtain ⟨z, k1, _, k3, k4⟩ := one (C29_element_default (attributeDefaultType root)).1 h1 (by rw [h4]; exact ht)
      (((C29_element_default (attributeDefaultType root)).2 p).1 y hp h1 (by unfold IsXs; rw [h2]; exact hx) hy)
    exact ⟨z, k1, by rw [k3, h3], by rw [k4, h4, h3]⟩
  · intro hx
    obtain ⟨y, h1, h2, h3, h4⟩ := one (C29_attribute_default root).1 h ht (((C29_attribute_default root).2 p).1 ref hp h hx hnone)
    obtain ⟨z, k1, _, k3, k4⟩ := same (C29_element_default (attributeDefaultType root)).1 h1
      (((C29_element_default (attributeDefaultType root)).2 p).2 (Or.inr (by
        intro e he hk
        rw [h1] at he; cases he
        have := hk.1; unfold IsXs at hx this; rw [h2, hx] at this; exact absurd this (by decide))))
    exact ⟨z, k1, by rw [k3, h3], by rw [k4, h4]⟩

/-- C138, partial: a reference without a type gets the default type `xs:anyType` or `xs:anySimpleType`, whatever it refers
to. So it has the type of the declaration exactly if the declaration has this one. The schema namespace must be
declared under a prefix that has not been redeclared further in. Missing for C138: declarations with any other type, for which it is
false. -/
theorem C138_default_partial (root ref : Element) (p : List Nat) (pre : Str) (hp : p ≠ []) (h : root.at? p = some ref)
    (ht : ∀ a ∈ ref.attrs, a.name.loc ≠ b!"type")
    (hsc : ∀ d ∈ ref.scope, (58 : UInt8) ∉ d.loc ∧ d.loc ≠ b!"xml" ∧ d.loc ≠ b!"xmlns")
    (hf : Favoured ref.scope w3cSchemaNS pre) (hi : Innermost ref.scope pre w3cSchemaNS) :
    (IsXs b!"element" ref → ∃ ref', (elementDefaultType (attributeDefaultType root)).at? p = some ref' ∧ ∀ real,
      (resolve (deref ref' real).scope ((deref ref' real).attr [] b!"type") = resolve real.scope (real.attr [] b!"type") ↔
        resolve real.scope (real.attr [] b!"type") = ⟨w3cSchemaNS, b!"anyType"⟩) ∧
      resolve (deref ref' real).scope ((deref ref' real).attr [] b!"type") = ⟨w3cSchemaNS, b!"anyType"⟩) ∧
    (IsXs b!"attribute" ref → ∃ ref', (elementDefaultType (attributeDefaultType root)).at? p = some ref' ∧ ∀ real,
      (resolve (deref ref' real).scope ((deref ref' real).attr [] b!"type") = resolve real.scope (real.attr [] b!"type") ↔
        resolve real.scope (real.attr [] b!"type") = ⟨w3cSchemaNS, b!"anySimpleType"⟩) ∧
      resolve (deref ref' real).scope ((deref ref' real).attr [] b!"type") = ⟨w3cSchemaNS, b!"anySimpleType"⟩) := by
  constructor
  · intro hx
    obtain ⟨ref', h1, h2, h3⟩ := (defaults_at root ref p hp h ht).1 hx
    refine ⟨ref', h1, fun real => ?_⟩
    have := deref_own_type ref' real ref.attrs ⟨w3cSchemaNS, b!"anyType"⟩ pre (by rw [h3, h2]) (by decide) (by decide)
      (by rw [h2]; exact hsc) (by rw [h2]; exact hf) (by rw [h2]; exact hi)
    rw [this]
    exact ⟨eq_comm, rfl⟩
  · intro hx
    obtain ⟨ref', h1, h2, h3⟩ := (defaults_at root ref p hp h ht).2 hx
    refine ⟨ref', h1, fun real => ?_⟩
    have := deref_own_type ref' real ref.attrs ⟨w3cSchemaNS, b!"anySimpleType"⟩ pre (by rw [h3, h2]) (by decide) (by decide)
      (by rw [h2]; exact hsc) (by rw [h2]; exact hf) (by rw [h2]; exact hi)
    rw [this]
    exact ⟨eq_comm, rfl⟩

/-- A reference to an element and one to an attribute. -/
example (at' el root : Element) (h1 : at' = xs b!"attribute" [(b!"ref", b!"t:a")] []) (h2 : el = xs b!"element" [(b!"ref", b!"t:e"), (b!"minOccurs", b!"0")] [])
    (h3 : root = xs b!"schema" [] [xs b!"complexType" [] [el, at']]) :
    root.at? [0, 0] = some el ∧ root.at? [0, 1] = some at' ∧ IsXs b!"element" el ∧ IsXs b!"attribute" at' ∧
    (∀ a ∈ el.attrs ++ at'.attrs, a.name.loc ≠ b!"type") ∧ el.scope = at'.scope ∧
    (∀ d ∈ el.scope, (58 : UInt8) ∉ d.loc ∧ d.loc ≠ b!"xml" ∧ d.loc ≠ b!"xmlns") ∧
    Favoured el.scope w3cSchemaNS b!"xs" ∧ Innermost el.scope b!"xs" w3cSchemaNS := by
  subst h1 h2 h3
  exact ⟨rfl, rfl, by unfold IsXs; decide, by unfold IsXs; decide, by decide, rfl, by decide,
    Or.inr ⟨by decide, [], [⟨b!"urn:t", b!"t"⟩], by decide, by decide⟩, [], [⟨b!"urn:t", b!"t"⟩], by decide, by decide⟩

/-- C138, partial, for whole documents in memory whose references can be resolved: an attribute that a reference has keeps its value, so a
reference with a type of its own has this type. -/
theorem C138_own_partial (h : EHeap) (n : Nat) (roots : List Ptr) (hs : SlicesOk h) (hf : Finite h n roots)
    (hd : AllDeclared h roots) (hac : AcyclicRefs h roots) (hpr : PlainRefs h roots) (hpt : PlainTargets h roots) :
    ∃ h1, dereference n h roots = .ok h1 ∧ ∀ p e0 name before type after, RefAt h roots p e0 name →
      e0.attrs = before ++ ⟨⟨[], b!"type"⟩, type⟩ :: after → (∀ a ∈ after, a.name.loc ≠ b!"type") →
      ∃ e, h1.get p = some e ∧ e.attr [] b!"type" = type := by
  obtain ⟨h1, k1, _, k2, _⟩ := C34_resolved_partial h n roots hs hf hd hac hpr hpt
  refine ⟨h1, k1, fun p e0 name before type after hr ha hl => ?_⟩
  obtain ⟨q, e, real, _, h3, _, _, h4⟩ := k2 p e0 name hr
  refine ⟨e, h3, ?_⟩
  have := congrArg (fun t => Element.attr t [] b!"type") (h4 0)
  have e1 : e.attr [] b!"type" = Element.attr (deref e0.tag (readElem h1 1 real)) [] b!"type" := this
  rw [e1]
  exact (C33_deref e0.tag (readElem h1 1 real)).2.2.2.2.1 before ⟨⟨[], b!"type"⟩, type⟩ after ha (show (⟨[], b!"type"⟩ : XName) ≠ ⟨[], b!"ref"⟩ by decide) hl

/-- A document with a reference that has a type, to which this applies. -/
example :
    let doc := xs b!"schema" [(b!"targetNamespace", b!"urn:t")]
      [xs b!"complexType" [(b!"name", b!"T")] [xs b!"sequence" [] [xs b!"element" [(b!"ref", b!"t:e"), (b!"type", b!"xs:string")] []]],
       xs b!"element" [(b!"name", b!"e"), (b!"type", b!"xs:token")] []]
    let m := loadDoc doubling doc []
    SlicesOk m.1 ∧ Finite m.1 9 [m.2] ∧ AllDeclared m.1 [m.2] ∧ AcyclicRefs m.1 [m.2] ∧ PlainRefs m.1 [m.2] ∧ PlainTargets m.1 [m.2] ∧
    ∃ p e0 name, RefAt m.1 [m.2] p e0 name ∧
      e0.attrs = [⟨⟨[], b!"ref"⟩, b!"t:e"⟩] ++ ⟨⟨[], b!"type"⟩, b!"xs:string"⟩ :: [] := by
  intro doc m
  have hf : Finite m.1 9 [m.2] := by decide +kernel
  refine ⟨slicesOk_of (by decide +kernel), hf, allDeclared_of hf (by decide +kernel), acyclic_of hf (by decide +kernel),
    plainRefs_of hf (by decide +kernel), plainTargets_of hf (by decide +kernel), ?_⟩
  obtain ⟨p, hp⟩ : ∃ p, ptrAt m.1 m.2 [0, 0, 0] = some p := ⟨_, rfl⟩
  have hg : ∃ e0, m.1.get p = some e0 ∧ HasRef e0 ∧ e0.attrs = [⟨⟨[], b!"ref"⟩, b!"t:e"⟩] ++ ⟨⟨[], b!"type"⟩, b!"xs:string"⟩ :: [] := by
    cases hp
    exact ⟨_, rfl, by decide +kernel, rfl⟩
  obtain ⟨e0, h1, h2, h3⟩ := hg
  exact ⟨p, e0, _, ⟨⟨m.2, by simp, ptrAt_below _ hp (Or.inl rfl)⟩, h1, h2, rfl⟩, h3⟩

/-- What a document declares, from its bytes: the names of the elements and then of the attributes of the complex type `T`, and
their types, as far as they are built-in. Simplification: without the bundled schemas. -/
def builtinFields (src : Str) : Option (List (Str × Option Int)) :=
  let builtin : Ty → Option Int := fun t => match t with
    | .builtin b => some b
    | _ => none
  match GoXml.parse asciiTables nsSorter src with
  | .error _ => none
  | .ok doc => match Xsd.parse doubling 20 plainEnv inOrder [doc] with
    | .ok (schemas, H) => some (schemas.flatMap fun s => s.types.flatMap fun e => match e.2 with
      | .obj id => match H[id]? with
        | some (.complex c) =>
          if e.1.loc = b!"T" then
            c.elements.map (fun x => (x.name.loc, builtin x.type)) ++ c.attributes.map fun x => (x.name.loc, builtin x.type)
          else []
        | _ => []
      | _ => [])
    | _ => none

/-- A declaration of an element and one of an attribute, both strings, and references to them. -/
def refDoc (elementRef attributeRef : Str) : Str :=
  b!"<schema targetNamespace=\"tns\" xmlns=\"http://www.w3.org/2001/XMLSchema\" xmlns:tns=\"tns\"><complexType name=\"T\"><sequence><element " ++
  elementRef ++ b!"/></sequence><attribute " ++ attributeRef ++ b!"/></complexType><element name=\"e\" type=\"string\"/><attribute name=\"a\" type=\"string\"/></schema>"

/-- C138 is false, from the bytes of a document to its types: a type with references to an element and an
attribute that are strings has fields of types `anyType` (0) and `anySimpleType` (49). If the references are replaced by declarations,
or the type is written again, they are strings (38). -/
theorem C138_refuted :
    builtinFields (refDoc b!"ref=\"tns:e\"" b!"ref=\"tns:a\"") = some [(b!"e", some 0), (b!"a", some 49)] ∧
    builtinFields (refDoc b!"name=\"e\" type=\"string\"" b!"name=\"a\" type=\"string\"") =
      some [(b!"e", some 38), (b!"a", some 38)] ∧
    builtinFields (refDoc b!"ref=\"tns:e\" type=\"string\"" b!"ref=\"tns:a\" type=\"string\"") =
      some [(b!"e", some 38), (b!"a", some 38)] := by
  decide +kernel

end GoXml.Xsd
