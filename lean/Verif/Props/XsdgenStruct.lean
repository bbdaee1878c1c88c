import Verif.Proofs.XsdgenStruct
import Verif.Props.XsdgenDerivable
import Verif.Props.XsdgenMeaning
import Verif.Props.XsdgenClosed
import Verif.Props.XsdgenDocuments
import Verif.Props.XsdLinked
set_option autoImplicit false

/-! C156: the struct that is generated for a complex type has the fields that the schema documents say. -/

namespace GoXml.Xsdgen
open Xsd GoMap
open Wsdl (attrNamed allNamed below defines refersTo)

/-- A definition that a struct is generated for: one of content built on any content, or an extension of simple content by attributes that are not left out. -/
def GivesStruct (roots : List Element) (om : Omitted) (name : XName) (e el : Element) : Prop :=
  (ContentModel e el ∧ (Composed roots name ∨ ∃ v ∈ allNamed el w3cSchemaNS b!"attribute", Stated om v)) ∨
  (SimpleModel e el ∧ el.name.loc = b!"extension" ∧ (∃ v ∈ allNamed el w3cSchemaNS b!"attribute", Stated om v) ∧ allNamed el w3cSchemaNS b!"element" = [])

theorem allNamed_below {r e el v : Element} {loc : Str} (he : e ∈ below r) (hm : ContentModel e el ∨ SimpleModel e el)
    (hv : v ∈ allNamed el w3cSchemaNS loc) : v ∈ below r := by
  have hv := (List.mem_filter.mp hv).1
  have kid : ∀ {x y : Element}, schemaKids x = [y] → y ∈ x.children := by
    intro x y h
    have : y ∈ schemaKids x := by rw [h]; exact List.mem_singleton_self _
    exact (List.mem_filter.mp this).1
  obtain ⟨c, h1, h2⟩ : ∃ c, schemaKids e = [c] ∧ schemaKids c = [el] := by
    rcases hm with ⟨c, h1, -, h2, -⟩ | ⟨c, h1, -, h2, -⟩ <;> exact ⟨c, h1, h2⟩
  exact below_below _ _ _ he (mem_below_trans (kid h1) (below_below _ _ _ (mem_below_child (kid h2)) hv))

theorem likeElem_name {W : Nat → Prop} {H : THeap} {x x' : XElem} (h : LikeElem W H x x') : x'.name = x.name := by
  have := congrArg XElem.name h.1
  exact this

theorem likeAttr_name {W : Nat → Prop} {H : THeap} {x x' : XAttr} (h : LikeAttr W H x x') : x'.name = x.name := by
  have := congrArg XAttr.name h.1
  exact this

theorem ignored_elem {cfg : Config} {om : Omitted} (hom : Omits cfg om) {x : XElem} (h : x.name.loc ∈ om.elements) : ElemIgnored cfg x := by
  rcases hom.1 with ⟨-, h0⟩ | h0
  · rw [h0] at h; cases h
  · exact ⟨_, h0, decide_eq_true h⟩

theorem ignored_attr {cfg : Config} {om : Omitted} (hom : Omits cfg om) {x : XAttr} (h : x.name.loc ∈ om.attributes) : AttrIgnored cfg x := by
  rcases hom.2 with ⟨-, h0⟩ | h0
  · rw [h0] at h; cases h
  · exact ⟨_, h0, decide_eq_true h⟩

section
variable {penv : ParseEnv} {ord : MapOrder} {roots : List Element} {schemas : List Schema} {H : THeap} {env : Env} {cfg : Config}

/-- The struct of a type has the fields that the documents say. -/
theorem means_fields (ho : Orderly roots) (hr : Regular roots) (hd : Derivable roots) (hp : parseSchemas penv ord roots = .ok (schemas, H)) (hc : Coherent H)
    {om : Omitted} (hom : Omits cfg om) {r e el : Element} (hrr : r ∈ roots)
    (he : e ∈ allNamed r w3cSchemaNS b!"complexType") (hg : GivesStruct roots om (defines (target r) e) e el) {id : Nat} {o : TObj} {d : DeclExpr}
    (hid : H[id]? = some o) (hn : o.name = defines (target r) e) (hm : Means env cfg H id d) :
    ∃ fields, d = .struct fields ∧ FieldsOf env cfg roots om (target r) (defines (target r) e) el fields := by
  obtain ⟨s, -, -, j, t, f, m, -, hj, htn, hpt, hfb, hf⟩ := declared_object ho hd hp hrr he
  obtain rfl := hc.named id j _ _ hid hj (by rw [hn, ← htn]; rfl)
  rw [hj] at hid
  cases hid
  obtain ⟨fields, rfl, h1, h2, h3⟩ := hm.2 _ hj
  have hbel : ∀ {r e : Element}, e ∈ allNamed r w3cSchemaNS b!"complexType" → e ∈ below r := fun h => (List.mem_filter.mp h).1
  have hpres := hc.fields id _ hj
  have attrTy : ∀ {t : ComplexT}, ∀ a ∈ t.attributes, a.type ∈ (TObj.complex t).tys := by
    intro t a ha
    simp only [TObj.tys, List.mem_append, List.mem_map]
    exact Or.inr ⟨a, ha, rfl⟩
  have noE : ∀ x, x.name.loc ∉ om.elements → ¬ ElemIgnored cfg x := by
    rintro x hx ⟨p, hp', hb⟩
    rcases hom.1 with ⟨h, -⟩ | h
    · rw [h] at hp'; cases hp'
    · rw [h] at hp'
      cases hp'
      exact hx (of_decide_eq_true hb)
  refine ⟨fields, rfl, ?_, ?_, ?_⟩
  · intro v hv hne
    rcases hg with ⟨hcm, -⟩ | ⟨-, -, -, hno⟩
    · obtain ⟨x, hx, hw, has⟩ := (elements_as hcm hpt hfb hf).1 v hv
      have hx' : { x with type := f x.type } ∈ t.elements.map fun x => { x with type := f x.type } := List.mem_map_of_mem hx
      obtain ⟨m', hl, hor⟩ := h1 _ hx'
      obtain ⟨fl, hfl, hef⟩ := hor.resolve_left (noE _ (by
        rw [likeElem_name hl, has.loc]
        exact hne))
      exact ⟨fl, hfl, fieldOf_element ho hr hd hp hc hom hrr (fun v hv => allNamed_below (hbel he) (Or.inl hcm) hv) has hw (hpres.1 _ hx') hl hef⟩
    · rw [hno] at hv
      cases hv
  · intro v hv hst
    have hattr : List.Forall₂ (fun v a => parseAttribute penv (target r) v = some a) (allNamed el w3cSchemaNS b!"attribute") t.attributes := by
      rcases hg with ⟨⟨cc, k1, k2, k3, k4⟩, -⟩ | ⟨hsm, hx, -, -⟩
      · exact (C83_complex penv _ e cc el t k1 k2 k3 k4 hpt).2.2.2.2.2.2
      · obtain ⟨-, -, -, -, -, -, -, h⟩ := C83_simple_partial penv _ e el t hsm hpt
        exact h hx
    obtain ⟨a, ha, hpa⟩ := forall₂_mem_left hattr v hv
    have ha' : { a with type := f a.type } ∈ t.attributes.map fun a => { a with type := f a.type } := List.mem_map_of_mem ha
    obtain ⟨a', hl, hor⟩ := h2 _ ha'
    obtain ⟨fl, hfl, hef⟩ := hor.resolve_left (stated_kept hom hst hpa (by rw [likeAttr_name hl]))
    refine ⟨fl, hfl, fieldOf_attribute ho hr hd hp hc hom hrr ?_ hpa (hf _ (attrTy a ha)) (hpres.2 _ ha') hl hef⟩
    exact allNamed_below (hbel he) (hg.elim (fun h => Or.inl h.1) fun h => Or.inr h.1) hv
  · intro fl hfl
    rcases h3 fl hfl with h | ⟨k, c', hanc, hk, hfield⟩
    · exact Or.inl h
    · right
      have hself : (xmlName H (.obj id)).loc ≠ b!"_self" := by
        have : xmlName H (.obj id) = defines (target r) e := by simp only [xmlName, hj]; exact htn
        rw [this]
        intro hl
        have hty := ho.types r hrr
        unfold typeNames at hty
        have hsp := ho.spaces r hrr _ (Or.inl (List.mem_append_left _ (List.mem_map_of_mem (List.mem_append_left _ he))))
        have hmem : defines (target r) e ∈ (typeDecls r).map (defines (target r)) := List.mem_map_of_mem (List.mem_append_left _ he)
        refine (List.nodup_append.mp hty).2.2 _ hmem _ (List.mem_singleton_self _) ?_
        exact xname_of hsp hl
      obtain ⟨hq, hcomes⟩ := ancestor_comes ho hr hd hp hanc hself
      have hxk : xmlName H (.obj k) = c'.name := by simp only [xmlName, hk]; rfl
      have hxi : xmlName H (.obj id) = defines (target r) e := by simp only [xmlName, hj]; exact htn
      rw [hxk] at hq
      rw [hxk, hxi] at hcomes
      obtain ⟨r', hr', o0, -, hsrc⟩ := parse_objects ho hp k _ hk
      rcases hsrc with ⟨e', he', hn', hpd⟩ | ⟨hn', -⟩
      · have hpresk := hc.fields k _ hk
        have hcx : e' ∈ allNamed r' w3cSchemaNS b!"complexType" := by
          rcases List.mem_append.mp he' with h | h
          · exact h
          · exfalso
            have hloc : e'.name.loc = b!"simpleType" := by rw [of_decide_eq_true (List.mem_filter.mp h).2]
            unfold parseDecl at hpd
            rw [if_neg (by rw [hloc]; decide), Option.map_eq_some_iff] at hpd
            obtain ⟨t', ht', rfl⟩ := hpd
            obtain ⟨s', -, h1', h2', -⟩ := parse_linked ho.targets ho.types ho.unnamed hp r' hr'
            obtain ⟨id1, o01, o1, g1, g2, g3, f1, m1, g4, -⟩ := h2' e' he'
            unfold parseDecl at g3
            rw [if_neg (by rw [hloc]; decide), ht'] at g3
            cases g3
            subst g4
            have hnm : t'.name = defines (target r') e' := (C82_simple penv _ e' t' ht').1
            obtain rfl := hc.named k id1 _ _ hk g2 (by rw [hn', ← hnm]; rfl)
            rw [hk] at g2
            cases g2
        obtain ⟨s', -, -, j', t', f', m', -, hj', htn', hpt', hfb', hf'⟩ := declared_object ho hd hp hr' hcx
        obtain rfl := hc.named k j' _ _ hk hj' (by rw [hn', ← htn']; rfl)
        rw [hk] at hj'
        cases hj'
        obtain ⟨el', hmod⟩ := hd.shaped r' hr' e' hcx
        have hcomes' : ComesFrom roots (defines (target r) e) (defines (target r') e') := by rw [← hn']; exact hcomes
        refine ⟨r', hr', e', hcx, el', hmod, hcomes', ?_⟩
        rcases hfield with ⟨x, hx, x', hl, hig, hef⟩ | ⟨a, ha, a', hl, hig, hef⟩
        · obtain ⟨x0, hx0, rfl⟩ := List.mem_map.mp hx
          rcases hmod with hcm | hsm
          · rcases (elements_as hcm hpt' hfb' hf').2 x0 hx0 with ⟨hw, hany⟩ | ⟨hw, v, hv, has⟩
            · left
              obtain ⟨_, -, -, h5, -⟩ := hef
              have hw' : x'.wildcard = true := by
                have := congrArg XElem.wildcard hl.1
                exact this.trans hw
              exact ⟨(h5 hw').1, hany⟩
            · refine Or.inr (Or.inl ⟨v, hv, fun hin => hig (ignored_elem hom (by
                rw [likeElem_name hl, has.loc]
                exact hin)), fieldOf_element ho hr hd hp hc hom hr' (fun v hv => allNamed_below (hbel hcx) (Or.inl hcm) hv) has hw (hpresk.1 _ hx) hl hef⟩)
          · obtain ⟨-, -, -, -, hnil, -⟩ := C83_simple_partial penv _ e' el' t' hsm hpt'
            rw [hnil] at hx0
            cases hx0
        · obtain ⟨a0, ha0, rfl⟩ := List.mem_map.mp ha
          obtain ⟨v, hv, hpa⟩ : ∃ v ∈ allNamed el' w3cSchemaNS b!"attribute", parseAttribute penv (target r') v = some a0 := by
            rcases hmod with ⟨cc, k1, k2, k3, k4⟩ | hsm
            · exact forall₂_mem_right (C83_complex penv _ e' cc el' t' k1 k2 k3 k4 hpt').2.2.2.2.2.2 a0 ha0
            · exact simple_attributes hsm hpt' a0 ha0
          refine Or.inr (Or.inr ⟨v, hv, fun hn hin => hig (ignored_attr hom (by
            rw [likeAttr_name hl, (C84_attribute_partial penv _ v a0 hpa).2.2.2 hn]
            exact hin)), fieldOf_attribute ho hr hd hp hc hom hr' (allNamed_below (hbel hcx) hmod hv) hpa (hf' _ (attrTy a0 ha0)) (hpresk.2 _ ha) hl hef⟩)
      · exact absurd (congrArg XName.loc hn') hq

end

/-- The target namespaces of the documents are those of the configuration if it names none. -/
theorem genCode_wanted (env : Env) (srt : Sorter strLt) (n : Nat) (parse : List Doc → Outcome (List Schema × THeap)) (cfg : Config) (docs : List Doc) :
    genCode env srt n parse cfg docs = genCode env srt n parse { cfg with namespaces := wanted cfg docs } docs := by
  have h1 : (if cfg.namespaces = [] then { cfg with namespaces := lookupTargetNS docs } else cfg) = { cfg with namespaces := wanted cfg docs } := by
    unfold wanted
    split <;> rfl
  have h2 : (if wanted cfg docs = [] then { cfg with namespaces := lookupTargetNS docs } else { cfg with namespaces := wanted cfg docs } : Config) =
      { cfg with namespaces := wanted cfg docs } := by
    split
    · rename_i h
      rw [h]
      unfold wanted at h
      split at h
      · rw [h]
      · contradiction
    · rfl
  unfold genCode
  dsimp only
  rw [h1, h2]

/-- C156, partial, where options change declarations only if they are structs whose only field is a slice: the file that `GenCode` makes declares every selected complex type that has content or attributes as a struct, and the struct has
the fields that the documents say, unless it is such a struct. Proved for orderly schemas that refer to types and derive them as they should, if no two types have the same Go
name. -/
theorem C156_altered_partial (env : Env) (srt srt' : Sorter strLt) (n : Nat) (parse : List Doc → Outcome (List Schema × THeap)) (penv : ParseEnv)
    (ord : MapOrder) (roots : List Element) (cfg : Config) (docs : List Doc) (schemas : List Schema) (H : THeap)
    (hparse : parse docs = parseSchemas penv ord roots) (hp : parseSchemas penv ord roots = .ok (schemas, H)) (ho : Orderly roots)
    (hr : Regular roots) (hder : Derivable roots) (hpre : Untouched cfg H schemas) (hpost : Unaltered cfg)
    (om : Omitted) (hom : Omits cfg om) (hd : (wanted cfg docs).Nodup)
    (hf : ∀ x ∈ wanted cfg docs, ∃ r ∈ roots, target r = x) (hn : H.length + 3 ≤ n) :
    ∃ cfg' H' code, genCode env srt n parse cfg docs = (cfg', .done (.ok (H', code))) ∧
      ∀ r ∈ roots, target r ∈ wanted cfg docs → ∀ e ∈ allNamed r w3cSchemaNS b!"complexType", ∀ el, GivesStruct roots om (defines (target r) e) e el →
        Selected cfg (defines (target r) e) → (defines (target r) e).loc ≠ [] →
        (∀ k helper, get (addStandardHelpers cfg).helperTypes k = some helper → helper.name ≠ publicName env cfg (defines (target r) e)) →
        (∀ r' ∈ roots, ∀ m ∈ typeNames r', publicName env cfg m = publicName env cfg (defines (target r) e) → m = defines (target r) e) →
        (∃ doc d, GoDecl.type doc (publicName env cfg (defines (target r) e)) d ∈ (genAST srt' code).2) ∧
        ∀ doc d, GoDecl.type doc (publicName env cfg (defines (target r) e)) d ∈ (genAST srt' code).2 →
          ∃ fields, (d = .struct fields ∨ cfg.postprocessType ≠ none ∧ SliceStruct (.struct fields)) ∧
            FieldsOf env cfg roots om (target r) (defines (target r) e) el fields := by
  obtain ⟨hc, -, -⟩ := parse_derivable ho hr hder hp
  obtain ⟨cfg', ⟨H', code⟩, hgen⟩ := C153_schemas_partial env srt n parse penv ord roots cfg docs schemas H hparse hp ho hr hder
    hpre hd hf hn
  refine ⟨cfg', H', code, hgen, ?_⟩
  rw [genCode_wanted] at hgen
  intro r hrr hns e he el hg hsel hloc hhelp hone
  obtain ⟨s, hs, hst, id, t, f, m, hget, hid, htn, hpt, hfb, hf'⟩ := declared_object ho hder hp hrr he
  obtain ⟨h1, h2, h3, -⟩ := parse_orderly ho hp
  have hname : (((TObj.complex t).mapTy f).withMixed m).name = defines (target r) e := htn
  have hlast : Lasting roots om (defines (target r) e) := by
    rcases hg with ⟨hcm, hcomp | hne⟩ | ⟨hsm, hx, hne, -⟩
    · exact Or.inl hcomp
    · exact Or.inr (Or.inl ⟨r, hrr, e, he, el, rfl, Or.inl hcm, hne⟩)
    · exact Or.inr (Or.inl ⟨r, hrr, e, he, el, rfl, Or.inr ⟨hsm, hx⟩, hne⟩)
  have hworth := lasting_worth (cfg := cfg) ho hder hp hc hom hlast id _ hid hname
  constructor
  · have := C97_declared env srt srt' n parse { cfg with namespaces := wanted cfg docs } cfg' docs schemas H H' code (hparse.trans hp) h1 h3 h2 hpre hgen s hs (by rw [hst]; exact hns) _ id
      (get_some_mem hget) _ hid (by rw [hname]; exact hsel) hworth (by
        rw [hname]
        refine ⟨hloc, fun hl => ?_⟩
        have hty := ho.types r hrr
        unfold typeNames at hty
        have hmem : defines (target r) e ∈ (typeDecls r).map (defines (target r)) := List.mem_map_of_mem (List.mem_append_left _ he)
        exact (List.nodup_append.mp hty).2.2 _ hmem _ (List.mem_singleton_self _)
          (xname_of (ho.spaces r hrr _ (Or.inl (List.mem_append_left _ hmem))) hl))
    rw [hname] at this
    exact this
  · intro doc d hdecl
    rcases C108_altered (cfg := { cfg with namespaces := wanted cfg docs }) (hparse.trans hp) hpre hpost hgen hdecl with
      ⟨k, helper, hk, hkn, -⟩ | ⟨j, o, x, hj, hjn, hm, hx⟩
    · exact absurd hkn (hhelp k helper hk)
    · obtain ⟨r', hr', hsrc⟩ := Xsd.parse_source ho hp j o hj
      obtain ⟨fields, rfl, hfields⟩ := means_fields ho hr hder hp hc hom hrr he hg hj (hone r' hr' _ hsrc hjn.symm) hm
      exact ⟨fields, hx, hfields⟩

/-- C156, partial: the file that `GenCode` makes declares every selected complex type that has content or attributes as a struct, and the struct has
the fields that the documents say. Proved for orderly schemas that refer to types and derive them as they should, if no two types have the same Go
name. -/
theorem C156_struct_partial (env : Env) (srt srt' : Sorter strLt) (n : Nat) (parse : List Doc → Outcome (List Schema × THeap)) (penv : ParseEnv)
    (ord : MapOrder) (roots : List Element) (cfg : Config) (docs : List Doc) (schemas : List Schema) (H : THeap)
    (hparse : parse docs = parseSchemas penv ord roots) (hp : parseSchemas penv ord roots = .ok (schemas, H)) (ho : Orderly roots)
    (hr : Regular roots) (hder : Derivable roots) (hpre : Untouched cfg H schemas) (hpost : cfg.postprocessType = none)
    (om : Omitted) (hom : Omits cfg om) (hd : (wanted cfg docs).Nodup)
    (hf : ∀ x ∈ wanted cfg docs, ∃ r ∈ roots, target r = x) (hn : H.length + 3 ≤ n) :
    ∃ cfg' H' code, genCode env srt n parse cfg docs = (cfg', .done (.ok (H', code))) ∧
      ∀ r ∈ roots, target r ∈ wanted cfg docs → ∀ e ∈ allNamed r w3cSchemaNS b!"complexType", ∀ el, GivesStruct roots om (defines (target r) e) e el →
        Selected cfg (defines (target r) e) → (defines (target r) e).loc ≠ [] →
        (∀ k helper, get (addStandardHelpers cfg).helperTypes k = some helper → helper.name ≠ publicName env cfg (defines (target r) e)) →
        (∀ r' ∈ roots, ∀ m ∈ typeNames r', publicName env cfg m = publicName env cfg (defines (target r) e) → m = defines (target r) e) →
        (∃ doc d, GoDecl.type doc (publicName env cfg (defines (target r) e)) d ∈ (genAST srt' code).2) ∧
        ∀ doc d, GoDecl.type doc (publicName env cfg (defines (target r) e)) d ∈ (genAST srt' code).2 →
          ∃ fields, d = .struct fields ∧ FieldsOf env cfg roots om (target r) (defines (target r) e) el fields := by
  obtain ⟨cfg', H', code, hgen, hall⟩ := C156_altered_partial env srt srt' n parse penv ord roots cfg docs schemas H hparse hp ho hr hder hpre
    (unaltered_none hpost) om hom hd hf hn
  refine ⟨cfg', H', code, hgen, fun r hrr hns e he el hg hsel hloc hhelp hone => ?_⟩
  obtain ⟨h1, h2⟩ := hall r hrr hns e he el hg hsel hloc hhelp hone
  refine ⟨h1, fun doc d hdecl => ?_⟩
  obtain ⟨fields, hx | ⟨hx, -⟩, hfields⟩ := h2 doc d hdecl
  · exact ⟨fields, hx, hfields⟩
  · exact absurd hpost hx

/-- Two types whose Go names are the same, each with an attribute of its own. -/
def twinsDoc : Str :=
  b!"<xs:schema xmlns:xs=\"http://www.w3.org/2001/XMLSchema\" xmlns=\"urn:u\" targetNamespace=\"urn:u\">" ++
  b!"<xs:complexType name=\"t\"><xs:attribute name=\"a\" type=\"xs:int\"/></xs:complexType>" ++
  b!"<xs:complexType name=\"T\"><xs:attribute name=\"b\" type=\"xs:int\"/></xs:complexType></xs:schema>"

def twinsRoots : Option (List Element) := (parseDocs [twinsDoc]).bind (normalize doubling 40)

def tagsOf : DeclExpr → List Str
  | .struct fs => fs.map (·.tag)
  | _ => []

/-- The generated declarations and the tags of their fields. -/
def twinsDecls (roots : List Element) : Option (List (Str × List Str)) :=
  match genCode asciiEnv (Sorter.byKey fun s => s) 10 (fun _ => parseSchemas testEnv Xsd.inOrder roots) { namespaces := [b!"urn:u"] } [] with
  | (_, .done (.ok r)) => some ((declaredExprs (genAST (Sorter.byKey fun s => s) r.2).2).map fun x => (x.1, tagsOf x.2))
  | _ => none

/-- The definition of a complex type in these schemas. -/
def definedIn (roots : List Element) (name : XName) : Option (Element × Element × Element) :=
  roots.findSome? fun r => (allNamed r w3cSchemaNS b!"complexType").findSome? fun e =>
    if defines (target r) e = name then ((modelOf e).orElse fun _ => simpleModelOf e).map fun el => (r, e, el) else none

theorem definedIn_spec {roots : List Element} {name : XName} {r e el : Element} (h : definedIn roots name = some (r, e, el)) :
    r ∈ roots ∧ e ∈ allNamed r w3cSchemaNS b!"complexType" ∧ defines (target r) e = name ∧ (modelOf e = some el ∨ modelOf e = none ∧ simpleModelOf e = some el) := by
  obtain ⟨r', hr, h⟩ := List.exists_of_findSome?_eq_some h
  obtain ⟨e', he, h⟩ := List.exists_of_findSome?_eq_some h
  split at h
  · rename_i hn
    obtain ⟨el', h1, h2⟩ := Option.map_eq_some_iff.mp h
    cases h2
    refine ⟨hr, he, hn, ?_⟩
    cases hm : modelOf e with
    | none => rw [hm] at h1; exact Or.inr ⟨rfl, h1⟩
    | some x => rw [hm] at h1; exact Or.inl h1
  · cases h

/-- The struct of a type is one with these elements and attributes, and its Go name is not that of another type or a helper. -/
def structOk (cfg : Config) (roots : List Element) (om : Omitted) (name : XName) (elements attributes : List Str) : Bool :=
  match definedIn roots name with
  | some (_, e, el) =>
      (if (modelOf e).isSome then decide (refersTo el b!"base" = ⟨w3cSchemaNS, b!"anyType"⟩)
       else decide (el.name.loc = b!"extension" ∧ (∃ x ∈ attributes, om.attributes = [] ∨ (58 : UInt8) ∉ x ∧ x ∉ om.attributes) ∧ elements = [])) &&
      decide ((allNamed el w3cSchemaNS b!"element").map (attrNamed · b!"name") = elements) &&
      decide ((allNamed el w3cSchemaNS b!"attribute").map (attrNamed · b!"name") = attributes) &&
      (addStandardHelpers cfg).helperTypes.all (fun h => decide (h.2.name ≠ publicName asciiEnv cfg name)) &&
      roots.all fun r' => (typeNames r').all fun m => decide (publicName asciiEnv cfg m = publicName asciiEnv cfg name → m = name)
  | none => false

theorem structOk_spec {cfg : Config} {roots : List Element} {om : Omitted} {name : XName} {elements attributes : List Str} (h : structOk cfg roots om name elements attributes = true) :
    ∃ r ∈ roots, ∃ e ∈ allNamed r w3cSchemaNS b!"complexType", ∃ el, name = defines (target r) e ∧ GivesStruct roots om name e el ∧
      (allNamed el w3cSchemaNS b!"element").map (attrNamed · b!"name") = elements ∧
      (allNamed el w3cSchemaNS b!"attribute").map (attrNamed · b!"name") = attributes ∧
      (∀ k helper, get (addStandardHelpers cfg).helperTypes k = some helper → helper.name ≠ publicName asciiEnv cfg name) ∧
      ∀ r' ∈ roots, ∀ m ∈ typeNames r', publicName asciiEnv cfg m = publicName asciiEnv cfg name → m = name := by
  unfold structOk at h
  split at h
  · rename_i r e el hdef
    obtain ⟨hr, he, hn, hm⟩ := definedIn_spec hdef
    simp only [Bool.and_eq_true, decide_eq_true_eq, List.all_eq_true] at h
    obtain ⟨⟨⟨⟨h1, h2⟩, h3⟩, h4⟩, h5⟩ := h
    refine ⟨r, hr, e, he, el, hn.symm, ?_, h2, h3, fun k helper hk => h4 _ (get_some_mem hk), h5⟩
    rcases hm with hm | ⟨hm', hm⟩
    · rw [hm] at h1
      simp only [Option.isSome_some, if_true, decide_eq_true_eq] at h1
      rw [← hn]
      exact Or.inl ⟨modelOf_model hm, Or.inl (.any hr he (modelOf_model hm) h1)⟩
    · rw [hm'] at h1
      simp only [Option.isSome_none, Bool.false_eq_true, if_false, decide_eq_true_eq] at h1
      obtain ⟨g1, g2, g3⟩ := h1
      refine Or.inr ⟨simpleModelOf_model hm, g1, ?_, ?_⟩
      · obtain ⟨x, hx, hst⟩ := g2
        rw [← h3] at hx
        obtain ⟨v, hv, rfl⟩ := List.mem_map.mp hx
        exact ⟨v, hv, hst⟩
      · rw [← h2] at g3
        exact List.map_eq_nil_iff.mp g3
  · cases h

/-- The schemas of orders and states meet the conditions: the types `Order`, with three elements and an attribute, and `Price`, which is text with an
attribute, are declared as structs with the fields that the documents say. -/
example : ∃ roots schemas H, ordersRoots = some roots ∧ Orderly roots ∧ Regular roots ∧ Derivable roots ∧
    parseSchemas testEnv Xsd.inOrder roots = .ok (schemas, H) ∧
    ∀ srt srt', ∃ cfg' H' code, genCode asciiEnv srt 11 (fun _ => parseSchemas testEnv Xsd.inOrder roots) ordersConfig [] = (cfg', .done (.ok (H', code))) ∧
      (∃ r ∈ roots, ∃ el, (allNamed el w3cSchemaNS b!"element").map (attrNamed · b!"name") = [b!"part", b!"sizes", b!"note"] ∧
        (allNamed el w3cSchemaNS b!"attribute").map (attrNamed · b!"name") = [b!"state"] ∧
        ∃ doc fields, GoDecl.type doc b!"Order" (.struct fields) ∈ (genAST srt' code).2 ∧
          FieldsOf asciiEnv ordersConfig roots {} (target r) ⟨b!"urn:u", b!"Order"⟩ el fields) ∧
      ∃ r ∈ roots, ∃ el, (allNamed el w3cSchemaNS b!"element").map (attrNamed · b!"name") = [] ∧
        (allNamed el w3cSchemaNS b!"attribute").map (attrNamed · b!"name") = [b!"currency"] ∧
        ∃ doc fields, GoDecl.type doc b!"Price" (.struct fields) ∈ (genAST srt' code).2 ∧
          FieldsOf asciiEnv ordersConfig roots {} (target r) ⟨b!"urn:v", b!"Price"⟩ el fields := by
  have : ordersTypes.map (fun (x : List Element × List Schema × THeap) => orderlyOk x.1 && regularOk x.1 &&
      derivableOk ordersRank ordersUnlisted x.1 && decide (∀ n ∈ [b!"urn:u", b!"urn:v"], ∃ r ∈ x.1, target r = n) &&
      structOk ordersConfig x.1 {} ⟨b!"urn:u", b!"Order"⟩ [b!"part", b!"sizes", b!"note"] [b!"state"] &&
      structOk ordersConfig x.1 {} ⟨b!"urn:v", b!"Price"⟩ [] [b!"currency"] && decide (x.2.2.length = 8)) = some true := by
    decide +kernel
  obtain ⟨⟨roots, schemas, H⟩, hx, h⟩ := Option.map_eq_some_iff.mp this
  simp only [Bool.and_eq_true] at h
  obtain ⟨⟨⟨⟨⟨⟨ho, hr⟩, hd⟩, hf⟩, h1⟩, h2⟩, hl⟩ := h
  have hf := of_decide_eq_true hf
  have hl := of_decide_eq_true hl
  cases hroots : ordersRoots with
  | none => rw [ordersTypes, hroots] at hx; cases hx
  | some roots' =>
    rw [ordersTypes, hroots] at hx
    dsimp only [Option.bind_some] at hx
    cases hp : parseSchemas testEnv Xsd.inOrder roots' with
    | ok r =>
      rw [hp] at hx
      cases hx
      refine ⟨_, schemas, H, rfl, orderly_of ho, regular_of hr, derivable_of hd, hp, fun srt srt' => ?_⟩
      obtain ⟨cfg', H', code, hg, hall⟩ := C156_struct_partial asciiEnv srt srt' 11 (fun _ => parseSchemas testEnv Xsd.inOrder roots) testEnv Xsd.inOrder
        roots ordersConfig [] schemas H rfl hp (orderly_of ho) (regular_of hr) (derivable_of hd) (untouched_none rfl) rfl {} ⟨Or.inl ⟨rfl, rfl⟩, Or.inl ⟨rfl, rfl⟩⟩
        (by decide : [b!"urn:u", b!"urn:v"].Nodup) hf (by rw [hl])
      have use : ∀ {name : XName} {es as : List Str}, structOk ordersConfig roots {} name es as = true → name.loc ≠ [] → Selected ordersConfig name →
          name.space ∈ [b!"urn:u", b!"urn:v"] →
          ∃ r ∈ roots, ∃ el, (allNamed el w3cSchemaNS b!"element").map (attrNamed · b!"name") = es ∧
            (allNamed el w3cSchemaNS b!"attribute").map (attrNamed · b!"name") = as ∧
            ∃ doc fields, GoDecl.type doc (publicName asciiEnv ordersConfig name) (.struct fields) ∈ (genAST srt' code).2 ∧
              FieldsOf asciiEnv ordersConfig roots {} (target r) name el fields := by
        intro name es as hs hloc hsel hns
        obtain ⟨r, hr, e, he, el, rfl, hgs, k1, k2, k3, k4⟩ := structOk_spec hs
        have hsp := (orderly_of ho).spaces r hr _ (Or.inl (List.mem_append_left _ (List.mem_map_of_mem (List.mem_append_left _ he))))
        obtain ⟨⟨doc, d, hdecl⟩, hfields⟩ := hall r hr (by rw [← hsp]; exact hns) e he el hgs hsel hloc k3 k4
        obtain ⟨fields, rfl, hfo⟩ := hfields doc d hdecl
        exact ⟨r, hr, el, k1, k2, doc, fields, hdecl, hfo⟩
      have hsel : ∀ name, Selected ordersConfig name := fun name => ⟨fun m e => (nomatch e), fun f e => (nomatch e)⟩
      refine ⟨cfg', H', code, hg, ?_, ?_⟩
      · exact use h1 (by decide) (hsel _) (by decide)
      · exact use h2 (by decide) (hsel _) (by decide)
    | _ => rw [hp] at hx; cases hx

/-- A configuration that leaves out the elements `note` and the attributes `state`. -/
def fewConfig : Config := (applyOpt asciiEnv (.ignoreElements [b!"note"]) (applyOpt asciiEnv (.ignoreAttributes [b!"state"]) ordersConfig).1).1

/-- The conditions are met also if elements and attributes are to be left out: the struct `Order` has no fields but those for `part` and `sizes`, and for
text. -/
example : Omits fewConfig ⟨[b!"note"], [b!"state"]⟩ ∧ ∃ roots schemas H, ordersTypes = some (roots, schemas, H) ∧
    ∀ srt srt', ∃ cfg' H' code, genCode asciiEnv srt 11 (fun _ => parseSchemas testEnv Xsd.inOrder roots) fewConfig [] = (cfg', .done (.ok (H', code))) ∧
      ∃ r ∈ roots, ∃ el, (allNamed el w3cSchemaNS b!"element").map (attrNamed · b!"name") = [b!"part", b!"sizes", b!"note"] ∧
        (allNamed el w3cSchemaNS b!"attribute").map (attrNamed · b!"name") = [b!"state"] ∧
        ∃ doc fields, GoDecl.type doc b!"Order" (.struct fields) ∈ (genAST srt' code).2 ∧
          FieldsOf asciiEnv fewConfig roots ⟨[b!"note"], [b!"state"]⟩ (target r) ⟨b!"urn:u", b!"Order"⟩ el fields := by
  have hom : Omits fewConfig ⟨[b!"note"], [b!"state"]⟩ := ⟨Or.inr rfl, Or.inr rfl⟩
  refine ⟨hom, ?_⟩
  have : ordersTypes.map (fun (x : List Element × List Schema × THeap) => orderlyOk x.1 && regularOk x.1 &&
      derivableOk ordersRank ordersUnlisted x.1 && decide (∀ n ∈ [b!"urn:u", b!"urn:v"], ∃ r ∈ x.1, target r = n) &&
      structOk fewConfig x.1 ⟨[b!"note"], [b!"state"]⟩ ⟨b!"urn:u", b!"Order"⟩ [b!"part", b!"sizes", b!"note"] [b!"state"] &&
      decide (x.2.2.length = 8)) = some true := by
    decide +kernel
  obtain ⟨⟨roots, schemas, H⟩, hx, h⟩ := Option.map_eq_some_iff.mp this
  simp only [Bool.and_eq_true] at h
  obtain ⟨⟨⟨⟨⟨ho, hr⟩, hd⟩, hf⟩, h1⟩, hl⟩ := h
  have hf := of_decide_eq_true hf
  have hl := of_decide_eq_true hl
  have hp : parseSchemas testEnv Xsd.inOrder roots = .ok (schemas, H) := by
    obtain ⟨roots', -, hx⟩ := Option.bind_eq_some_iff.mp hx
    split at hx
    · rename_i r hr
      cases hx
      exact hr
    · cases hx
  refine ⟨roots, schemas, H, hx, fun srt srt' => ?_⟩
  obtain ⟨cfg', H', code, hg, hall⟩ := C156_struct_partial asciiEnv srt srt' 11 (fun _ => parseSchemas testEnv Xsd.inOrder roots) testEnv Xsd.inOrder
    roots fewConfig [] schemas H rfl hp (orderly_of ho) (regular_of hr) (derivable_of hd) (untouched_none rfl) rfl _ hom
    (by decide : [b!"urn:u", b!"urn:v"].Nodup) hf (by rw [hl])
  refine ⟨cfg', H', code, hg, ?_⟩
  obtain ⟨r, hr, e, he, el, hn, hgs, k1, k2, k3, k4⟩ := structOk_spec h1
  have hsp := (orderly_of ho).spaces r hr _ (Or.inl (List.mem_append_left _ (List.mem_map_of_mem (List.mem_append_left _ he))))
  rw [← hn] at hsp
  obtain ⟨⟨doc, d, hdecl⟩, hfields⟩ := hall r hr (by rw [← hsp]; exact (by decide : b!"urn:u" ∈ [b!"urn:u", b!"urn:v"])) e he el (by rw [← hn]; exact hgs)
    ⟨fun m e => (nomatch e), fun f e => (nomatch e)⟩ (by rw [← hn]; decide) (by rw [← hn]; exact k3) (by rw [← hn]; exact k4)
  obtain ⟨fields, rfl, hfo⟩ := hfields doc d hdecl
  rw [← hn] at hdecl hfo
  exact ⟨r, hr, el, k1, k2, doc, fields, hdecl, hfo⟩

/-- C156 without the condition that no two types have the same Go name. -/
def C156_full : Prop :=
  ∀ (env : Env) (srt srt' : Sorter strLt) (n : Nat) (parse : List Doc → Outcome (List Schema × THeap)) (penv : ParseEnv) (ord : MapOrder)
    (roots : List Element) (cfg : Config) (docs : List Doc) (schemas : List Schema) (H : THeap),
    parse docs = parseSchemas penv ord roots → parseSchemas penv ord roots = .ok (schemas, H) → Orderly roots → Regular roots → Derivable roots →
    Untouched cfg H schemas → cfg.postprocessType = none → ∀ om, Omits cfg om → (wanted cfg docs).Nodup →
    (∀ x ∈ wanted cfg docs, ∃ r ∈ roots, target r = x) → H.length + 3 ≤ n →
    ∃ cfg' H' code, genCode env srt n parse cfg docs = (cfg', .done (.ok (H', code))) ∧
      ∀ r ∈ roots, target r ∈ wanted cfg docs → ∀ e ∈ allNamed r w3cSchemaNS b!"complexType", ∀ el, GivesStruct roots om (defines (target r) e) e el →
        Selected cfg (defines (target r) e) → (defines (target r) e).loc ≠ [] →
        (∀ k helper, get (addStandardHelpers cfg).helperTypes k = some helper → helper.name ≠ publicName env cfg (defines (target r) e)) →
        ∃ doc fields, GoDecl.type doc (publicName env cfg (defines (target r) e)) (.struct fields) ∈ (genAST srt' code).2 ∧
          FieldsOf env cfg roots om (target r) (defines (target r) e) el fields

/-- The definition of `t` is one with an attribute `a` that has no form. -/
def twinOk (roots : List Element) : Bool :=
  match definedIn roots ⟨b!"urn:u", b!"t"⟩ with
  | some (_, e, el) => (modelOf e).isSome && decide (refersTo el b!"base" = ⟨w3cSchemaNS, b!"anyType"⟩) &&
      (allNamed el w3cSchemaNS b!"attribute").any fun v => decide (attrNamed v b!"name" = b!"a" ∧ attrNamed v b!"use" ≠ b!"required" ∧
        ∀ x ∈ v.attrs, x.name = ⟨[], b!"form"⟩ → x.value ≠ b!"qualified")
  | none => false

def twinsTypes : Option (List Element × List Schema × THeap) := twinsRoots.bind fun roots =>
  match parseSchemas testEnv Xsd.inOrder roots with
  | .ok r => some (roots, r)
  | _ => none

/-- C156 is false as it stands: of two types with the same Go name one has no declaration of its own. -/
theorem C156_refuted : ¬ C156_full := by
  intro hfull
  have : twinsTypes.map (fun (x : List Element × List Schema × THeap) => orderlyOk x.1 && regularOk x.1 &&
      derivableOk ordersRank (fun n => decide (n.space ≠ w3cSchemaNS) || ordersUnlisted n) x.1 && decide (∀ n ∈ [b!"urn:u"], ∃ r ∈ x.1, target r = n) &&
      decide (x.2.2.length + 3 ≤ 10) && twinOk x.1 &&
      (addStandardHelpers { namespaces := [b!"urn:u"] }).helperTypes.all (fun h => decide (h.2.name ≠ b!"T")) &&
      decide (twinsDecls x.1 = some [(b!"T", [b!"xml:\"b,attr,omitempty\""])])) = some true := by
    decide +kernel
  obtain ⟨⟨roots, schemas, H⟩, hx, h⟩ := Option.map_eq_some_iff.mp this
  simp only [Bool.and_eq_true] at h
  obtain ⟨⟨⟨⟨⟨⟨⟨ho, hr⟩, hd⟩, hf⟩, hl⟩, ht⟩, hh⟩, hdecls⟩ := h
  have hf := of_decide_eq_true hf
  have hl := of_decide_eq_true hl
  have hdecls := of_decide_eq_true hdecls
  cases hroots : twinsRoots with
  | none => rw [twinsTypes, hroots] at hx; cases hx
  | some roots' =>
    rw [twinsTypes, hroots] at hx
    dsimp only [Option.bind_some] at hx
    cases hp : parseSchemas testEnv Xsd.inOrder roots' with
    | ok r =>
      rw [hp] at hx
      cases hx
      obtain ⟨cfg', H', code, hg, hall⟩ := hfull asciiEnv (Sorter.byKey fun s => s) (Sorter.byKey fun s => s) 10
        (fun _ => parseSchemas testEnv Xsd.inOrder roots) testEnv Xsd.inOrder roots { namespaces := [b!"urn:u"] } [] schemas H rfl hp (orderly_of ho)
        (regular_of hr) (derivable_of hd) (untouched_none rfl) rfl {} ⟨Or.inl ⟨rfl, rfl⟩, Or.inl ⟨rfl, rfl⟩⟩ (by decide : [b!"urn:u"].Nodup) hf hl
      unfold twinOk at ht
      split at ht
      · rename_i r e el hdef
        obtain ⟨hr', he, hn, hm⟩ := definedIn_spec hdef
        simp only [Bool.and_eq_true, decide_eq_true_eq, List.any_eq_true] at ht
        obtain ⟨⟨hs, hb⟩, v, hv, hva, hvu, hvf⟩ := ht
        have hm : modelOf e = some el := by
          rcases hm with hm | ⟨hm, -⟩
          · exact hm
          · rw [hm] at hs; cases hs
        have hsp := (orderly_of ho).spaces r hr' _ (Or.inl (List.mem_append_left _ (List.mem_map_of_mem (List.mem_append_left _ he))))
        rw [hn] at hsp
        have hpub : publicName asciiEnv { namespaces := [b!"urn:u"] } ⟨b!"urn:u", b!"t"⟩ = b!"T" := by decide +kernel
        obtain ⟨doc, fields, hdecl, -, hfa, -⟩ := hall r hr' (by rw [← hsp]; exact List.mem_singleton_self _) e he el
          (Or.inl ⟨modelOf_model hm, Or.inl (.any hr' he (modelOf_model hm) hb)⟩) ⟨fun m e => (nomatch e), fun f e => (nomatch e)⟩ (by rw [hn]; decide) (by
            intro k helper hk
            rw [hn, hpub]
            exact of_decide_eq_true (List.all_eq_true.mp hh _ (get_some_mem hk)))
        obtain ⟨f, hf', sp, loc, -, hloc, -, hspace, htag⟩ := hfa v hv (Or.inl rfl)
        rw [hspace hvf, hloc (by rw [hva]; decide), hva, if_neg hvu] at htag
        unfold twinsDecls at hdecls
        rw [hg] at hdecls
        dsimp only at hdecls
        have hmem : (b!"T", fields.map (·.tag)) ∈ [(b!"T", [b!"xml:\"b,attr,omitempty\""])] := by
          rw [← Option.some.inj hdecls]
          refine List.mem_map.mpr ⟨(b!"T", .struct fields), List.mem_filterMap.mpr ⟨_, hdecl, ?_⟩, rfl⟩
          rw [hn, hpub]
        have : fields.map (·.tag) = [b!"xml:\"b,attr,omitempty\""] := congrArg Prod.snd (List.mem_singleton.mp hmem)
        have hft : f.tag ∈ fields.map (·.tag) := List.mem_map_of_mem hf'
        rw [this, List.mem_singleton, htag] at hft
        revert hft
        decide
      · cases ht
    | _ => rw [hp] at hx; cases hx

end GoXml.Xsdgen
