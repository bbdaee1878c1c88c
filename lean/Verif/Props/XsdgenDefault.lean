import Verif.Props.XsdgenStruct
import Verif.Props.XsdgenSimple
import Verif.Model.XsdgenSoap
set_option autoImplicit false

/-! C156 and C157 with the options that the command xsdgen starts with. -/

namespace GoXml.Xsdgen
open Xsd GoMap
open Wsdl (attrNamed allNamed below defines refersTo)

/-- The options that the command starts with change no declarations except for structs whose only field is a slice. -/
theorem default_unaltered (env : Env) (stderr : Nat) (H : THeap) (ns : List Str) (henv : ∀ s r, soapArrayToSlice H s = .ok r → env.arraySlice s = r.1) :
    Unaltered { Cli.xsdgenMain env stderr with namespaces := ns } := by
  intro post hp s hs
  obtain ⟨-, -, -, -, -, -, -, -, hpost⟩ := Cli.C127_defaults env stderr
  have e : some env.arraySlice = some post := hpost.symm.trans hp
  cases e
  refine henv s (s, none) ?_
  unfold soapArrayToSlice
  split
  · rename_i f hf
    split
    · rename_i elt he
      exact absurd ⟨f, elt, hf, he⟩ hs
    · rfl
  · rfl

/-- The attributes that the command leaves out if it is not told otherwise. -/
def defaultOmitted : Omitted := ⟨[], [b!"id", b!"href", b!"ref", b!"offset"]⟩

theorem default_omits (env : Env) (stderr : Nat) (ns : List Str) : Omits { Cli.xsdgenMain env stderr with namespaces := ns } defaultOmitted :=
  ⟨Or.inl ⟨rfl, rfl⟩, Or.inr rfl⟩

/-- The transformations that the parameters stand for: `parseSOAPArrayType` and `soapArrayToSlice`, which finds the types as they are in `G`. -/
def Faithful (env : Env) (k : Nat) (G : THeap) : Prop :=
  (∀ s t H r, parseSOAPArrayType k s t H = .ok r → env.soapArray s t H = r) ∧ ∀ s r, soapArrayToSlice G s = .ok r → env.arraySlice s = r.1

/-- C156, partial, for the options that the command xsdgen starts with: a selected complex type that has content or attributes is declared as a struct with
the fields that the documents say, without those for attributes called `id`, `href`, `ref` or `offset`, unless the only field would be a slice. No type
may be anonymous, and no attribute called `arrayType`. -/
theorem C156_default_partial (env : Env) (srt srt' : Sorter strLt) (n stderr k : Nat) (parse : List Doc → Outcome (List Schema × THeap)) (penv : ParseEnv)
    (ord : MapOrder) (roots : List Element) (ns : List Str) (docs : List Doc) (schemas : List Schema) (H : THeap)
    (hparse : parse docs = parseSchemas penv ord roots) (hp : parseSchemas penv ord roots = .ok (schemas, H)) (ho : Orderly roots)
    (hr : Regular roots) (hder : Derivable roots) (G : THeap) (henv : Faithful env k G) (hsimple : ∀ s, TObj.simple s ∈ H → s.anonymous = false)
    (hcomplex : ∀ c, TObj.complex c ∈ H → c.anonymous = false)
    (harr : ∀ (id : Nat) c, H[id]? = some (.complex c) → ∀ a ∈ c.attributes, a.name.loc ≠ b!"arrayType")
    (hd : (wanted { Cli.xsdgenMain env stderr with namespaces := ns } docs).Nodup)
    (hf : ∀ x ∈ wanted { Cli.xsdgenMain env stderr with namespaces := ns } docs, ∃ r ∈ roots, target r = x) (hn : H.length + 3 ≤ n) :
    let cfg := { Cli.xsdgenMain env stderr with namespaces := ns }
    ∃ cfg' H' code, genCode env srt n parse cfg docs = (cfg', .done (.ok (H', code))) ∧
      ∀ r ∈ roots, target r ∈ wanted cfg docs → ∀ e ∈ allNamed r w3cSchemaNS b!"complexType", ∀ el,
        GivesStruct roots defaultOmitted (defines (target r) e) e el → (defines (target r) e).loc ≠ [] →
        (∀ k helper, get (addStandardHelpers cfg).helperTypes k = some helper → helper.name ≠ publicName env cfg (defines (target r) e)) →
        (∀ r' ∈ roots, ∀ m ∈ typeNames r', publicName env cfg m = publicName env cfg (defines (target r) e) → m = defines (target r) e) →
        (∃ doc d, GoDecl.type doc (publicName env cfg (defines (target r) e)) d ∈ (genAST srt' code).2) ∧
        ∀ doc d, GoDecl.type doc (publicName env cfg (defines (target r) e)) d ∈ (genAST srt' code).2 →
          ∃ fields, (d = .struct fields ∨ SliceStruct (.struct fields)) ∧
            FieldsOf env cfg roots defaultOmitted (target r) (defines (target r) e) el fields := by
  intro cfg
  have hpre : Untouched cfg H schemas := fun pre e => C153_default env stderr k H schemas henv.1 hsimple hcomplex harr pre e
  obtain ⟨cfg', H', code, hgen, hall⟩ := C156_altered_partial env srt srt' n parse penv ord roots cfg docs schemas H hparse hp ho hr hder hpre
    (default_unaltered env stderr G ns henv.2) defaultOmitted (default_omits env stderr ns) hd hf hn
  refine ⟨cfg', H', code, hgen, fun r hrr hns e he el hg hloc hhelp hone => ?_⟩
  obtain ⟨h1, h2⟩ := hall r hrr hns e he el hg ⟨fun m e => (nomatch e), fun f e => (nomatch e)⟩ hloc hhelp hone
  refine ⟨h1, fun doc d hdecl => ?_⟩
  obtain ⟨fields, hx, hfields⟩ := h2 doc d hdecl
  exact ⟨fields, hx.imp id And.right, hfields⟩

/-- C157, partial, for the options that the command xsdgen starts with. -/
theorem C157_default_partial (env : Env) (srt srt' : Sorter strLt) (n stderr k : Nat) (parse : List Doc → Outcome (List Schema × THeap)) (penv : ParseEnv)
    (ord : MapOrder) (roots : List Element) (ns : List Str) (docs : List Doc) (schemas : List Schema) (H : THeap)
    (hparse : parse docs = parseSchemas penv ord roots) (hp : parseSchemas penv ord roots = .ok (schemas, H)) (ho : Orderly roots)
    (hr : Regular roots) (hder : Derivable roots) (G : THeap) (henv : Faithful env k G) (hsimple : ∀ s, TObj.simple s ∈ H → s.anonymous = false)
    (hcomplex : ∀ c, TObj.complex c ∈ H → c.anonymous = false)
    (harr : ∀ (id : Nat) c, H[id]? = some (.complex c) → ∀ a ∈ c.attributes, a.name.loc ≠ b!"arrayType")
    (hd : (wanted { Cli.xsdgenMain env stderr with namespaces := ns } docs).Nodup)
    (hf : ∀ x ∈ wanted { Cli.xsdgenMain env stderr with namespaces := ns } docs, ∃ r ∈ roots, target r = x) (hn : H.length + 3 ≤ n) :
    let cfg := { Cli.xsdgenMain env stderr with namespaces := ns }
    ∃ cfg' H' code, genCode env srt n parse cfg docs = (cfg', .done (.ok (H', code))) ∧
      ∀ r ∈ roots, target r ∈ wanted cfg docs → ∀ e ∈ allNamed r w3cSchemaNS b!"simpleType", ∀ el, schemaKids e = [el] → Refined e →
        (defines (target r) e).loc ≠ [] →
        (∀ k helper, get (addStandardHelpers cfg).helperTypes k = some helper → helper.name ≠ publicName env cfg (defines (target r) e)) →
        (∀ r' ∈ roots, ∀ m ∈ typeNames r', publicName env cfg m = publicName env cfg (defines (target r) e) → m = defines (target r) e) →
        (∃ doc d, GoDecl.type doc (publicName env cfg (defines (target r) e)) d ∈ (genAST srt' code).2) ∧
        ∀ doc d, GoDecl.type doc (publicName env cfg (defines (target r) e)) d ∈ (genAST srt' code).2 → DeclaredAs roots el d := by
  intro cfg
  have hpre : Untouched cfg H schemas := fun pre e => C153_default env stderr k H schemas henv.1 hsimple hcomplex harr pre e
  obtain ⟨cfg', H', code, hgen, hall⟩ := C157_simple_partial env srt srt' n parse penv ord roots cfg docs schemas H hparse hp ho hr hder hpre
    (default_unaltered env stderr G ns henv.2) hd hf hn
  exact ⟨cfg', H', code, hgen, fun r hrr hns e he el hk href hloc hhelp hone =>
    hall r hrr hns e he el hk href ⟨fun m e => (nomatch e), fun f e => (nomatch e)⟩ hloc hhelp hone⟩

theorem genEnv_faithful (H : THeap) : Faithful (genEnv H) 20 H := by
  refine ⟨fun s t H' r e => ?_, fun s r e => ?_⟩
  · show (match parseSOAPArrayType 20 s t H' with | .ok r => r | _ => (t, H')) = r
    rw [e]
  · show (match soapArrayToSlice H s with | .ok r => r.1 | _ => s) = r.1
    rw [e]

/-- The configuration of the command for the two namespaces of orders and states. -/
def commandConfig (H : THeap) : Config := { Cli.xsdgenMain (genEnv H) 2 with namespaces := [b!"urn:u", b!"urn:v"] }

/-- The Go name of a type is not that of another type or of a helper. -/
def aloneOk (roots : List Element) (name : XName) : Bool :=
  (addStandardHelpers (commandConfig [])).helperTypes.all (fun h => decide (h.2.name ≠ publicName (genEnv []) (commandConfig []) name)) &&
  roots.all fun r' => (typeNames r').all fun m => decide (publicName (genEnv []) (commandConfig []) m = publicName (genEnv []) (commandConfig []) name → m = name)

theorem aloneOk_spec {H : THeap} {roots : List Element} {name : XName} (h : aloneOk roots name = true) :
    (∀ k helper, get (addStandardHelpers (commandConfig H)).helperTypes k = some helper → helper.name ≠ publicName (genEnv H) (commandConfig H) name) ∧
    ∀ r' ∈ roots, ∀ m ∈ typeNames r', publicName (genEnv H) (commandConfig H) m = publicName (genEnv H) (commandConfig H) name → m = name := by
  unfold aloneOk at h
  simp only [Bool.and_eq_true, decide_eq_true_eq, List.all_eq_true] at h
  exact ⟨fun k helper hk => h.1 _ (get_some_mem hk), h.2⟩

/-- The schemas of orders and states meet the conditions: with the options of the command there is a struct for orders, with fields for three elements
and an attribute. -/
example : ∃ roots schemas H, ordersTypes = some (roots, schemas, H) ∧
    ∀ srt srt', ∃ cfg' H' code, genCode (genEnv H) srt 11 (fun _ => parseSchemas testEnv Xsd.inOrder roots) (commandConfig H) [] = (cfg', .done (.ok (H', code))) ∧
      ∃ r ∈ roots, ∃ el, (allNamed el w3cSchemaNS b!"element").map (attrNamed · b!"name") = [b!"part", b!"sizes", b!"note"] ∧
        (allNamed el w3cSchemaNS b!"attribute").map (attrNamed · b!"name") = [b!"state"] ∧
        ∃ doc d fields, GoDecl.type doc (publicName (genEnv H) (commandConfig H) ⟨b!"urn:u", b!"Order"⟩) d ∈ (genAST srt' code).2 ∧
          (d = .struct fields ∨ SliceStruct (.struct fields)) ∧
          FieldsOf (genEnv H) (commandConfig H) roots defaultOmitted (target r) ⟨b!"urn:u", b!"Order"⟩ el fields := by
  have : ordersTypes.map (fun (x : List Element × List Schema × THeap) => orderlyOk x.1 && regularOk x.1 &&
      derivableOk ordersRank ordersUnlisted x.1 && decide (∀ n ∈ [b!"urn:u", b!"urn:v"], ∃ r ∈ x.1, target r = n) && plainOk x.2.2 &&
      structOk ordersConfig x.1 defaultOmitted ⟨b!"urn:u", b!"Order"⟩ [b!"part", b!"sizes", b!"note"] [b!"state"] &&
      aloneOk x.1 ⟨b!"urn:u", b!"Order"⟩ && decide (x.2.2.length = 8)) = some true := by
    decide +kernel
  obtain ⟨⟨roots, schemas, H⟩, hx, h⟩ := Option.map_eq_some_iff.mp this
  simp only [Bool.and_eq_true] at h
  obtain ⟨⟨⟨⟨⟨⟨⟨ho, hr⟩, hd⟩, hf⟩, hpl⟩, h1⟩, hal⟩, hl⟩ := h
  have hf := of_decide_eq_true hf
  have hl := of_decide_eq_true hl
  have hp : parseSchemas testEnv Xsd.inOrder roots = .ok (schemas, H) := by
    obtain ⟨roots', -, hx⟩ := Option.bind_eq_some_iff.mp hx
    split at hx
    · rename_i r hr
      cases hx
      exact hr
    · cases hx
  refine ⟨roots, schemas, H, hx, fun srt srt' => ?_⟩
  obtain ⟨p1, p2, p3⟩ := plain_of hpl
  obtain ⟨cfg', H', code, hg, hall⟩ := C156_default_partial (genEnv H) srt srt' 11 2 20 (fun _ => parseSchemas testEnv Xsd.inOrder roots) testEnv Xsd.inOrder
    roots [b!"urn:u", b!"urn:v"] [] schemas H rfl hp (orderly_of ho) (regular_of hr) (derivable_of hd) H (genEnv_faithful H) p1 p2 p3
    (by decide : [b!"urn:u", b!"urn:v"].Nodup) hf (by rw [hl])
  refine ⟨cfg', H', code, hg, ?_⟩
  obtain ⟨r, hr, e, he, el, hn, hgs, k1, k2, -, -⟩ := structOk_spec h1
  obtain ⟨k3, k4⟩ := aloneOk_spec (H := H) hal
  have hsp := (orderly_of ho).spaces r hr _ (Or.inl (List.mem_append_left _ (List.mem_map_of_mem (List.mem_append_left _ he))))
  rw [← hn] at hsp
  obtain ⟨⟨doc, d, hdecl⟩, hfields⟩ := hall r hr (by rw [← hsp]; exact (by decide : b!"urn:u" ∈ [b!"urn:u", b!"urn:v"])) e he el (by rw [← hn]; exact hgs)
    (by rw [← hn]; decide) (by rw [← hn]; exact k3) (by rw [← hn]; exact k4)
  obtain ⟨fields, hd', hfo⟩ := hfields doc d hdecl
  rw [← hn] at hdecl hfo
  exact ⟨r, hr, el, k1, k2, doc, d, fields, hdecl, hd', hfo⟩

end GoXml.Xsdgen
