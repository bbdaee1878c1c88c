import Verif.Props.WsdlgenStruct
import Verif.Props.XsdgenDefault
set_option autoImplicit false

/-! C160 with the options that the command wsdlgen starts with. -/

namespace GoXml.Wsdl
open Xsd Xsdgen GoMap

/-- C160, partial, for the options that the command wsdlgen starts with, of which those for types are the ones of xsdgen: a function sends and receives,
for a part of a complex type of the schemas that has content or attributes, values of the type that the same file declares, which is a struct with the
fields that the documents say, without those for attributes called `id`, `href`, `ref` or `offset`, unless the only field would be a slice. No type may
be anonymous, and no attribute called `arrayType`. -/
theorem C160_default_partial (env : Env) (srt : Sorter strLt) (n k stderr j : Nat) (parse : List Xsdgen.Doc → Outcome (List Schema × THeap)) (penv : ParseEnv)
    (ord : MapOrder) (roots : List Element) (ns : List Str) (root : Element) (docs : List Xsdgen.Doc) (schemas : List Schema) (H : THeap)
    (hparse : parse (some root :: docs) = parseSchemas penv ord roots) (hp : parseSchemas penv ord roots = .ok (schemas, H)) (ho : Orderly roots)
    (hr : Regular roots) (hder : Derivable roots) (G : THeap) (henv : Faithful env j G) (hsimple : ∀ s, TObj.simple s ∈ H → s.anonymous = false)
    (hcomplex : ∀ c, TObj.complex c ∈ H → c.anonymous = false)
    (harr : ∀ (id : Nat) c, H[id]? = some (.complex c) → ∀ a ∈ c.attributes, a.name.loc ≠ b!"arrayType") (file : File) :
    let cfg := { (Cli.wsdlgenMain env stderr).xsdgen with namespaces := ns }
    let gcfg : GenConfig := ⟨none, (Cli.wsdlgenMain env stderr).maxArgs, (Cli.wsdlgenMain env stderr).maxReturns⟩
    (wanted cfg (some root :: docs)).Nodup → (∀ x ∈ wanted cfg (some root :: docs), ∃ r ∈ roots, target r = x) → H.length + 3 ≤ n →
    genFile env srt n k parse cfg gcfg (some root :: docs) = .ok file → (∀ p, InOperation (Wsdl.parse root) p → p.type.loc ≠ b!"_self") →
    ∀ r ∈ roots, target r ∈ wanted cfg (some root :: docs) → ∀ e ∈ allNamed r w3cSchemaNS b!"complexType", ∀ el,
    GivesStruct roots defaultOmitted (defines (target r) e) e el → (defines (target r) e).loc ≠ [] →
    (∀ k helper, get (addStandardHelpers cfg).helperTypes k = some helper → helper.name ≠ publicName env cfg (defines (target r) e)) →
    (∀ r' ∈ roots, ∀ m ∈ typeNames r', publicName env cfg m = publicName env cfg (defines (target r) e) → m = defines (target r) e) →
    publicName env cfg (defines (target r) e) ∉ hiddenTypes.map (·.1) →
    (∃ doc d, GoDecl.type doc (publicName env cfg (defines (target r) e)) d ∈ file.types) ∧
    (∀ doc d, GoDecl.type doc (publicName env cfg (defines (target r) e)) d ∈ file.types →
      ∃ fields, (d = .struct fields ∨ SliceStruct (.struct fields)) ∧ FieldsOf env cfg roots defaultOmitted (target r) (defines (target r) e) el fields) ∧
    ∀ g ∈ file.funcs, Passes gcfg (Wsdl.parse root) (IsOf roots (defines (target r) e)) (publicName env cfg (defines (target r) e)) g.2 := by
  intro cfg gcfg hd hf hn h hparts r hrr hns e he el hg hloc hhelp hone hN
  have hpre : Untouched cfg H schemas := fun pre e => C153_default env stderr j H schemas henv.1 hsimple hcomplex harr pre e
  obtain ⟨h1, h2, h3⟩ := C160_altered_partial env srt n k parse penv ord roots cfg gcfg root docs schemas H hparse hp ho hr hder hpre
    (default_unaltered env stderr G ns henv.2) defaultOmitted (default_omits env stderr ns) hd hf hn file h hparts r hrr hns e he el hg
    ⟨fun m e => (nomatch e), fun f e => (nomatch e)⟩ hloc hhelp hone hN
  refine ⟨h1, fun doc d hdecl => ?_, h3⟩
  obtain ⟨fields, hx, hfields⟩ := h2 doc d hdecl
  exact ⟨fields, hx.imp id And.right, hfields⟩

/-- The file that the command makes for the document with the functions for `Ask`. -/
def commandFile (roots : List Element) (H : THeap) : Option File :=
  (genFile (genEnv H) (Sorter.byKey fun s => s) 10 2 (fun _ => parseSchemas testEnv Xsd.inOrder roots)
    { (Cli.wsdlgenMain (genEnv H) 2).xsdgen with namespaces := [b!"u"] } ⟨none, (Cli.wsdlgenMain (genEnv H) 2).maxArgs, (Cli.wsdlgenMain (genEnv H) 2).maxReturns⟩
    [some callWsdl]).toOption

theorem commandFile_ok {roots : List Element} {H : THeap} {file : File} (h : commandFile roots H = some file) :
    genFile (genEnv H) (Sorter.byKey fun s => s) 10 2 (fun _ => parseSchemas testEnv Xsd.inOrder roots)
      { (Cli.wsdlgenMain (genEnv H) 2).xsdgen with namespaces := [b!"u"] } ⟨none, (Cli.wsdlgenMain (genEnv H) 2).maxArgs, (Cli.wsdlgenMain (genEnv H) 2).maxReturns⟩
      [some callWsdl] = .ok file := by
  unfold commandFile at h
  revert h
  generalize genFile _ _ _ _ _ _ _ _ = r
  intro h
  cases r <;> cases h
  rfl

/-- The document and the schema meet the conditions: with the options of the command the function is given two values of the type `Ask` and answers with
one, and `Ask` is declared with the fields for an element and an attribute. -/
example : ∃ roots schemas H, typesIn callDoc = some (roots, schemas, H) ∧ ∃ file, commandFile roots H = some file ∧
    file.funcs.map (·.2.params) = [[b!"ctx context.Context", b!"x Ask", b!"y Ask"]] ∧
    ∃ r ∈ roots, ∃ el doc d fields, GoDecl.type doc b!"Ask" d ∈ file.types ∧ (d = .struct fields ∨ SliceStruct (.struct fields)) ∧
      (allNamed el w3cSchemaNS b!"element").map (attrNamed · b!"name") = [b!"size"] ∧
      (allNamed el w3cSchemaNS b!"attribute").map (attrNamed · b!"name") = [b!"a"] ∧
      FieldsOf (genEnv H) { (Cli.wsdlgenMain (genEnv H) 2).xsdgen with namespaces := [b!"u"] } roots defaultOmitted (target r) ⟨b!"u", b!"Ask"⟩ el fields ∧
      ∀ g ∈ file.funcs, Passes ⟨none, 3, 2⟩ (Wsdl.parse callWsdl) (IsOf roots ⟨b!"u", b!"Ask"⟩) b!"Ask" g.2 := by
  have : (typesIn callDoc).map (fun (x : List Element × List Schema × THeap) => orderlyOk x.1 && regularOk x.1 &&
      derivableOk ordersRank (fun n => decide (n.space ≠ w3cSchemaNS) || ordersUnlisted n) x.1 && decide (∀ n ∈ [b!"u"], ∃ r ∈ x.1, target r = n) &&
      plainOk x.2.2 && structOk C101_cfg x.1 defaultOmitted ⟨b!"u", b!"Ask"⟩ [b!"size"] [b!"a"] && aloneOk x.1 ⟨b!"u", b!"Ask"⟩ &&
      decide (x.2.2.length + 3 ≤ 10) && ((allParts (Wsdl.parse callWsdl)).all fun p => decide (p.type.loc ≠ b!"_self")) &&
      (commandFile x.1 x.2.2).any (fun file => decide (file.funcs.map (·.2.params) = [[b!"ctx context.Context", b!"x Ask", b!"y Ask"]]))) = some true := by
    decide +kernel
  obtain ⟨⟨roots, schemas, H⟩, hx, h⟩ := Option.map_eq_some_iff.mp this
  simp only [Bool.and_eq_true] at h
  obtain ⟨⟨⟨⟨⟨⟨⟨⟨⟨ho, hr⟩, hd⟩, hf⟩, hpl⟩, hs⟩, hal⟩, hl⟩, hparts⟩, h1⟩ := h
  obtain ⟨file, hfile, h1⟩ := fileThat h1
  refine ⟨roots, schemas, H, hx, file, hfile, of_decide_eq_true h1, ?_⟩
  obtain ⟨p1, p2, p3⟩ := plain_of hpl
  obtain ⟨r, hrr, e, he, el, hn, hgs, k1, k2, -, -⟩ := structOk_spec hs
  obtain ⟨k3, k4⟩ := aloneOk_spec (H := H) hal
  have hsp := (orderly_of ho).spaces r hrr _ (Or.inl (List.mem_append_left _ (List.mem_map_of_mem (List.mem_append_left _ he))))
  rw [← hn] at hsp
  have hpub : publicName (genEnv H) { (Cli.wsdlgenMain (genEnv H) 2).xsdgen with namespaces := [b!"u"] } (defines (target r) e) = b!"Ask" := by
    rw [← hn]
    exact (by decide +kernel : publicName (genEnv []) { (Cli.wsdlgenMain (genEnv []) 2).xsdgen with namespaces := [b!"u"] } ⟨b!"u", b!"Ask"⟩ = b!"Ask")
  obtain ⟨⟨doc, d, hdecl⟩, hfields, hfuncs⟩ := C160_default_partial (genEnv H) (Sorter.byKey fun s => s) 10 2 2 20
    (fun _ => parseSchemas testEnv Xsd.inOrder roots) testEnv Xsd.inOrder roots [b!"u"] callWsdl [] schemas H rfl (typesIn_parse hx)
    (orderly_of ho) (regular_of hr) (derivable_of hd) H (genEnv_faithful H) p1 p2 p3 file (by decide : [b!"u"].Nodup) (of_decide_eq_true hf)
    (of_decide_eq_true hl) (commandFile_ok hfile) (fun p hp => of_decide_eq_true (List.all_eq_true.mp hparts p (allParts_mem hp))) r hrr
    (by rw [← hsp]; exact List.mem_singleton_self _) e he el (by rw [← hn]; exact hgs) (by rw [← hn]; decide)
    (by rw [← hn]; exact k3) (by rw [← hn]; exact k4) (by rw [hpub]; decide)
  obtain ⟨fields, hd', hfo⟩ := hfields doc d hdecl
  rw [hpub, ← hn] at hfuncs
  rw [hpub] at hdecl
  rw [← hn] at hfo
  exact ⟨r, hrr, el, doc, d, fields, hdecl, hd', k1, k2, hfo, hfuncs⟩

end GoXml.Wsdl
