import Verif.Proofs.XsdNamedCheck
import Verif.Props.XsdgenName
import Verif.Props.XsdgenRecursive
import Verif.Props.XsdgenMeaning
import Verif.Props.XsdgenListFile
import Verif.Props.WsdlgenFile
import Verif.Props.EndToEnd
set_option autoImplicit false

/-! The theorems about xsdgen and wsdlgen whose conditions speak about the types that `Parse` answers, restated with conditions
on the schemas that `Parse` is given: C96, C97, C99 to C102, C109 and C111. -/

namespace GoXml.Xsdgen
open Xsd GoMap

variable (env : Env) (srt srt' : Sorter strLt) (n k : Nat) (parse : List Doc → Outcome (List Schema × THeap)) (penv : ParseEnv)
  (ord : MapOrder) (roots : List Element) (cfg cfg' : Config) (docs : List Doc) (schemas : List Schema) (H H' : THeap) (code : Code)
  (hparse : parse docs = parseSchemas penv ord roots) (hp : parseSchemas penv ord roots = .ok (schemas, H)) (ho : Orderly roots)
include hparse hp ho

/-- C96, partial, for orderly schemas: every type that a declaration uses is predeclared or declared. The conditions that are left
are those of `C96_recursive_partial` on the ways in which types are derived. -/
theorem C96_documents_partial (hsolid : Solid cfg H) (hreach : Reachable H) (htext : TextKept H)
    (hpre : Untouched cfg H schemas) (hpost : cfg.postprocessType = none)
    (h : genCode env srt n parse cfg docs = (cfg', .done (.ok (H', code)))) : Closed (genAST srt' code).2 := by
  obtain ⟨h1, h2, h3, -⟩ := parse_orderly ho hp
  exact C96_recursive_partial env srt srt' n parse cfg cfg' docs schemas H H' code (hparse.trans hp) hsolid hreach h1 h3 htext h2 hpre hpost h

/-- C97 for orderly schemas. -/
theorem C97_documents (hpre : Untouched cfg H schemas) (h : genCode env srt n parse cfg docs = (cfg', .done (.ok (H', code))))
    (s : Schema) (hs : s ∈ schemas) (hns : s.targetNS ∈ cfg.namespaces) (q : XName) (id : Nat) (he : (q, Ty.obj id) ∈ s.types) (o : TObj)
    (hid : H[id]? = some o) (hsel : Selected cfg o.name) (hc : Worth cfg H id o) (hname : o.name.loc ≠ [] ∧ o.name.loc ≠ b!"_self") :
    ∃ doc e, GoDecl.type doc (publicName env cfg o.name) e ∈ (genAST srt' code).2 := by
  obtain ⟨h1, h2, h3, -⟩ := parse_orderly ho hp
  exact C97_declared env srt srt' n parse cfg cfg' docs schemas H H' code (hparse.trans hp) h1 h3 h2 hpre h s hs hns q id he o hid hsel hc hname

/-- C99, partial, for orderly schemas. -/
theorem C99_documents_partial (hpre : Untouched cfg H schemas) (hpost : Unaltered cfg)
    (h : genCode env srt n parse cfg docs = (cfg', .done (.ok (H', code))))
    (s : Schema) (hs : s ∈ schemas) (hns : s.targetNS ∈ cfg.namespaces) (q : XName) (id : Nat) (he : (q, Ty.obj id) ∈ s.types) (t : SimpleT)
    (ht : H[id]? = some (.simple t)) (hsel : Selected cfg t.name) (hname : t.name.loc ≠ [] ∧ t.name.loc ≠ b!"_self")
    (hhelp : ∀ k helper, get (addStandardHelpers cfg).helperTypes k = some helper → helper.name ≠ publicName env cfg t.name)
    (hone : ∀ j o, H[j]? = some o → publicName env cfg o.name = publicName env cfg t.name → j = id) (hlist : t.list = true) :
    (∃ doc d, GoDecl.type doc (publicName env cfg t.name) d ∈ (genAST srt' code).2) ∧
    ∀ doc d, GoDecl.type doc (publicName env cfg t.name) d ∈ (genAST srt' code).2 →
      ∃ b item codec m u, BuiltinUnder H (.obj id) b ∧ builtinExpr b = .ok (some item) ∧ d = .plain (.array item) ∧
        listCodec b = some codec ∧ listCode item codec = some (m, u) ∧ (b ∉ badItems → ListCompiles item m u) := by
  obtain ⟨h1, h2, h3, -⟩ := parse_orderly ho hp
  exact C99_file_partial env srt srt' n parse cfg cfg' docs schemas H H' code (hparse.trans hp) h1 h3 h2 hpre hpost h s hs hns q id he t ht hsel
    hname hhelp hone hlist

/-- C100, partial, for orderly schemas. -/
theorem C100_documents_partial (hpre : Untouched cfg H schemas) (hpost : Unaltered cfg)
    (h : genCode env srt n parse cfg docs = (cfg', .done (.ok (H', code))))
    (s : Schema) (hs : s ∈ schemas) (hns : s.targetNS ∈ cfg.namespaces) (q : XName) (id : Nat) (he : (q, Ty.obj id) ∈ s.types) (t : SimpleT)
    (ht : H[id]? = some (.simple t)) (hsel : Selected cfg t.name) (hname : t.name.loc ≠ [] ∧ t.name.loc ≠ b!"_self")
    (hhelp : ∀ k helper, get (addStandardHelpers cfg).helperTypes k = some helper → helper.name ≠ publicName env cfg t.name)
    (hone : ∀ j o, H[j]? = some o → publicName env cfg o.name = publicName env cfg t.name → j = id) (hlist : t.list = true) :
    (∃ doc d, GoDecl.type doc (publicName env cfg t.name) d ∈ (genAST srt' code).2) ∧
    ∀ doc d, GoDecl.type doc (publicName env cfg t.name) d ∈ (genAST srt' code).2 →
      ∃ b item, Below H id b ∧ exprOf env cfg H b = .ok item ∧ d = .plain (.array item) := by
  obtain ⟨h1, h2, h3, -⟩ := parse_orderly ho hp
  exact C100_slice_partial env srt srt' n parse cfg cfg' docs schemas H H' code (hparse.trans hp) h1 h3 h2 hpre hpost h s hs hns q id he t ht hsel
    hname hhelp hone hlist

/-- C101, partial, for orderly and regular schemas: the only other condition is that complex types derived from simple ones have
attributes. -/
theorem C101_documents_partial (hr : Regular roots) (hattr : Attributed cfg H) (hpre : Untouched cfg H schemas)
    (h : genCode env srt n parse cfg docs = (cfg', .done (.ok (H', code))))
    (s : Schema) (hs : s ∈ schemas) (hns : s.targetNS ∈ cfg.namespaces) (id : Nat) (o : TObj) (he : (o.name, Ty.obj id) ∈ s.types)
    (hid : H[id]? = some o) (hsel : Selected cfg o.name) (hname : o.name.loc ≠ [] ∧ o.name.loc ≠ b!"_self") :
    ∃ text, Usable (genAST srt' code).2 text ∧ ∀ H1 code1 r, AfterCalls env cfg' n k H' code H1 code1 →
      nameOf env cfg' n k H1 code1 o.name = .ok r → r.2.2 = text := by
  obtain ⟨h1, h2, h3, h4, h5, -⟩ := parse_orderly ho hp
  obtain ⟨h6, h7, -⟩ := parse_regular ho hr hp
  exact C101_usable_partial env srt srt' n k parse cfg cfg' docs schemas H H' code (hparse.trans hp) h1 h2 h6 h7 hattr h3 h5 h4 hpre h s hs hns id o
    he hid hsel hname

/-- C102, partial, for orderly and regular schemas. -/
theorem C102_documents_partial (hr : Regular roots) (hattr : Attributed cfg H) (hpre : Untouched cfg H schemas)
    (h : genCode env srt n parse cfg docs = (cfg', .done (.ok (H', code)))) (q : XName)
    (hq : (∃ b : Builtin, 0 ≤ b ∧ b < 50 ∧ builtinName b = q ∧ q.space = schemaNS) ∨
      ∃ s ∈ schemas, s.targetNS ∈ cfg.namespaces ∧ Selected cfg q ∧ q.loc ≠ [] ∧ q.loc ≠ b!"_self" ∧ ∃ id o, (q, Ty.obj id) ∈ s.types ∧ H[id]? = some o ∧ o.name = q)
    (H1 H2 : THeap) (code1 code2 : Code) (ha1 : AfterCalls env cfg' n k H' code H1 code1) (ha2 : AfterCalls env cfg' n k H' code H2 code2)
    (r1 r2 : THeap × Code × Str) (hn1 : nameOf env cfg' n k H1 code1 q = .ok r1) (hn2 : nameOf env cfg' n k H2 code2 q = .ok r2) :
    r1.2.2 = r2.2.2 := by
  obtain ⟨h1, h2, h3, h4, h5, -⟩ := parse_orderly ho hp
  obtain ⟨h6, h7, -⟩ := parse_regular ho hr hp
  exact C102_stable_partial env srt n k parse cfg cfg' docs schemas H H' code (hparse.trans hp) h1 h2 h6 h7 hattr h3 h5 h4 hpre h q hq H1 H2 code1 code2
    ha1 ha2 r1 r2 hn1 hn2

end GoXml.Xsdgen

namespace GoXml.Wsdl
open Xsd Xsdgen

variable (env : Env) (srt : Sorter strLt) (n k : Nat) (parse : List Xsdgen.Doc → Outcome (List Schema × THeap)) (penv : ParseEnv)
  (ord : MapOrder) (roots : List Element) (cfg : Xsdgen.Config) (gcfg : GenConfig) (root : Element) (docs : List Xsdgen.Doc) (schemas : List Schema)
  (H : THeap) (file : File)
  (hparse : parse (some root :: docs) = parseSchemas penv ord roots) (hp : parseSchemas penv ord roots = .ok (schemas, H)) (ho : Orderly roots)
  (hr : Regular roots)
include hparse hp ho hr

/-- C109, partial, for orderly and regular schemas. -/
theorem C109_documents_partial (hattr : Attributed cfg H) (hpre : Untouched cfg H schemas)
    (hparts : ∀ p, InOperation (Wsdl.parse root) p → Refers (genCode env srt n parse cfg (some root :: docs)).1 schemas H p)
    (hnamed : ∀ q m, (Wsdl.parse root).message.get q = some m → m.name.loc ≠ [])
    (hwrap : ∀ q m, (Wsdl.parse root).message.get q = some m → (m.parts.length : Int) > gcfg.maxArgs → title m.name.loc = m.name.loc)
    (h : genFile env srt n k parse cfg gcfg (some root :: docs) = .ok file) :
    ∀ g ∈ file.funcs, (∀ t ∈ g.2.results, t = b!"error" ∨ Known file g.2 t) ∧ (∀ decl ∈ g.2.decls, ∀ f ∈ decl.2, Known file g.2 f.2) ∧
      ∀ x ∈ g.2.params.tail, ∃ v t, x = v ++ b!" " ++ t ∧ Known file g.2 t := by
  obtain ⟨h1, h2, h3, h4, h5, h8⟩ := parse_orderly ho hp
  obtain ⟨h6, h7, h9, -⟩ := parse_regular ho hr hp
  exact C109_types_partial env srt n k parse cfg gcfg root docs schemas H file (hparse.trans hp) h1 h2 h6 h7 hattr h3 h5 h8 h4 hpre h9 hparts hnamed
    hwrap h

/-- C111, partial, for orderly and regular schemas. -/
theorem C111_documents_partial (hattr : Attributed cfg H) (hpre : Untouched cfg H schemas)
    (hparts : ∀ p, InOperation (Wsdl.parse root) p → Refers (genCode env srt n parse cfg (some root :: docs)).1 schemas H p)
    (h : genFile env srt n k parse cfg gcfg (some root :: docs) = .ok file) (g : Str × FuncDecl) (hg : g ∈ file.funcs)
    (x : Builtin × Str × Str) (hx : x ∈ privateTypes) :
    (∀ input, (Wsdl.parse root).message.get g.2.op.input = some input → ∀ (i : Nat) p, input.parts[i]? = some p → p.type = builtinName x.1 →
      (∃ f tag v, g.2.body.sent[i]? = some (f, x.2.2, tag, v)) ∧
      ((input.parts.length : Int) ≤ gcfg.maxArgs → ∃ v, g.2.params.tail[i]? = some (v ++ b!" " ++ x.2.2))) ∧
    (∀ output, (Wsdl.parse root).message.get g.2.op.output = some output → ∀ (i : Nat) p, output.parts[i]? = some p → p.type = builtinName x.1 →
      (∃ f tag, g.2.body.received[i]? = some (f, x.2.2, tag)) ∧
      ((output.parts.length : Int) ≤ gcfg.maxReturns → g.2.results[i]? = some x.2.2)) := by
  obtain ⟨h1, h2, h3, h4, h5, h8⟩ := parse_orderly ho hp
  obtain ⟨h6, h7, h9, -⟩ := parse_regular ho hr hp
  exact C111_public_partial env srt n k parse cfg gcfg root docs schemas H file (hparse.trans hp) h1 h2 h6 h7 hattr h3 h5 h8 h4 hpre h9 hparts h g hg
    x hx

end GoXml.Wsdl

namespace GoXml.Xsdgen
open Xsd GoMap

/-! ### Schemas that meet the conditions -/

/-- A schema with top-level elements, an anonymous type, a type that uses itself, a list, a union and a restriction. -/
def ordersDoc : Str :=
  b!"<xs:schema xmlns:xs=\"http://www.w3.org/2001/XMLSchema\" xmlns:u=\"urn:u\" xmlns:v=\"urn:v\" targetNamespace=\"urn:u\">" ++
  b!"<xs:import namespace=\"urn:v\"/>" ++
  b!"<xs:element name=\"order\" type=\"u:Order\"/>" ++
  b!"<xs:element name=\"note\"><xs:complexType><xs:sequence><xs:element name=\"text\" type=\"xs:string\"/>" ++
  b!"</xs:sequence></xs:complexType></xs:element>" ++
  b!"<xs:complexType name=\"Order\"><xs:sequence><xs:element name=\"part\" type=\"u:Order\" minOccurs=\"0\"/>" ++
  b!"<xs:element name=\"sizes\" type=\"u:Sizes\"/><xs:element ref=\"u:note\"/></xs:sequence>" ++
  b!"<xs:attribute name=\"state\" type=\"v:State\"/></xs:complexType>" ++
  b!"<xs:simpleType name=\"Sizes\"><xs:list itemType=\"xs:int\"/></xs:simpleType>" ++
  b!"</xs:schema>"

def statesDoc : Str :=
  b!"<xs:schema xmlns:xs=\"http://www.w3.org/2001/XMLSchema\" xmlns=\"urn:v\" targetNamespace=\"urn:v\">" ++
  b!"<xs:simpleType name=\"State\"><xs:restriction base=\"xs:token\"><xs:enumeration value=\"open\"/>" ++
  b!"<xs:enumeration value=\"closed\"/></xs:restriction></xs:simpleType>" ++
  b!"<xs:simpleType name=\"Either\"><xs:union memberTypes=\"State xs:int\"/></xs:simpleType>" ++
  b!"<xs:complexType name=\"Price\"><xs:simpleContent><xs:extension base=\"Either\">" ++
  b!"<xs:attribute name=\"currency\" type=\"xs:string\"/></xs:extension></xs:simpleContent></xs:complexType>" ++
  b!"<xs:element name=\"price\" type=\"Price\"/>" ++
  b!"</xs:schema>"

/-- The schemas after `Normalize`. -/
def ordersRoots : Option (List Element) := (parseDocs [ordersDoc, statesDoc]).bind (normalize doubling 40)

def ordersConfig : Config := { namespaces := [b!"urn:u", b!"urn:v"] }

def ordersTypes : Option (List Element × List Schema × THeap) := ordersRoots.bind fun roots =>
  match parseSchemas testEnv Xsd.inOrder roots with
  | .ok r => some (roots, r)
  | _ => none

/-- The schemas meet the conditions on schemas, and their complex types that are derived from simple ones have attributes. -/
example : ∃ roots schemas H, ordersRoots = some roots ∧ Orderly roots ∧ Regular roots ∧
    parseSchemas testEnv Xsd.inOrder roots = .ok (schemas, H) ∧ Attributed ordersConfig H ∧ schemas.length = 3 ∧ H.length = 8 := by
  have : ordersTypes.map (fun (x : List Element × List Schema × THeap) => orderlyOk x.1 && regularOk x.1 &&
      decide (∀ id ∈ List.range x.2.2.length, (∀ b ∈ ((baseOf x.2.2 (.obj id)).bind objId).toList, decide (b ∈ [2, 4, 5, 6]) = true →
      decide (id ∈ [2, 4, 5, 6]) = true) ∧ attrOk (decide (id ∈ [2, 4, 5, 6])) x.2.2[id]? = true) &&
      decide (x.2.1.length = 3 ∧ x.2.2.length = 8)) = some true := by decide +kernel
  obtain ⟨⟨roots, schemas, H⟩, hx, h⟩ := Option.map_eq_some_iff.mp this
  rw [Bool.and_eq_true, Bool.and_eq_true, Bool.and_eq_true, decide_eq_true_iff, decide_eq_true_iff] at h
  obtain ⟨⟨⟨ho, hr⟩, ha⟩, hl⟩ := h
  cases hroots : ordersRoots with
  | none => rw [ordersTypes, hroots] at hx; cases hx
  | some roots' =>
    rw [ordersTypes, hroots] at hx
    dsimp only [Option.bind_some] at hx
    cases hp : parseSchemas testEnv Xsd.inOrder roots' with
    | ok r =>
      rw [hp] at hx
      cases hx
      exact ⟨_, schemas, H, rfl, orderly_of ho, regular_of hr, hp, attributed_of rfl _ ha, hl⟩
    | _ => rw [hp] at hx; cases hx

/-- A schema that is small enough to generate code for it in the kernel. -/
def sizesDoc : Str :=
  b!"<xs:schema xmlns:xs=\"http://www.w3.org/2001/XMLSchema\" xmlns=\"urn:u\" targetNamespace=\"urn:u\">" ++
  b!"<xs:element name=\"s\" type=\"Sizes\"/><xs:simpleType name=\"Sizes\"><xs:list itemType=\"xs:int\"/></xs:simpleType></xs:schema>"

def sizesRoots : Option (List Element) := (parseDocs [sizesDoc]).bind (normalize doubling 40)

def sizesDecls : Option (List Str) := sizesRoots.bind fun roots =>
  match genCode asciiEnv (Sorter.byKey fun s => s) 10 (fun _ => parseSchemas testEnv Xsd.inOrder roots) { namespaces := [b!"urn:u"] } [] with
  | (_, .done (.ok r)) => some ((declaredExprs (genAST (Sorter.byKey fun s => s) r.2).2).map (·.1))
  | _ => none

/-- The schema is orderly and regular, and the generated code declares the list. -/
example : sizesRoots.map (fun roots => orderlyOk roots && regularOk roots) = some true ∧ sizesDecls = some [b!"Sizes"] := by
  decide +kernel

end GoXml.Xsdgen
