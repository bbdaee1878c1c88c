import Verif.Proofs.WsdlgenFile
import Verif.Proofs.XsdgenCheck
import Verif.Props.WsdlGen
import Verif.Props.Wsdl
import Verif.Props.XsdgenName
set_option autoImplicit false
set_option synthInstance.maxSize 1000

/-! Properties C109-C111: the file that wsdlgen generates. -/

namespace GoXml.Wsdl
open Xsd Xsdgen GoMap

theorem portDecls_mem {cfg : GenConfig} {code : Code} {d : Definition} {port : Port} {ops : List Operation}
    {fs : List FuncDecl} (h : portDecls cfg code d port ops = some fs) : ∀ f ∈ fs, ∃ op ∈ ops, operation cfg code d port op = some f := by
  induction ops generalizing fs with
  | nil => cases h; exact fun f hf => (by cases hf)
  | cons o ops ih =>
    simp only [portDecls] at h
    split at h
    · rename_i f fs' h1 h2
      cases h
      intro g hg
      rcases List.mem_cons.mp hg with rfl | hg
      · exact ⟨o, List.mem_cons_self, h1⟩
      · obtain ⟨op, ho, he⟩ := ih h2 g hg
        exact ⟨op, List.mem_cons_of_mem _ ho, he⟩
    · cases h

theorem genLoop_mem {cfg : GenConfig} {code : Code} {d : Definition} {ps : List Port}
    {fs : List FuncDecl} (h : genLoop cfg code d ps = some fs) :
    ∀ f ∈ fs, ∃ port ∈ ps, ∃ op ∈ port.operations, operation cfg code d port op = some f := by
  induction ps generalizing fs with
  | nil => cases h; exact fun f hf => (by cases hf)
  | cons p ps ih =>
    simp only [genLoop] at h
    split at h
    · rename_i f fs' h1 h2
      cases h
      intro g hg
      rcases List.mem_append.mp hg with hg | hg
      · obtain ⟨op, ho, he⟩ := portDecls_mem h1 g hg
        exact ⟨p, List.mem_cons_self, op, ho, he⟩
      · obtain ⟨q, hq, he⟩ := ih h2 g hg
        exact ⟨q, List.mem_cons_of_mem _ hq, he⟩
    · cases h

/-- What users see instead of a type that can be used can be used. -/
theorem shown_usable {ds : List GoDecl} {t : Str} (h : Usable ds t) : Usable ds (shown t) := by
  unfold shown
  cases hf : hiddenTypes.find? fun e => decide (e.1 = t) with
  | none => exact h
  | some e =>
    have hm := List.mem_of_find?_eq_some hf
    have : ∀ e ∈ hiddenTypes, e.2 = exprText (.ident b!"time.Time") ∨ e.2 = exprText (.array (.ident b!"byte")) ∨
        e.2 = exprText (.array (.ident b!"string")) := by decide
    simp only [Option.map_some, Option.getD_some]
    rcases this e hm with h | h | h <;> rw [h] <;> exact ⟨_, rfl, Or.inl (by decide)⟩

theorem haveTypes_mem {code : Code} {ps : List Part} {ts : List Str} (h : HaveTypes code ps ts) : ∀ t ∈ ts, ∃ p ∈ ps, HasType code p t := by
  induction h with
  | nil => exact fun t ht => (by cases ht)
  | cons h _ ih =>
    intro t ht
    rcases List.mem_cons.mp ht with rfl | ht
    · exact ⟨_, List.mem_cons_self, h⟩
    · obtain ⟨p, hp, hh⟩ := ih t ht
      exact ⟨p, List.mem_cons_of_mem _ hp, hh⟩

/-! ### C109 -/

/-- C109, for documents whose parts refer to types that code is generated for: every type that a generated function
mentions exists. The parameters are texts of a name and a type. Missing: types of other namespaces, complex types
derived from simple ones without attributes, and wrapper types whose names are not titles, for which it is refuted
below; schemas in which a type refers to a document type, which the parser never makes. -/
theorem C109_types_partial (env : Env) (srt : Sorter strLt) (n k : Nat) (parse : List Doc → Outcome (List Schema × THeap))
    (cfg : Xsdgen.Config) (gcfg : GenConfig) (root : Element) (docs : List Doc) (schemas : List Schema) (H : THeap) (file : File)
    (hp : parse (some root :: docs) = .ok (schemas, H))
    (hres : Resolved H) (hown : OwnNames H) (hbased : Based H) (hsb : SchemaBased H) (hattr : Attributed cfg H)
    (htop : ∀ s ∈ schemas, ∀ e ∈ s.types, ∀ m, e.2 ≠ .link m) (hkeys : Keyed schemas H)
    (hself : DocsKeyed schemas H)
    (hone : ∀ s ∈ schemas, ∀ s' ∈ schemas, ∀ k t t', (k, t) ∈ s.types → (k, t') ∈ s'.types → t = t')
    (hpre : Untouched cfg H schemas)
    (hquiet : ∀ s ∈ schemas, ∀ ns id, (⟨ns, b!"_self"⟩, Ty.obj id) ∈ s.types → ∀ (j : Nat) o, H[j]? = some o → ¬ Mentions o (.obj id))
    (hparts : ∀ p, InOperation (Wsdl.parse root) p → Refers (genCode env srt n parse cfg (some root :: docs)).1 schemas H p)
    (hnamed : ∀ q m, (Wsdl.parse root).message.get q = some m → m.name.loc ≠ [])
    (hwrap : ∀ q m, (Wsdl.parse root).message.get q = some m → (m.parts.length : Int) > gcfg.maxArgs → title m.name.loc = m.name.loc)
    (h : genFile env srt n k parse cfg gcfg (some root :: docs) = .ok file) :
    ∀ g ∈ file.funcs, (∀ t ∈ g.2.results, t = b!"error" ∨ Known file g.2 t) ∧ (∀ decl ∈ g.2.decls, ∀ f ∈ decl.2, Known file g.2 f.2) ∧
      ∀ x ∈ g.2.params.tail, ∃ v t, x = v ++ b!" " ++ t ∧ Known file g.2 t := by
  unfold genFile at h
  dsimp only at h
  split at h
  · rename_i cfg' r hr
    obtain ⟨c, rfl, hb⟩ := bind_ok h
    obtain ⟨q, hq, hfile⟩ := bind_ok hb
    cases hfile
    rw [hr] at hparts
    obtain ⟨code, h1, h2, -⟩ := portsIn_code (srt' := srt) hp hres hown hbased hsb hattr htop hkeys hself hone hpre hquiet hr gcfg (Wsdl.parse root) hparts hq
    dsimp only
    intro g hg
    obtain ⟨port, hport, op, hop, hf⟩ := genLoop_mem h1 g.2 (List.mem_map.mpr ⟨g, hg, rfl⟩)
    obtain ⟨input, output, a, hi, ho, ha, hgf⟩ := operation_some hf
    obtain ⟨its, ots, t1, t2, e1, e2, e3, e4, e5, e6, e7, -⟩ := opArgs_some ha
    have hin : ∀ t ∈ its, Usable (Xsdgen.genAST srt c.2).2 (shown t) := by
      intro t ht
      obtain ⟨p, hp, hh⟩ := haveTypes_mem t1 t ht
      exact shown_usable (h2 p ⟨port, hport, op, hop, input, Or.inl hi, hp⟩ t hh)
    have hout : ∀ t ∈ ots, Usable (Xsdgen.genAST srt c.2).2 (shown t) := by
      intro t ht
      obtain ⟨p, hp, hh⟩ := haveTypes_mem t2 t ht
      exact shown_usable (h2 p ⟨port, hport, op, hop, output, Or.inr ho, hp⟩ t hh)
    have hzip : ∀ (ps : List Part) (ts : List Str) (f : Str × Str), f ∈ ((ps.zip ts).map fun pt => (title pt.1.name, shown pt.2)) →
        ∃ t ∈ ts, f.2 = shown t := by
      intro ps ts f hf
      obtain ⟨pt, hpt, rfl⟩ := List.mem_map.mp hf
      exact ⟨pt.2, (List.of_mem_zip (a := pt.1) (b := pt.2) hpt).2, rfl⟩
    have hd : g.2.decls = wrapperDecls a := by rw [hgf]
    refine ⟨?_, ?_, ?_⟩
    · intro t ht
      rw [hgf] at ht
      simp only [e2] at ht
      rcases List.mem_append.mp ht with ht | ht
      · right
        split at ht
        · rename_i hlt
          right
          rw [hd]
          have ht := List.mem_singleton.mp ht
          have hne : a.returnType ≠ [] := by
            rw [e4, if_pos hlt]
            have := hnamed _ _ ho
            cases hn : output.name.loc with
            | nil => exact absurd hn this
            | cons c s => simp [title, titleLoop]
          rw [ht, wrapperDecls, if_pos hne, e4, if_pos hlt]
          simp
        · obtain ⟨u, hu, rfl⟩ := List.mem_map.mp ht
          exact Or.inl (hout u hu)
      · exact Or.inl (List.mem_singleton.mp ht)
    · intro decl hdecl f hfm
      rw [hd] at hdecl
      left
      rcases List.mem_append.mp hdecl with hdecl | hdecl
      · split at hdecl
        · rw [List.mem_singleton.mp hdecl] at hfm
          simp only [e5] at hfm
          obtain ⟨t, ht, he⟩ := hzip _ _ _ hfm
          rw [he]; exact hin t ht
        · cases hdecl
      · split at hdecl
        · rw [List.mem_singleton.mp hdecl] at hfm
          simp only [e7] at hfm
          split at hfm
          · obtain ⟨t, ht, he⟩ := hzip _ _ _ hfm
            rw [he]; exact hout t ht
          · cases hfm
        · cases hdecl
    · intro x hx
      rw [hgf] at hx
      simp only [List.tail_cons, e1] at hx
      split at hx
      · rename_i hlt
        refine ⟨b!"v", input.name.loc, List.mem_singleton.mp hx, Or.inr ?_⟩
        have htl := hwrap _ _ hi hlt
        have hne : a.inputType ≠ [] := by
          rw [e3, if_pos hlt, htl]
          exact hnamed _ _ hi
        rw [hd, wrapperDecls, if_pos hne, e3, if_pos hlt, htl]
        simp
      · obtain ⟨pt, hpt, rfl⟩ := List.mem_map.mp hx
        exact ⟨_, _, rfl, Or.inl (hin pt.2 (List.of_mem_zip (a := pt.1) (b := pt.2) hpt).2)⟩
  · cases h

/-- Types with the elements e, f and g of namespace u. -/
abbrev C109_heap : THeap := C101_heap

def fileScope : Scope := [⟨b!"urn:t", b!"t"⟩, ⟨b!"u", b!"u"⟩, ⟨b!"v", b!"v"⟩, ⟨schemaNS, b!"x"⟩, ⟨nsWsdl, []⟩]

def fe (loc : Str) (attrs : List (Str × Str)) (cs : List Element) : Element :=
  .mk ⟨nsWsdl, loc⟩ (attrs.map fun a => ⟨⟨[], a.1⟩, a.2⟩) fileScope [] cs

/-- A document with two messages, whose parts are given by name, attribute and value, the operations of the port type P
(name, input, output), and ports that are bound to P. -/
def fileDoc (ins outs : List (Str × Str × Str)) (ops : List (Str × Str × Str)) (ports : List Str) : Element :=
  let parts (l : List (Str × Str × Str)) := l.map fun p => fe b!"part" [(b!"name", p.1), (p.2.1, p.2.2)] []
  fe b!"definitions" [(b!"targetNamespace", b!"urn:t")] [
    fe b!"message" [(b!"name", b!"In")] (parts ins),
    fe b!"message" [(b!"name", b!"Out")] (parts outs),
    fe b!"portType" [(b!"name", b!"P")] (ops.map fun o => fe b!"operation" [(b!"name", o.1)]
      [fe b!"input" [(b!"message", o.2.1)] [], fe b!"output" [(b!"message", o.2.2)] []]),
    fe b!"binding" [(b!"name", b!"B"), (b!"type", b!"t:P")] [],
    fe b!"service" [(b!"name", b!"S")] (ports.map fun p => fe b!"port" [(b!"name", p), (b!"binding", b!"t:B")] [])]

def C109_doc : Element := fileDoc [(b!"a", b!"type", b!"u:c"), (b!"b", b!"element", b!"u:f"), (b!"day", b!"type", b!"x:date")]
  [(b!"r", b!"element", b!"u:e"), (b!"s", b!"type", b!"u:l")] [(b!"get", b!"t:In", b!"t:Out")] [b!"Q"]

/-- The file made from a document and types. -/
def fileOf (gcfg : GenConfig) (root : Element) (H : THeap) : Option File :=
  (genFile asciiEnv (Sorter.byKey fun s => s) 20 3 (C101_parse H) C101_cfg gcfg [some root]).toOption

/-- The parts of the messages of all operations. -/
def allParts (d : Definition) : List Part := d.ports.flatMap fun p => p.operations.flatMap fun o =>
  ((d.message.get o.input).toList ++ (d.message.get o.output).toList).flatMap (·.parts)

theorem allParts_mem {d : Definition} {p : Part} (h : InOperation d p) : p ∈ allParts d := by
  obtain ⟨port, hp, op, ho, m, hm, hpm⟩ := h
  refine List.mem_flatMap.mpr ⟨port, hp, List.mem_flatMap.mpr ⟨op, ho, List.mem_flatMap.mpr ⟨m, ?_, hpm⟩⟩⟩
  rcases hm with hm | hm <;> simp [hm]

/-- The document and the types meet the conditions, and two functions that are made from them. -/
example :
    Resolved C109_heap ∧ OwnNames C109_heap ∧ Based C109_heap ∧ SchemaBased C109_heap ∧ Attributed C101_cfg C109_heap ∧
    C101_parse C109_heap [some C109_doc] = .ok (C101_schemas C109_heap, C109_heap) ∧
    (∀ s ∈ C101_schemas C109_heap, ∀ e ∈ s.types, ∀ m, e.2 ≠ .link m) ∧
    Keyed (C101_schemas C109_heap) C109_heap ∧ DocsKeyed (C101_schemas C109_heap) C109_heap ∧
    (∀ s ∈ C101_schemas C109_heap, ∀ s' ∈ C101_schemas C109_heap, ∀ k t t', (k, t) ∈ s.types → (k, t') ∈ s'.types → t = t') ∧
    (∀ s ∈ C101_schemas C109_heap, ∀ ns id, (⟨ns, b!"_self"⟩, Ty.obj id) ∈ s.types → ∀ (j : Nat) o, C109_heap[j]? = some o → ¬ Mentions o (.obj id)) ∧
    (∀ p, InOperation (Wsdl.parse C109_doc) p →
      Refers (genCode asciiEnv (Sorter.byKey fun s => s) 20 (C101_parse C109_heap) C101_cfg [some C109_doc]).1 (C101_schemas C109_heap) C109_heap p) ∧
    (fileOf ⟨none, 5, 5⟩ C109_doc C109_heap).map (fun f => f.funcs.map fun g => g.2.params) =
      some [[b!"ctx context.Context", b!"a C", b!"b string", b!"day time.Time"]] ∧
    (fileOf ⟨none, 5, 5⟩ C109_doc C109_heap).map (fun f => f.funcs.map fun g => g.2.results) = some [[b!"C", b!"L", b!"error"]] ∧
    (fileOf ⟨none, 2, 1⟩ C109_doc C109_heap).map (fun f => f.funcs.map fun g => g.2.params) = some [[b!"ctx context.Context", b!"v In"]] ∧
    (fileOf ⟨none, 2, 1⟩ C109_doc C109_heap).map (fun f => f.funcs.map fun g => g.2.decls) =
      some [[(b!"In", [(b!"A", b!"C"), (b!"B", b!"string"), (b!"Day", b!"time.Time")]), (b!"Out", [(b!"R", b!"C"), (b!"S", b!"L")])]] := by
  refine ⟨resolved_of (by decide +kernel), ownNames_of (by decide +kernel), based_of (by decide +kernel), schemaBased_of (by decide +kernel),
    attributed_of rfl (fun id => id < 5) (by decide +kernel), rfl, ?_, ?_, ?_, ?_, ?_, ?_, by decide +kernel, by decide +kernel,
    by decide +kernel, by decide +kernel⟩
  · intro s hs e he m hm
    have : ∀ s ∈ C101_schemas C109_heap, ∀ e ∈ s.types, isLink e.2 = false := by decide +kernel
    have := this s hs e he
    rw [hm] at this
    cases this
  · exact keyed_of (by decide +kernel)
  · have : ∀ s ∈ C101_schemas C109_heap, ∀ e ∈ s.types, e.1.loc = b!"_self" ∨ (xmlName C109_heap e.2).loc = b!"_self" → xmlName C109_heap e.2 = e.1 := by
      decide +kernel
    exact this
  · have : ∀ s ∈ C101_schemas C109_heap, ∀ s' ∈ C101_schemas C109_heap,
        ∀ e ∈ s.types, ∀ e' ∈ s'.types, e.1 = e'.1 → e.2 = e'.2 := by decide +kernel
    exact fun s hs s' hs' k t t' h h' => this s hs s' hs' _ h _ h' rfl
  · intro s hs ns id he j o ho hm
    have h1 : ∀ s ∈ C101_schemas C109_heap, ∀ e ∈ s.types, e.1.loc = b!"_self" → e.2 = .obj 7 := by decide +kernel
    have h2 : ∀ o ∈ C109_heap, (match o with
        | .simple s => decide (s.base ≠ some (.obj 7))
        | .complex c => decide (c.base ≠ some (.obj 7)) && c.elements.all (fun e => decide (e.type ≠ .obj 7)) &&
            c.attributes.all (fun a => decide (a.type ≠ .obj 7))) = true := by decide +kernel
    cases h1 s hs _ he rfl
    have h2 := h2 o (List.mem_of_getElem? ho)
    cases o with
    | simple s => exact of_decide_eq_true h2 hm
    | complex c =>
      simp only [Bool.and_eq_true, List.all_eq_true, decide_eq_true_eq] at h2
      rcases hm with hm | ⟨e, he, hm⟩ | ⟨a, ha, hm⟩
      · exact h2.1.1 hm
      · exact h2.1.2 e he hm
      · exact h2.2 a ha hm
  · generalize hcfg : (genCode asciiEnv (Sorter.byKey fun s => s) 20 (C101_parse C109_heap) C101_cfg [some C109_doc]).1 = cfg'
    have hns : cfg'.namespaces = [b!"u"] := by rw [← hcfg]; decide +kernel
    have hsel : ∀ q, Selected cfg' q := by
      intro q
      have h1 : cfg'.allowTypes.isNone = true := by rw [← hcfg]; decide +kernel
      have h2 : cfg'.filterTypes.isNone = true := by rw [← hcfg]; decide +kernel
      refine ⟨fun m hm => ?_, fun m hm => ?_⟩
      · rw [hm] at h1; cases h1
      · rw [hm] at h2; cases h2
    have hoff : ∀ q ∈ [⟨b!"u", b!"c"⟩, ⟨b!"u", b!"t"⟩, ⟨b!"u", b!"l"⟩, builtinName 16], Offered cfg' (C101_schemas C109_heap) C109_heap q := by
      intro q hq
      simp only [List.mem_cons, List.not_mem_nil, or_false] at hq
      have typ : ∀ (q : XName) (id : Nat), (q, Ty.obj id) ∈ (((C101_schemas C109_heap).map (·.types)).headD []) → (C109_heap[id]?).map (·.name) = some q → q.loc ≠ [] → q.loc ≠ b!"_self" →
          Offered cfg' (C101_schemas C109_heap) C109_heap q := by
        intro q id h1 h2 h3 h4
        obtain ⟨o, ho, h2⟩ := Option.map_eq_some_iff.mp h2
        exact Or.inr ⟨_, List.mem_cons_self, by rw [hns]; exact List.mem_cons_self, id, o, h1, ho, h2, hsel q, h3, h4⟩
      rcases hq with rfl | rfl | rfl | rfl
      · exact typ _ 1 (by decide +kernel) (by decide) (by decide) (by decide)
      · exact typ _ 2 (by decide +kernel) (by decide) (by decide) (by decide)
      · exact typ _ 4 (by decide +kernel) (by decide) (by decide) (by decide)
      · exact Or.inl ⟨16, by decide, by decide, by decide +kernel, rfl⟩
    intro p hp
    have hp := allParts_mem hp
    have key : ∀ p ∈ allParts (Wsdl.parse C109_doc), (p.type.loc ≠ [] → p.type ∈ [⟨b!"u", b!"c"⟩, ⟨b!"u", b!"t"⟩, ⟨b!"u", b!"l"⟩, builtinName 16]) ∧
        (p.type.loc = [] → p.element.loc ≠ [] → p.element ∈ [⟨b!"u", b!"e"⟩, ⟨b!"u", b!"f"⟩]) := by decide +kernel
    obtain ⟨k1, k2⟩ := key p hp
    refine ⟨fun h => hoff _ (k1 h), ?_⟩
    intro h1 h2 t ⟨s, hs, id, c, he, hid, e, hel, hen, ht⟩
    have k3 : ∀ s ∈ C101_schemas C109_heap, ∀ e ∈ s.types, e.1.loc = b!"_self" → e.2 = .obj 7 := by decide +kernel
    have k4 := k3 s hs _ he rfl
    cases k4
    have k5 : ∀ e ∈ (match C109_heap[7]? with | some (.complex c) => c.elements | _ => []), e.name ∈ [⟨b!"u", b!"e"⟩, ⟨b!"u", b!"f"⟩] →
        xmlName C109_heap e.type ∈ [⟨b!"u", b!"c"⟩, ⟨b!"u", b!"t"⟩, ⟨b!"u", b!"l"⟩, builtinName 16] := by decide +kernel
    rw [hid] at k5
    have := k5 e hel (by rw [hen]; exact k2 h1 h2)
    rw [ht] at this
    exact hoff t this

/-- The names of the types that the declarations declare. -/
theorem usable_not {ds : List GoDecl} {t : Str} (h1 : t.head? ≠ some 0x5b) (h2 : t ∉ predeclared) (h3 : t ∉ (declaredExprs ds).map (·.1)) : ¬ Usable ds t := by
  intro hu
  rcases usable_name hu h1 with h | ⟨doc, d, h⟩
  · exact h2 h
  · exact h3 (List.mem_map.mpr ⟨(t, d), List.mem_filterMap.mpr ⟨_, h, rfl⟩, rfl⟩)

/-- C109 is false for a part whose type only renames an enumeration, and for a part whose type is in a namespace that no
code is generated for: the function answers a C, or a D, and no such type is declared. -/
theorem C109_types_refuted : ∀ x ∈ [(([.simple { name := ⟨b!"u", b!"s"⟩, base := some (.builtin 38), restriction := { enum := [b!"x", b!"y"] } },
      .complex { name := ⟨b!"u", b!"c"⟩, base := some (.obj 0), extends_ := true, mixed := true }] : THeap), b!"u:c", b!"C"), (C109_heap, b!"v:d", b!"D")],
    ∃ file g, genFile asciiEnv (Sorter.byKey fun s => s) 20 3 (C101_parse x.1) C101_cfg ⟨none, 5, 5⟩
        [some (fileDoc [] [(b!"r", b!"type", x.2.1)] [(b!"get", b!"t:In", b!"t:Out")] [b!"Q"])] = .ok file ∧
      file.funcs = [g] ∧ g.2.results = [x.2.2, b!"error"] ∧ ¬ Known file g.2 x.2.2 := by
  intro x hx
  have key : ∀ x ∈ [(([.simple { name := ⟨b!"u", b!"s"⟩, base := some (.builtin 38), restriction := { enum := [b!"x", b!"y"] } },
      .complex { name := ⟨b!"u", b!"c"⟩, base := some (.obj 0), extends_ := true, mixed := true }] : THeap), b!"u:c", b!"C"), (C109_heap, b!"v:d", b!"D")],
      (fileOf ⟨none, 5, 5⟩ (fileDoc [] [(b!"r", b!"type", x.2.1)] [(b!"get", b!"t:In", b!"t:Out")] [b!"Q"]) x.1).map (fun f =>
        (f.funcs.map (fun g => (g.2.results, g.2.decls.isEmpty)), decide (x.2.2 ∈ (declaredExprs f.types).map (·.1)))) = some ([([x.2.2, b!"error"], true)], false) ∧
      x.2.2.head? ≠ some 0x5b ∧ x.2.2 ∉ predeclared := by decide +kernel
  obtain ⟨k1, k2, k3⟩ := key x hx
  obtain ⟨file, hf, k1⟩ := Option.map_eq_some_iff.mp k1
  obtain ⟨k4, k5⟩ := Prod.mk.inj k1
  have hok : ∀ {r : Run File}, r.toOption = some file → r = .ok file := by
    intro r h
    cases r <;> cases h
    rfl
  cases hfs : file.funcs with
  | nil => rw [hfs] at k4; cases k4
  | cons g gs =>
    rw [hfs, List.map_cons] at k4
    obtain ⟨k6, k7⟩ := List.cons.inj k4
    obtain ⟨k8, k9⟩ := Prod.mk.inj k6
    refine ⟨file, g, hok hf, by rw [hfs, List.map_eq_nil_iff.mp k7], k8, ?_⟩
    rintro (h | h)
    · exact usable_not k2 k3 (by simpa using k5) h
    · rw [List.isEmpty_iff.mp k9] at h; cases h

/-! ### C110 -/

/-- C110, for documents whose operations have different Go names and whose messages with many parts are used once and
named unlike the types of the schema and those of the client: no method of `Client` and no type is declared twice. The
methods are `do` and one for every operation of every port. The full statement is without the conditions; it is refuted
below. -/
theorem C110_once_partial (env : Env) (srt : Sorter strLt) (n k : Nat) (parse : List Doc → Outcome (List Schema × THeap))
    (cfg : Xsdgen.Config) (gcfg : GenConfig) (root : Element) (docs : List Doc) (file : File)
    (h : genFile env srt n k parse cfg gcfg (some root :: docs) = .ok file) :
    let d := Wsdl.parse root
    let ops := d.ports.flatMap (·.operations)
    file.methodNames = b!"do" :: ops.map (fun op => publicName env cfg op.name) ∧
    (((ops.map fun op => publicName env cfg op.name)).Nodup → b!"do" ∉ ops.map (fun op => publicName env cfg op.name) → file.methodNames.Nodup) ∧
    ((ops.flatMap (wrapperNames gcfg d)).Nodup →
      (∀ x ∈ ops.flatMap (wrapperNames gcfg d), x ≠ b!"Client" ∧ x ≠ b!"soapEnvelope" ∧ ∀ doc e, GoDecl.type doc x e ∉ file.types) →
      (∀ doc e, GoDecl.type doc b!"Client" e ∉ file.types ∧ GoDecl.type doc b!"soapEnvelope" e ∉ file.types) → file.typeNames.Nodup) := by
  unfold genFile at h
  dsimp only at h
  split at h
  · rename_i cfg' r hr
    obtain ⟨c, rfl, hb⟩ := bind_ok h
    obtain ⟨q, hq, hfile⟩ := bind_ok hb
    cases hfile
    obtain ⟨hw, ht⟩ := genCode_after hr
    obtain ⟨k1, k2⟩ := portsIn_names _ _ q hq
    have hm : ({ types := (Xsdgen.genAST srt c.2).2, funcs := q.2 } : File).methodNames =
        b!"do" :: ((Wsdl.parse root).ports.flatMap (·.operations)).map (fun op => publicName env cfg op.name) := by
      simp only [File.methodNames, clientMethods, k1, publicName, ht]
      rfl
    refine ⟨hm, ?_, ?_⟩
    · intro h1 h2
      rw [hm]
      exact List.nodup_cons.mpr ⟨h2, h1⟩
    · intro h1 h2 h3
      dsimp only at h2 h3
      have hs := (C48_sorted srt c.2 hw).2
      have hnd : (declared (Xsdgen.genAST srt c.2).2).Nodup := hs.imp (fun {a b} hab e => by rw [e, strLt_irrefl] at hab; cases hab)
      have hmem : ∀ x, x ∈ declared (Xsdgen.genAST srt c.2).2 → ∃ doc e, GoDecl.type doc x e ∈ (Xsdgen.genAST srt c.2).2 := by
        intro x hx
        obtain ⟨d, hd, he⟩ := List.mem_filterMap.mp hx
        cases d with
        | type doc n e => cases he; exact ⟨doc, e, hd⟩
        | func f => cases he
      show (declared (Xsdgen.genAST srt c.2).2 ++ clientTypes ++ q.2.flatMap fun g => g.2.decls.map (·.1)).Nodup
      rw [k2, List.nodup_append, List.nodup_append]
      refine ⟨⟨hnd, by decide, ?_⟩, h1, ?_⟩
      · intro a ha b hb hab
        subst hab
        obtain ⟨doc, e, he⟩ := hmem _ ha
        simp only [clientTypes, List.mem_cons, List.not_mem_nil, or_false] at hb
        rcases hb with rfl | rfl
        · exact (h3 doc e).1 he
        · exact (h3 doc e).2 he
      · intro a ha b hb hab
        subst hab
        obtain ⟨e1, e2, e3⟩ := h2 _ hb
        rcases List.mem_append.mp ha with ha | ha
        · obtain ⟨doc, e, he⟩ := hmem _ ha
          exact e3 doc e he
        · simp only [clientTypes, List.mem_cons, List.not_mem_nil, or_false] at ha
          rcases ha with ha | ha
          · exact e1 ha
          · exact e2 ha
  · cases h

/-- A file in which wrapper types are declared, and everything once. -/
example : (fileOf ⟨none, 2, 1⟩ C109_doc C109_heap).map (fun f => f.typeNames) =
      some [b!"C", b!"Day", b!"L", b!"S", b!"xsdDate", b!"Client", b!"soapEnvelope", b!"In", b!"Out"] ∧
    (fileOf ⟨none, 2, 1⟩ C109_doc C109_heap).map (fun f => f.methodNames) = some [b!"do", b!"Get"] ∧
    ((Wsdl.parse C109_doc).ports.flatMap (·.operations)).flatMap (wrapperNames ⟨none, 2, 1⟩ (Wsdl.parse C109_doc)) = [b!"In", b!"Out"] := by
  decide +kernel

/-- C110 is false for the methods: a service with two ports for the same port type, as for SOAP 1.1 and 1.2, has every
method twice. It is false for the types: a message that two operations use is declared twice, and so is a type of the
schema that is named client. -/
theorem C110_once_refuted :
    (fileOf ⟨none, 5, 5⟩ (fileDoc [] [] [(b!"get", b!"t:In", b!"t:Out")] [b!"Soap11", b!"Soap12"]) C109_heap).map (fun f => f.methodNames) =
      some [b!"do", b!"Get", b!"Get"] ∧
    (fileOf ⟨none, 1, 5⟩ (fileDoc [(b!"a", b!"type", b!"u:c"), (b!"b", b!"type", b!"u:c")] []
        [(b!"get", b!"t:In", b!"t:Out"), (b!"put", b!"t:In", b!"t:Out")] [b!"Q"]) C109_heap).map (fun f => f.typeNames) =
      some [b!"C", b!"Day", b!"L", b!"S", b!"xsdDate", b!"Client", b!"soapEnvelope", b!"In", b!"In"] ∧
    (fileOf ⟨none, 5, 5⟩ (fileDoc [] [] [(b!"get", b!"t:In", b!"t:Out")] [b!"Q"]) [.complex { name := ⟨b!"u", b!"client"⟩, base := some (.builtin AnyType) }]).map
        (fun f => f.typeNames) =
      some [b!"Client", b!"Client", b!"soapEnvelope"] := by
  decide +kernel

/-! ### C111 -/

theorem privateTypes_expr : ∀ x ∈ privateTypes, ∃ e, 0 ≤ x.1 ∧ x.1 < 50 ∧ (builtinName x.1).space = schemaNS ∧ (builtinName x.1).loc ≠ [] ∧
    builtinExpr x.1 = .ok (some e) ∧ exprText e = x.2.2 ∧ shown x.2.2 = x.2.2 ∧ x.2.1 ≠ x.2.2 ∧ b!"xsd" ++ builtinString x.1 = x.2.1 := by
  intro x hx
  simp only [privateTypes, List.mem_cons, List.not_mem_nil, or_false] at hx
  rcases hx with rfl | rfl | rfl | rfl | rfl | rfl | rfl | rfl | rfl | rfl <;>
    first
    | exact ⟨.ident b!"time.Time", by decide, by decide, by decide +kernel, by decide +kernel, rfl, by decide, by decide, by decide, by decide +kernel⟩
    | exact ⟨.array (.ident b!"byte"), by decide, by decide, by decide +kernel, by decide +kernel, rfl, by decide, by decide, by decide, by decide +kernel⟩

/-- C111, the half that holds: for a part whose type is a date or binary data, the type that users see is the one that
package time has or a slice of bytes, and that is also the type of the field that is sent or received. Missing: the field should
have the private type, which writes the text that XML Schema asks for; refuted below. -/
theorem C111_public_partial (env : Env) (srt : Sorter strLt) (n k : Nat) (parse : List Doc → Outcome (List Schema × THeap))
    (cfg : Xsdgen.Config) (gcfg : GenConfig) (root : Element) (docs : List Doc) (schemas : List Schema) (H : THeap) (file : File)
    (hp : parse (some root :: docs) = .ok (schemas, H))
    (hres : Resolved H) (hown : OwnNames H) (hbased : Based H) (hsb : SchemaBased H) (hattr : Attributed cfg H)
    (htop : ∀ s ∈ schemas, ∀ e ∈ s.types, ∀ m, e.2 ≠ .link m) (hkeys : Keyed schemas H)
    (hself : DocsKeyed schemas H)
    (hone : ∀ s ∈ schemas, ∀ s' ∈ schemas, ∀ k t t', (k, t) ∈ s.types → (k, t') ∈ s'.types → t = t')
    (hpre : Untouched cfg H schemas)
    (hquiet : ∀ s ∈ schemas, ∀ ns id, (⟨ns, b!"_self"⟩, Ty.obj id) ∈ s.types → ∀ (j : Nat) o, H[j]? = some o → ¬ Mentions o (.obj id))
    (hparts : ∀ p, InOperation (Wsdl.parse root) p → Refers (genCode env srt n parse cfg (some root :: docs)).1 schemas H p)
    (h : genFile env srt n k parse cfg gcfg (some root :: docs) = .ok file) (g : Str × FuncDecl) (hg : g ∈ file.funcs)
    (x : Builtin × Str × Str) (hx : x ∈ privateTypes) :
    (∀ input, (Wsdl.parse root).message.get g.2.op.input = some input → ∀ (i : Nat) p, input.parts[i]? = some p → p.type = builtinName x.1 →
      (∃ f tag v, g.2.body.sent[i]? = some (f, x.2.2, tag, v)) ∧
      ((input.parts.length : Int) ≤ gcfg.maxArgs → ∃ v, g.2.params.tail[i]? = some (v ++ b!" " ++ x.2.2))) ∧
    (∀ output, (Wsdl.parse root).message.get g.2.op.output = some output → ∀ (i : Nat) p, output.parts[i]? = some p → p.type = builtinName x.1 →
      (∃ f tag, g.2.body.received[i]? = some (f, x.2.2, tag)) ∧
      ((output.parts.length : Int) ≤ gcfg.maxReturns → g.2.results[i]? = some x.2.2)) := by
  obtain ⟨e, x0, x1, x2, x3, x4, x5, x6, -, -⟩ := privateTypes_expr x hx
  unfold genFile at h
  dsimp only at h
  split at h
  · rename_i cfg' r hr
    obtain ⟨c, rfl, hb⟩ := bind_ok h
    obtain ⟨q, hq, hfile⟩ := bind_ok hb
    cases hfile
    rw [hr] at hparts
    obtain ⟨code, h1, -, h2⟩ := portsIn_code (srt' := srt) hp hres hown hbased hsb hattr htop hkeys hself hone hpre hquiet hr gcfg (Wsdl.parse root) hparts hq
    dsimp only at hg
    obtain ⟨port, hport, op, hop, hf⟩ := genLoop_mem h1 g.2 (List.mem_map.mpr ⟨g, hg, rfl⟩)
    obtain ⟨input, output, a, hi, ho, ha, hgf⟩ := operation_some hf
    obtain ⟨its, ots, t1, t2, e1, e2, -, -, -, -, -, -, -, e8, e9⟩ := opArgs_some ha
    have typ : ∀ {ps : List Part} {ts : List Str}, HaveTypes code ps ts → ∀ (i : Nat) p, ps[i]? = some p → p.type = builtinName x.1 → ts[i]? = some x.2.2 := by
      intro ps ts hh
      induction hh with
      | nil => intro i p hp; cases hp
      | cons h _ ih =>
        intro i p hp ht
        cases i with
        | zero =>
          cases hp
          cases h with
          | type hl => simp only [List.getElem?_cons_zero]; rw [ht, h2 x.1 e x0 x1 x2 x4, x5]
          | element els t rest hl => rw [ht] at hl; exact absurd hl x3
        | succ i => exact ih i p hp ht
    have hop' : g.2.op = op := by rw [hgf]
    rw [hop', hi, ho]
    refine ⟨?_, ?_⟩
    · intro input' hin i p hip ht
      cases hin
      have hit := typ t1 i p hip ht
      have hz : (input.parts.zip its)[i]? = some (p, x.2.2) := List.getElem?_zip_eq_some.mpr ⟨hip, hit⟩
      refine ⟨?_, ?_⟩
      · have hs : g.2.body.sent = (a.inputFields.map (fun f => (f.name, f.type, f.xmlName, f.inputArg))).map
            (fun y => (y.1, y.2.1, y.2.2.1, y.2.1 ++ b!"(" ++ y.2.2.2 ++ b!")")) := by
          rw [hgf]; simp [bodyOf, List.map_map, Function.comp_def]
        rw [hs, e8, List.getElem?_map, List.getElem?_map, hz]
        exact ⟨_, _, _, rfl⟩
      · intro hle
        rw [hgf]
        simp only [List.tail_cons, e1, if_neg (Int.not_lt.mpr hle), List.getElem?_map, hz, Option.map_some, x6]
        exact ⟨_, rfl⟩
    · intro output' hout i p hip ht
      cases hout
      have hit := typ t2 i p hip ht
      have hz : (output.parts.zip ots)[i]? = some (p, x.2.2) := List.getElem?_zip_eq_some.mpr ⟨hip, hit⟩
      refine ⟨?_, ?_⟩
      · have hs : g.2.body.received = a.outputFields.map (fun f => (f.name, f.type, f.xmlName)) := by rw [hgf]; rfl
        rw [hs, e9, List.getElem?_map, hz]
        exact ⟨_, _, rfl⟩
      · intro hle
        rw [hgf]
        have hl : i < (ots.map shown).length := by rw [List.length_map]; exact (List.getElem?_eq_some_iff.mp hit).1
        simp only [e2, if_neg (Int.not_lt.mpr hle)]
        rw [List.getElem?_append_left hl, List.getElem?_map, hit, Option.map_some, x6]
  · cases h

/-- C111 is false for each of the ten types: the field that is sent and the one that is received have the type that users see,
not the private type. Package encoding/xml then writes a date, a time and a part of a date in the form of RFC 3339, with date,
time and zone, and binary data as it is. -/
theorem C111_private_refuted : ∀ x ∈ privateTypes,
    (fileOf ⟨none, 5, 5⟩ (fileDoc [(b!"a", b!"type", b!"x:" ++ (builtinName x.1).loc)] [(b!"r", b!"type", b!"x:" ++ (builtinName x.1).loc)]
        [(b!"get", b!"t:In", b!"t:Out")] [b!"Q"]) C109_heap).map (fun f => f.funcs.map fun g => (g.2.body.sent.map (·.2.1), g.2.body.received.map (·.2.1))) =
      some [([x.2.2], [x.2.2])] ∧ x.2.1 ≠ x.2.2 := by
  decide +kernel

/-! ### C144 -/

/-- C144, for the first document: there is a method for every operation of every port of the document given first, and no other
but `do`. The full statement is for the operations of all documents; it is refuted below. -/
theorem C144_first_partial (env : Env) (srt : Sorter strLt) (n k : Nat) (parse : List Doc → Outcome (List Schema × THeap))
    (cfg : Xsdgen.Config) (gcfg : GenConfig) (root : Element) (docs : List Doc) (file : File)
    (h : genFile env srt n k parse cfg gcfg (some root :: docs) = .ok file) (m : Str) :
    m ∈ file.methodNames ↔ m = b!"do" ∨ ∃ p ∈ (Wsdl.parse root).ports, ∃ op ∈ p.operations, m = publicName env cfg op.name := by
  have := (C110_once_partial env srt n k parse cfg gcfg root docs file h).1
  rw [this]
  simp only [List.mem_cons, List.mem_map, List.mem_flatMap]
  constructor
  · rintro (rfl | ⟨op, ⟨p, hp, hop⟩, rfl⟩)
    · exact .inl rfl
    · exact .inr ⟨p, hp, op, hop, rfl⟩
  · rintro (rfl | ⟨p, hp, op, hop, rfl⟩)
    · exact .inl rfl
    · exact .inr ⟨op, ⟨p, hp, hop⟩, rfl⟩

/-- C144 is false of the second document: it has an operation put, for which there is no method, and there is no error. The other
way round there is no method for get. -/
theorem C144_refuted :
    let first := fileDoc [] [] [(b!"get", b!"t:In", b!"t:Out")] [b!"Q"]
    let second := fileDoc [] [] [(b!"put", b!"t:In", b!"t:Out")] [b!"R"]
    ((Wsdl.parse second).ports.flatMap fun p => p.operations.map fun op => publicName asciiEnv C101_cfg op.name) = [b!"Put"] ∧
    ((genFile asciiEnv (Sorter.byKey fun s => s) 20 3 (C101_parse C109_heap) C101_cfg ⟨none, 5, 5⟩ [some first, some second]).toOption.map
      fun f => f.methodNames) = some [b!"do", b!"Get"] ∧
    ((genFile asciiEnv (Sorter.byKey fun s => s) 20 3 (C101_parse C109_heap) C101_cfg ⟨none, 5, 5⟩ [some second, some first]).toOption.map
      fun f => f.methodNames) = some [b!"do", b!"Put"] := by
  decide +kernel

end GoXml.Wsdl
