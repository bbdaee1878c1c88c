import Verif.Proofs.WsdlgenSucceeds
import Verif.Props.WsdlgenFile
import Verif.Props.XsdgenSucceeds
import Verif.Props.XsdLinked
import Verif.Props.XsdgenDocuments
set_option autoImplicit false

/-! Property C154: wsdlgen generates a function for every operation. -/

namespace GoXml.Wsdl
open Xsd Xsdgen GoMap

/-- C154 in full: if code can be generated for the schemas, and the messages that the operations refer to are in the document and have parts
that name types or elements, then a file with a function for every operation of every port is generated. -/
def C154_functions_full : Prop :=
  ∀ (env : Env) (srt : Sorter strLt) (parse : List Xsdgen.Doc → Outcome (List Schema × THeap)) (cfg : Xsdgen.Config) (gcfg : GenConfig) (root : Element)
    (docs : List Xsdgen.Doc) (schemas : List Schema) (H : THeap), parse (some root :: docs) = .ok (schemas, H) → Coherent H → Listed H →
    (∀ s ∈ schemas, ∀ e ∈ s.types, Present H e.2) →
    (∀ s ∈ schemas, ∀ s' ∈ schemas, ∀ k t t', (k, t) ∈ s.types → (k, t') ∈ s'.types → t = t') → Untouched cfg H schemas →
    (wanted cfg (some root :: docs)).Nodup → (∀ x ∈ wanted cfg (some root :: docs), ∃ s ∈ schemas, s.targetNS = x) →
    (∀ port ∈ (Wsdl.parse root).ports, ∀ op ∈ port.operations, ∀ q ∈ [op.input, op.output], q.loc ≠ [] →
      ∃ m, (Wsdl.parse root).message.get q = some m ∧ ∀ p ∈ m.parts, Described schemas H p) →
    ∃ n k file, genFile env srt n k parse cfg gcfg (some root :: docs) = .ok file ∧
      file.funcs.map (fun g => (g.2.port, g.2.op)) = (Wsdl.parse root).ports.flatMap fun port => port.operations.map fun op => (port, op)

/-- C154, partial: a function is generated for every operation of every port, in the order of the document, if all operations have an input and
an output, whose parts name types or elements. The types need not be in a schema. Missing for C154: operations without output, or without
input, for which it is refuted below. -/
theorem C154_functions_partial (env : Env) (srt : Sorter strLt) (n k : Nat) (parse : List Xsdgen.Doc → Outcome (List Schema × THeap)) (cfg : Xsdgen.Config)
    (gcfg : GenConfig) (root : Element) (docs : List Xsdgen.Doc) (schemas : List Schema) (H : THeap) (hp : parse (some root :: docs) = .ok (schemas, H))
    (h : Coherent H) (hl : Listed H) (ht : ∀ s ∈ schemas, ∀ e ∈ s.types, Present H e.2)
    (hone : ∀ s ∈ schemas, ∀ s' ∈ schemas, ∀ k t t', (k, t) ∈ s.types → (k, t') ∈ s'.types → t = t') (hpre : Untouched cfg H schemas)
    (hd : (wanted cfg (some root :: docs)).Nodup) (hf : ∀ x ∈ wanted cfg (some root :: docs), ∃ s ∈ schemas, s.targetNS = x)
    (hops : ∀ port ∈ (Wsdl.parse root).ports, ∀ op ∈ port.operations, Answered (Wsdl.parse root) schemas H op)
    (hn : H.length + 3 ≤ n) (hk : 2 ≤ k) :
    ∃ file, genFile env srt n k parse cfg gcfg (some root :: docs) = .ok file ∧
      file.funcs.map (fun g => (g.2.port, g.2.op)) = (Wsdl.parse root).ports.flatMap fun port => port.operations.map fun op => (port, op) := by
  obtain ⟨k, rfl⟩ : ∃ m, k = m + 2 := ⟨k - 2, by omega⟩
  obtain ⟨cfg', -, file, -, h1, h2⟩ := genFile_succeeds env srt k gcfg hp h hl hn ht hone hpre hd hf hops
  refine ⟨file, h1, ?_⟩
  have := congrArg (List.map fun (x : Str × Port × Operation) => (x.2.1, x.2.2)) h2
  rw [List.map_map, List.map_flatMap] at this
  simp only [List.map_map] at this
  exact this

/-- C154, partial: the same for orderly and regular schemas that `Parse` accepts. -/
theorem C154_documents_partial (env : Env) (srt : Sorter strLt) (n k : Nat) (parse : List Xsdgen.Doc → Outcome (List Schema × THeap)) (penv : ParseEnv)
    (ord : MapOrder) (roots : List Element) (cfg : Xsdgen.Config) (gcfg : GenConfig) (root : Element) (docs : List Xsdgen.Doc) (schemas : List Schema) (H : THeap)
    (hparse : parse (some root :: docs) = parseSchemas penv ord roots) (hp : parseSchemas penv ord roots = .ok (schemas, H)) (ho : Orderly roots)
    (hr : Regular roots) (hb : ∀ o ∈ H, o.base ≠ none)
    (hfields : ∀ (id : Nat) c, H[id]? = some (.complex c) → (∀ e ∈ c.elements, ∀ b, e.type = .builtin b → Xsdgen.InSchema b) ∧
      ∀ a ∈ c.attributes, ∀ b, a.type = .builtin b → Xsdgen.InSchema b)
    (hself : ∀ (id : Nat) b, baseOf H (.obj id) = some b → ¬ Ancestor H b (.obj id)) (hl : Listed H)
    (hpre : Untouched cfg H schemas) (hd : (wanted cfg (some root :: docs)).Nodup)
    (hf : ∀ x ∈ wanted cfg (some root :: docs), ∃ s ∈ schemas, s.targetNS = x)
    (hops : ∀ port ∈ (Wsdl.parse root).ports, ∀ op ∈ port.operations, Answered (Wsdl.parse root) schemas H op)
    (hn : H.length + 3 ≤ n) (hk : 2 ≤ k) :
    ∃ file, genFile env srt n k parse cfg gcfg (some root :: docs) = .ok file ∧
      file.funcs.map (fun g => (g.2.port, g.2.op)) = (Wsdl.parse root).ports.flatMap fun port => port.operations.map fun op => (port, op) := by
  obtain ⟨h1, h2⟩ := parse_coherent ho hr hp hb hfields hself
  obtain ⟨-, -, -, h4, -⟩ := parse_orderly ho hp
  exact C154_functions_partial env srt n k parse cfg gcfg root docs schemas H (hparse.trans hp) h1 hl h2 h4 hpre hd hf hops hn hk

/-- C154, partial: the same for operations whose parts are described in the schema documents. Missing for C154, besides operations without output or
input: parts that name elements whose types are from other namespaces. -/
theorem C154_schemas_partial (env : Env) (srt : Sorter strLt) (n k : Nat) (parse : List Xsdgen.Doc → Outcome (List Schema × THeap)) (penv : ParseEnv)
    (ord : MapOrder) (roots : List Element) (cfg : Xsdgen.Config) (gcfg : GenConfig) (root : Element) (docs : List Xsdgen.Doc) (schemas : List Schema) (H : THeap)
    (hparse : parse (some root :: docs) = parseSchemas penv ord roots) (hp : parseSchemas penv ord roots = .ok (schemas, H)) (ho : Orderly roots)
    (hr : Regular roots) (hb : ∀ o ∈ H, o.base ≠ none)
    (hfields : ∀ (id : Nat) c, H[id]? = some (.complex c) → (∀ e ∈ c.elements, ∀ b, e.type = .builtin b → Xsdgen.InSchema b) ∧
      ∀ a ∈ c.attributes, ∀ b, a.type = .builtin b → Xsdgen.InSchema b)
    (hself : ∀ (id : Nat) b, baseOf H (.obj id) = some b → ¬ Ancestor H b (.obj id)) (hl : Listed H)
    (hpre : Untouched cfg H schemas) (hd : (wanted cfg (some root :: docs)).Nodup)
    (hf : ∀ x ∈ wanted cfg (some root :: docs), ∃ s ∈ schemas, s.targetNS = x)
    (hops : ∀ port ∈ (Wsdl.parse root).ports, ∀ op ∈ port.operations, AnsweredIn (Wsdl.parse root) roots op)
    (hn : H.length + 3 ≤ n) (hk : 2 ≤ k) :
    ∃ file, genFile env srt n k parse cfg gcfg (some root :: docs) = .ok file ∧
      file.funcs.map (fun g => (g.2.port, g.2.op)) = (Wsdl.parse root).ports.flatMap fun port => port.operations.map fun op => (port, op) := by
  refine C154_documents_partial env srt n k parse penv ord roots cfg gcfg root docs schemas H hparse hp ho hr hb hfields hself hl hpre hd hf ?_ hn hk
  intro port hport op hop
  obtain ⟨i, o, h1, h2, h3⟩ := hops port hport op hop
  refine ⟨i, o, h1, h2, fun p hpm => (h3 p hpm).imp_right ?_⟩
  rintro ⟨hne, r, hr, hs, v, hv, hvn, hvd, hvh⟩
  obtain ⟨s, hs', -, id, c, c1, c2, -, c4⟩ := C155_elements_partial penv ord roots ho.targets ho.types ho.unnamed schemas H hp r hr
  obtain ⟨m, hm, -, hmn⟩ := c4 v hv hvn
  exact ⟨hne, _, s, hs', id, c, by rw [hs]; exact GoMap.get_some_mem c1, c2, m, hm, (hmn hvh).trans hvd, rfl⟩

/-- The conditions of C154 on types, decided; the last argument gives a rank to each type. -/
theorem coherent_of {H : THeap} (rank : List Nat) (h1 : acceptedOk rank H = true) (h2 : ∀ o ∈ H, o.name.space ∉ [schemaNS, xmlXsdNS])
    (h3 : ∀ i < H.length, ∀ j < H.length, (H[i]?).map (·.name) = (H[j]?).map (·.name) → i = j)
    (h4 : H.all (fun o => o.tys.all fun t => match t with | .builtin b => decide (Xsdgen.InSchema b) | .obj j => decide (j < H.length) | .link _ => false) = true) :
    Coherent H ∧ Listed H := by
  obtain ⟨k1, -, k3, k4⟩ := acceptedOk_of h1
  have lt : ∀ (id : Nat) o, H[id]? = some o → id < H.length := fun id o e => (List.getElem?_eq_some_iff.mp e).1
  have pres : ∀ (id : Nat) o, H[id]? = some o → ∀ t ∈ o.tys, Present H t := by
    intro id o ho t htm
    have := List.all_eq_true.mp (List.all_eq_true.mp h4 o (List.mem_of_getElem? ho)) t htm
    cases t with
    | builtin b => exact Or.inl ⟨b, rfl, of_decide_eq_true this⟩
    | obj j => exact Or.inr ⟨j, rfl, of_decide_eq_true this⟩
    | link m => cases this
  refine ⟨⟨?_, ownNames_of h2, ?_, ?_, k3⟩, k4⟩
  · intro i j o o' hi hj he
    exact h3 i (lt _ _ hi) j (lt _ _ hj) (by rw [hi, hj, Option.map_some, Option.map_some, he])
  · intro id c hid
    exact ⟨fun e he => pres id _ hid _ (by simp only [TObj.tys, List.mem_append, List.mem_map]; exact Or.inl (Or.inr ⟨e, he, rfl⟩)),
      fun e he => pres id _ hid _ (by simp only [TObj.tys, List.mem_append, List.mem_map]; exact Or.inr ⟨e, he, rfl⟩)⟩
  · intro id o hid
    obtain ⟨b, hb⟩ := Option.ne_none_iff_exists'.mp (k1 o (List.mem_of_getElem? hid))
    refine ⟨b, hb, pres id o hid b ?_⟩
    cases o with
    | complex c => simp only [TObj.base] at hb; simp [TObj.tys, hb]
    | simple s => simp only [TObj.base] at hb; simp [TObj.tys, hb]

/-- The types of C109 meet the conditions. -/
theorem C109_coherent : Coherent C109_heap ∧ Listed C109_heap ∧ (∀ s ∈ C101_schemas C109_heap, ∀ e ∈ s.types, Present C109_heap e.2) ∧
    (∀ s ∈ C101_schemas C109_heap, ∀ s' ∈ C101_schemas C109_heap, ∀ k t t', (k, t) ∈ s.types → (k, t') ∈ s'.types → t = t') ∧
    Untouched C101_cfg C109_heap (C101_schemas C109_heap) ∧ (∀ docs, (wanted C101_cfg docs).Nodup) ∧
    ∀ docs, ∀ x ∈ wanted C101_cfg docs, ∃ s ∈ C101_schemas C109_heap, s.targetNS = x := by
  obtain ⟨h1, h2⟩ := coherent_of (H := C109_heap) [0, 1, 0, 0, 0, 0, 1, 0] (by decide +kernel) (by decide +kernel) (by decide +kernel) (by decide +kernel)
  refine ⟨h1, h2, ?_, ?_, (fun pre e => by cases e), fun docs => (by decide : [b!"u"].Nodup), ?_⟩
  · have key : ∀ s ∈ C101_schemas C109_heap, ∀ e ∈ s.types, (match e.2 with
        | .builtin b => decide (Xsdgen.InSchema b) | .obj j => decide (j < C109_heap.length) | .link _ => false) = true := by decide +kernel
    intro s hs e he
    have := key s hs e he
    cases hx : e.2 with
    | builtin b => rw [hx] at this; exact Or.inl ⟨b, rfl, of_decide_eq_true this⟩
    | obj j => rw [hx] at this; exact Or.inr ⟨j, rfl, of_decide_eq_true this⟩
    | link m => rw [hx] at this; cases this
  · have : ∀ s ∈ C101_schemas C109_heap, ∀ s' ∈ C101_schemas C109_heap,
        ∀ e ∈ s.types, ∀ e' ∈ s'.types, e.1 = e'.1 → e.2 = e'.2 := by decide +kernel
    exact fun s hs s' hs' k t t' h h' => this s hs s' hs' _ h _ h' rfl
  · intro docs x hx
    cases List.mem_singleton.mp hx
    exact ⟨_, List.mem_cons_self, rfl⟩

/-- A document with two ports, two operations with types of schemas, built-in types and elements, meets the conditions: four functions are generated,
however the names are written. -/
example :
    let root := fileDoc [(b!"a", b!"type", b!"u:c"), (b!"b", b!"element", b!"u:f"), (b!"day", b!"type", b!"x:date")]
        [(b!"r", b!"element", b!"u:e"), (b!"s", b!"type", b!"v:none")] [(b!"get", b!"t:In", b!"t:Out"), (b!"put", b!"t:Out", b!"t:In")] [b!"Q", b!"R"]
    (∀ port ∈ (Wsdl.parse root).ports, ∀ op ∈ port.operations, Answered (Wsdl.parse root) (C101_schemas C109_heap) C109_heap op) ∧
    ∀ env srt, ∃ file, genFile env srt 11 2 (C101_parse C109_heap) C101_cfg ⟨none, 5, 5⟩ [some root] = .ok file ∧
      file.funcs.map (fun g => (g.2.port.name, g.2.op.name.loc)) = [(b!"Q", b!"get"), (b!"Q", b!"put"), (b!"R", b!"get"), (b!"R", b!"put")] := by
  intro root
  obtain ⟨h1, h2, h3, h4, h5, h6, h7⟩ := C109_coherent
  have hself : ∃ s ∈ C101_schemas C109_heap, (⟨b!"u", b!"_self"⟩, Ty.obj 7) ∈ s.types := by decide +kernel
  have hdesc : ∀ p : Part, (decide (p.type.loc ≠ []) || (decide (p.element.loc ≠ []) && decide (p.element.space = b!"u") &&
      decide (p.element ∈ elemNames C109_heap 7))) = true → Described (C101_schemas C109_heap) C109_heap p := by
    intro p hp
    simp only [Bool.or_eq_true, Bool.and_eq_true, decide_eq_true_eq] at hp
    rcases hp with hp | ⟨⟨hp, hu⟩, hm⟩
    · exact Or.inl hp
    · obtain ⟨e, he, hen⟩ := List.mem_map.mp hm
      obtain ⟨s, hs, hst⟩ := hself
      exact Or.inr ⟨hp, _, s, hs, 7, _, by rw [hu]; exact hst, rfl, e, he, hen, rfl⟩
  have hops : ∀ port ∈ (Wsdl.parse root).ports, ∀ op ∈ port.operations, Answered (Wsdl.parse root) (C101_schemas C109_heap) C109_heap op := by
    have key : ∀ port ∈ (Wsdl.parse root).ports, ∀ op ∈ port.operations,
        (match (Wsdl.parse root).message.get op.input, (Wsdl.parse root).message.get op.output with
          | some i, some o => (i.parts ++ o.parts).all fun p => (decide (p.type.loc ≠ []) || (decide (p.element.loc ≠ []) && decide (p.element.space = b!"u") &&
              decide (p.element ∈ elemNames C109_heap 7)))
          | _, _ => false) = true := by decide +kernel
    intro port hport op hop
    have := key port hport op hop
    split at this
    · rename_i i o hi ho
      exact ⟨i, o, hi, ho, fun p hp => hdesc p (List.all_eq_true.mp this p hp)⟩
    · cases this
  refine ⟨hops, fun env srt => ?_⟩
  obtain ⟨file, k1, k2⟩ := C154_functions_partial env srt 11 2 (C101_parse C109_heap) C101_cfg ⟨none, 5, 5⟩ root [] _ _ rfl h1 h2 h3 h4 h5 (h6 _) (h7 _)
    hops (by decide) (by decide)
  refine ⟨file, k1, ?_⟩
  have := congrArg (List.map fun (x : Port × Operation) => (x.1.name, x.2.name.loc)) k2
  rw [List.map_map] at this
  exact this.trans (by decide +kernel)

/-! ### Operations without an answer -/

theorem portIn_messages {env : Env} {cfg : Xsdgen.Config} {n k : Nat} {gcfg : GenConfig} {d : Definition} {port : Port} : ∀ {ops : List Operation} {st : XState}
    {r : XState × List (Str × FuncDecl)}, portIn env cfg n k gcfg d port st ops = .ok r →
    ∀ op ∈ ops, d.message.get op.input ≠ none ∧ d.message.get op.output ≠ none := by
  intro ops
  induction ops with
  | nil => exact fun _ op hop => (by cases hop)
  | cons o ops ih =>
    intro st r h op hop
    obtain ⟨a, h1, h⟩ := bind_ok h
    obtain ⟨b, h2, -⟩ := bind_ok h
    rcases List.mem_cons.mp hop with rfl | hop
    · unfold operationIn at h1
      split at h1
      · rename_i i o hi ho
        rw [hi, ho]
        exact ⟨by simp, by simp⟩
      · cases h1
    · exact ih h2 op hop

theorem portsIn_messages {env : Env} {cfg : Xsdgen.Config} {n k : Nat} {gcfg : GenConfig} {d : Definition} : ∀ {ps : List Port} {st : XState}
    {r : XState × List (Str × FuncDecl)}, portsIn env cfg n k gcfg d st ps = .ok r →
    ∀ port ∈ ps, ∀ op ∈ port.operations, d.message.get op.input ≠ none ∧ d.message.get op.output ≠ none := by
  intro ps
  induction ps with
  | nil => exact fun _ p hp => (by cases hp)
  | cons p ps ih =>
    intro st r h port hport
    obtain ⟨a, h1, h⟩ := bind_ok h
    obtain ⟨b, h2, -⟩ := bind_ok h
    rcases List.mem_cons.mp hport with rfl | hport
    · exact portIn_messages h1
    · exact ih h2 port hport

/-- One operation without output, or without input, is enough: no file is generated at all, whatever the schemas are. -/
theorem C154_messages (env : Env) (srt : Sorter strLt) (n k : Nat) (parse : List Xsdgen.Doc → Outcome (List Schema × THeap)) (cfg : Xsdgen.Config)
    (gcfg : GenConfig) (root : Element) (docs : List Xsdgen.Doc) (file : File) (h : genFile env srt n k parse cfg gcfg (some root :: docs) = .ok file)
    (port : Port) (hport : port ∈ (Wsdl.parse root).ports) (op : Operation) (hop : op ∈ port.operations) :
    (∃ m, (Wsdl.parse root).message.get op.input = some m) ∧ ∃ m, (Wsdl.parse root).message.get op.output = some m := by
  unfold genFile at h
  dsimp only at h
  split at h
  · obtain ⟨c, -, h⟩ := bind_ok h
    obtain ⟨q, hq, -⟩ := bind_ok h
    obtain ⟨h1, h2⟩ := portsIn_messages hq port hport op hop
    exact ⟨Option.ne_none_iff_exists'.mp h1, Option.ne_none_iff_exists'.mp h2⟩
  · cases h

/-- An operation that is only told something, as in WSDL 1.1, section 2.4.1. -/
def C154_doc : Element :=
  fe b!"definitions" [(b!"targetNamespace", b!"urn:t")] [
    fe b!"message" [(b!"name", b!"In")] [fe b!"part" [(b!"name", b!"a"), (b!"type", b!"x:string")] []],
    fe b!"portType" [(b!"name", b!"P")] [fe b!"operation" [(b!"name", b!"tell")] [fe b!"input" [(b!"message", b!"t:In")] []]],
    fe b!"binding" [(b!"name", b!"B"), (b!"type", b!"t:P")] [],
    fe b!"service" [(b!"name", b!"S")] [fe b!"port" [(b!"name", b!"Q"), (b!"binding", b!"t:B")] []]]

/-- C154 is false for operations without output. -/
theorem C154_one_way_refuted : ¬ C154_functions_full := by
  intro hall
  obtain ⟨h1, h2, h3, h4, h5, h6, h7⟩ := C109_coherent
  obtain ⟨n, k, file, hf, -⟩ := hall asciiEnv (Sorter.byKey fun s => s) (C101_parse C109_heap) C101_cfg ⟨none, 5, 5⟩ C154_doc [] _ _ rfl h1 h2 h3 h4 h5 (h6 _) (h7 _)
    (by
      have key : ∀ port ∈ (Wsdl.parse C154_doc).ports, ∀ op ∈ port.operations, ∀ q ∈ [op.input, op.output], q.loc ≠ [] →
          (match (Wsdl.parse C154_doc).message.get q with
            | some m => m.parts.all fun p => decide (p.type.loc ≠ [])
            | none => false) = true := by decide +kernel
      intro port hport op hop q hq hne
      have := key port hport op hop q hq hne
      split at this
      · rename_i m hm
        exact ⟨m, hm, fun p hp => Or.inl (of_decide_eq_true (List.all_eq_true.mp this p hp))⟩
      · cases this)
  have hex : ∃ port ∈ (Wsdl.parse C154_doc).ports, ∃ op ∈ port.operations, (Wsdl.parse C154_doc).message.get op.output = none := by decide +kernel
  obtain ⟨port, hport, op, hop, hnone⟩ := hex
  obtain ⟨-, m, hm⟩ := C154_messages _ _ _ _ _ _ _ _ _ _ hf port hport op hop
  rw [hnone] at hm
  cases hm

/-! ### Elements of types from other namespaces -/

/-- A schema that declares an element of the given type. -/
def homeDoc (type : Str) : Str :=
  b!"<xs:schema xmlns:xs=\"http://www.w3.org/2001/XMLSchema\" xmlns:u=\"u\" xmlns:v=\"v\" targetNamespace=\"u\">" ++
  b!"<xs:element name=\"home\" type=\"" ++ type ++ b!"\"/>" ++
  b!"<xs:simpleType name=\"T\"><xs:restriction base=\"xs:string\"/></xs:simpleType></xs:schema>"

def placeDoc : Str :=
  b!"<xs:schema xmlns:xs=\"http://www.w3.org/2001/XMLSchema\" targetNamespace=\"v\">" ++
  b!"<xs:simpleType name=\"T\"><xs:restriction base=\"xs:string\"/></xs:simpleType></xs:schema>"

def homeRoots (type : Str) : Option (List Element) := (parseDocs [homeDoc type, placeDoc]).bind (normalize doubling 40)

/-- A document with an operation that takes the element. -/
def homeWsdl : Element := fileDoc [(b!"a", b!"element", b!"u:home")] [] [(b!"get", b!"t:In", b!"t:Out")] [b!"Q"]

/-- Whether the file is made. -/
def homeFile (roots : List Element) : Option Bool :=
  match genFile asciiEnv (Sorter.byKey fun s => s) 10 2 (fun _ => parseSchemas testEnv inOrder roots) C101_cfg ⟨none, 5, 5⟩ [some homeWsdl] with
  | .ok _ => some true
  | .error => some false
  | _ => none

/-- The parts name an element that a schema declares. -/
def namesElements (roots : List Element) : Bool :=
  (Wsdl.parse homeWsdl).ports.all fun port => port.operations.all fun op =>
    match (Wsdl.parse homeWsdl).message.get op.input, (Wsdl.parse homeWsdl).message.get op.output with
    | some i, some o => (i.parts ++ o.parts).all fun p => decide (p.type.loc = []) && roots.any fun r => decide (p.element.space = target r) &&
        r.children.any fun v => decide (v.name = ⟨w3cSchemaNS, b!"element"⟩) && decide (defines (target r) v = p.element)
    | _, _ => false

theorem answered_of {roots : List Element} (h1 : namesElements roots = true) (h2 : ∀ r ∈ roots, ∀ v ∈ r.children, v.name = ⟨w3cSchemaNS, b!"element"⟩ → Homely (target r) v)
    (h3 : ∀ p : Part, ∀ r ∈ roots, p.element.space = target r → p.element.loc = [] → ∀ v ∈ r.children, v.name = ⟨w3cSchemaNS, b!"element"⟩ → defines (target r) v ≠ p.element) :
    ∀ port ∈ (Wsdl.parse homeWsdl).ports, ∀ op ∈ port.operations, AnsweredIn (Wsdl.parse homeWsdl) roots op := by
  intro port hport op hop
  have h := List.all_eq_true.mp (List.all_eq_true.mp h1 port hport) op hop
  split at h
  · rename_i i o hi ho
    refine ⟨i, o, hi, ho, fun p hp => Or.inr ?_⟩
    have h := List.all_eq_true.mp h p hp
    rw [Bool.and_eq_true] at h
    obtain ⟨r, hr, h⟩ := List.any_eq_true.mp h.2
    rw [Bool.and_eq_true] at h
    obtain ⟨v, hv, h'⟩ := List.any_eq_true.mp h.2
    simp only [Bool.and_eq_true, decide_eq_true_eq] at h'
    exact ⟨fun e => h3 p r hr (of_decide_eq_true h.1) e v hv h'.1 h'.2, r, hr, of_decide_eq_true h.1, v, hv, h'.1, h'.2, h2 r hr v hv h'.1⟩
  · cases h

/-- With a type of the same namespace, the conditions on the documents are met and the function is generated. -/
example : ∃ roots, homeRoots b!"u:T" = some roots ∧ Orderly roots ∧ Regular roots ∧
    (∀ port ∈ (Wsdl.parse homeWsdl).ports, ∀ op ∈ port.operations, AnsweredIn (Wsdl.parse homeWsdl) roots op) ∧
    (Wsdl.parse homeWsdl).ports.length = 1 ∧ homeFile roots = some true := by
  have : (homeRoots b!"u:T").map (fun roots => orderlyOk roots && regularOk roots && namesElements roots && decide (homeFile roots = some true) &&
      (roots.all fun r => r.children.all fun v => decide (v.name = ⟨w3cSchemaNS, b!"element"⟩ → (refersTo v b!"type").space = (defines (target r) v).space ∧
        (defines (target r) v).loc ≠ []))) = some true := by
    decide +kernel
  obtain ⟨roots, hr, h⟩ := Option.map_eq_some_iff.mp this
  simp only [Bool.and_eq_true, decide_eq_true_eq] at h
  have hh := fun r hr v hv => of_decide_eq_true (List.all_eq_true.mp (List.all_eq_true.mp h.2 r hr) v hv)
  refine ⟨roots, hr, orderly_of h.1.1.1.1, regular_of h.1.1.1.2, answered_of h.1.1.2 (fun r hr v hv hn => Or.inr (Or.inr (hh r hr v hv hn).1)) ?_,
    by decide +kernel, h.1.2⟩
  intro p r hr _ he v hv hn e
  exact (hh r hr v hv hn).2 (e ▸ he)

/-- C154 is false for an element whose type is from another namespace: it is kept under a name in that namespace, so there is no such element for the part
of the message, and no file is generated. -/
theorem C154_foreign_refuted : ∃ roots, homeRoots b!"v:T" = some roots ∧ Orderly roots ∧ Regular roots ∧ namesElements roots = true ∧
    homeFile roots = some false := by
  have : (homeRoots b!"v:T").map (fun roots => orderlyOk roots && regularOk roots && namesElements roots && decide (homeFile roots = some false)) = some true := by
    decide +kernel
  obtain ⟨roots, hr, h⟩ := Option.map_eq_some_iff.mp this
  simp only [Bool.and_eq_true, decide_eq_true_eq] at h
  exact ⟨roots, hr, orderly_of h.1.1.1, regular_of h.1.1.2, h.1.2, h.2⟩

end GoXml.Wsdl
