import Verif.Proofs.WsdlgenStruct
import Verif.Props.WsdlgenFile
import Verif.Props.XsdgenSimple
set_option autoImplicit false

/-! Property C160: the functions that wsdlgen generates take and return the structs that the documents describe. -/

namespace GoXml.Xsdgen
open Xsd GoMap
open Wsdl (attrNamed allNamed below defines refersTo)

/-- The code that is made from schemas knows the Go names of types that stay. -/
theorem genCode_keeps {env : Env} {srt : Sorter strLt} {n : Nat} {parse : List Doc → Outcome (List Schema × THeap)} {penv : ParseEnv}
    {ord : MapOrder} {roots : List Element} {cfg cfg' : Config} {docs : List Doc} {schemas : List Schema} {H H' : THeap} {code : Code}
    (hparse : parse docs = parseSchemas penv ord roots) (hp : parseSchemas penv ord roots = .ok (schemas, H)) (ho : Orderly roots)
    (hpre : Untouched cfg H schemas)
    (hgen : genCode env srt n parse cfg docs = (cfg', .done (.ok (H', code)))) {s : Schema} (hs : s ∈ schemas) (hns : s.targetNS ∈ wanted cfg docs)
    {name : XName} {id : Nat} {o : TObj} (hget : s.types.get name = some (.obj id)) (hid : H[id]? = some o) (hname : o.name = name)
    (hworth : Worth cfg H id o) (hself : name.loc ≠ b!"_self") (hsel : Selected cfg name) (hloc : name.loc ≠ []) :
    get code.names name = some (publicName env cfg name) ∧
    (∀ name, publicName env cfg' name = publicName env cfg name) ∧ Linked H' ∧ (∀ t, xmlName H' t = xmlName H t) ∧
    (∀ id o, o.name.loc = b!"_self" → Quiet id o H → Quiet id o H') ∧
    (∀ x t, get code.types x = some t → ∃ s ∈ schemas, (x, t) ∈ s.types) ∧ ∀ s ∈ schemas, ∀ x t, (x, t) ∈ s.types → get code.types x = some t := by
  rw [genCode_wanted] at hgen
  obtain ⟨h1, h2, h3, h4, -⟩ := parse_orderly ho hp
  obtain ⟨ns, primaries, q, hg1, rfl, rfl, rfl, hne, hmem⟩ := genCode_ok (hparse.trans hp) hgen
  have hns' : ns = wanted cfg docs := hne (fun e => by rw [show wanted cfg docs = [] from e] at hns; cases hns)
  obtain ⟨k1, k2, k3, k4, k5, k6⟩ := gen_knows (cfg := addStandardHelpers { cfg with namespaces := ns }) (hpre.some_of fun s hs => ((hmem s).mp hs).1) h1.linked h2
    (fun s hs => h3 s ((hmem s).mp hs).1) hg1 ((hmem s).mpr ⟨hs, by rw [hns']; exact hns⟩) (get_some_mem hget) hid hworth (by
      rw [hname]
      exact (skipped_iff _ _).mpr ⟨hself, hsel⟩) (fun e => hloc (by rw [← hname, e]))
  rw [hname] at k1
  have hall : ∀ s ∈ primaries ++ schemas, s ∈ schemas := by
    intro s hs
    rcases List.mem_append.mp hs with h | h
    · exact ((hmem s).mp h).1
    · exact h
  refine ⟨k1, k2, k3, k5, k6, ?_, ?_⟩
  · intro x t ht
    rw [k4] at ht
    rcases allTypes_from _ [] x t ht with ⟨s, hs, he⟩ | h
    · exact ⟨s, hall s hs, he⟩
    · cases h
  · intro s hs x t ht
    rw [k4]
    exact allTypes_get (fun s hs s' hs' => h4 s (hall s hs) s' (hall s' hs')) (List.mem_append_right _ hs) ht

/-- The code that is made from schemas knows the Go names of complex types that have content or attributes. -/
theorem genCode_knows {env : Env} {srt : Sorter strLt} {n : Nat} {parse : List Doc → Outcome (List Schema × THeap)} {penv : ParseEnv}
    {ord : MapOrder} {roots : List Element} {cfg cfg' : Config} {docs : List Doc} {schemas : List Schema} {H H' : THeap} {code : Code}
    (hparse : parse docs = parseSchemas penv ord roots) (hp : parseSchemas penv ord roots = .ok (schemas, H)) (ho : Orderly roots)
    (hr : Regular roots) (hder : Derivable roots) (hpre : Untouched cfg H schemas) {om : Omitted} (hom : Omits cfg om)
    (hgen : genCode env srt n parse cfg docs = (cfg', .done (.ok (H', code)))) {r : Element} (hrr : r ∈ roots) (hns : target r ∈ wanted cfg docs)
    {e : Element} (he : e ∈ allNamed r w3cSchemaNS b!"complexType") {el : Element} (hg : GivesStruct roots om (defines (target r) e) e el)
    (hsel : Selected cfg (defines (target r) e)) (hloc : (defines (target r) e).loc ≠ []) :
    get code.names (defines (target r) e) = some (publicName env cfg (defines (target r) e)) ∧
    (∀ name, publicName env cfg' name = publicName env cfg name) ∧ Linked H' ∧ (∀ t, xmlName H' t = xmlName H t) ∧
    (∀ id o, o.name.loc = b!"_self" → Quiet id o H → Quiet id o H') ∧
    (∀ x t, get code.types x = some t → ∃ s ∈ schemas, (x, t) ∈ s.types) ∧ ∀ s ∈ schemas, ∀ x t, (x, t) ∈ s.types → get code.types x = some t := by
  obtain ⟨hc, -, -⟩ := parse_derivable ho hr hder hp
  obtain ⟨s, hs, hst, id, t, f, m, hget, hid, htn, hpt, hfb, hf'⟩ := declared_object ho hder hp hrr he
  have hname : (((TObj.complex t).mapTy f).withMixed m).name = defines (target r) e := htn
  have hlast : Lasting roots om (defines (target r) e) := by
    rcases hg with ⟨hcm, hcomp | hne⟩ | ⟨hsm, hx, hne, -⟩
    · exact Or.inl hcomp
    · exact Or.inr (Or.inl ⟨r, hrr, e, he, el, rfl, Or.inl hcm, hne⟩)
    · exact Or.inr (Or.inl ⟨r, hrr, e, he, el, rfl, Or.inr ⟨hsm, hx⟩, hne⟩)
  refine genCode_keeps hparse hp ho hpre hgen hs (by rw [hst]; exact hns) hget hid hname (lasting_worth (cfg := cfg) ho hder hp hc hom hlast id _ hid hname)
    (fun hl => ?_) hsel hloc
  have hty := ho.types r hrr
  unfold typeNames at hty
  have hmem : defines (target r) e ∈ (typeDecls r).map (defines (target r)) := List.mem_map_of_mem (List.mem_append_left _ he)
  exact (List.nodup_append.mp hty).2.2 _ hmem _ (List.mem_singleton_self _)
    (xname_of (ho.spaces r hrr _ (Or.inl (List.mem_append_left _ hmem))) hl)

/-- The document type that `Parse` makes of a schema: the elements are those that the document declares, except for one that stands for any element. -/
theorem parse_document {env : ParseEnv} {ord : MapOrder} {roots : List Element} {ss : List Schema} {H : THeap} (ho : Orderly roots)
    (h : parseSchemas env ord roots = .ok (ss, H)) {r : Element} (hr : r ∈ roots) :
    ∃ s ∈ ss, ∃ (id : Nat) (c : ComplexT), s.types.get ⟨target r, b!"_self"⟩ = some (.obj id) ∧ H[id]? = some (.complex c) ∧
      ∀ m ∈ c.elements, m.name.loc = [] ∨ ∃ top ∈ r.children, top.name = ⟨w3cSchemaNS, b!"element"⟩ ∧
        ∃ v ∈ top :: allNamed top w3cSchemaNS b!"element", m.name.loc = (defines (target r) v).loc ∧ TypedAs ss H v m.type := by
  obtain ⟨s, hs, h1, -, id, self, o, g1, g2, g3, g4⟩ := parse_linked ho.targets ho.types ho.unnamed h r hr
  obtain ⟨c, rfl, -, -, ⟨e1, -⟩, -⟩ := linked_complex (selfTree_model r) g3 g4
  refine ⟨s, hs, id, c, g1, g2, ?_⟩
  intro m hm
  cases hw : m.wildcard with
  | false =>
    obtain ⟨v, hv, k1, -, k3⟩ := e1 m hm hw
    obtain ⟨hv1, hv2⟩ := List.mem_filter.mp hv
    rw [below_children] at hv1
    obtain ⟨top, ht1, ht2⟩ := mem_belows_iff.mp hv1
    obtain ⟨ht1, ht3⟩ := List.mem_filter.mp ht1
    refine Or.inr ⟨top, ht1, of_decide_eq_true ht3, v, ?_, k1, k3⟩
    rcases List.mem_cons.mp ht2 with rfl | ht2
    · exact List.mem_cons_self
    · exact List.mem_cons_of_mem _ (List.mem_filter.mpr ⟨ht2, hv2⟩)
  | true =>
    left
    obtain ⟨any, ds, ms, m1, m2, -, -, m5, m6, -, m8, m9⟩ := C35_merged env _ _ _ (selfTree_model r) self g3
    obtain ⟨f, mx, hcc, -⟩ := g4
    cases hcc
    obtain ⟨e, he, rfl⟩ := List.mem_map.mp hm
    rw [m1] at he
    rcases List.mem_append.mp he with he | he
    · obtain ⟨v, -, hv⟩ := m9 e he
      unfold parseAnyElement at hv
      split at hv
      · cases hv
      · cases hv; rfl
    · obtain ⟨d, hd, -, -, e3, -⟩ := (m8 e he).first
      obtain ⟨v, -, hpv⟩ := forall₂_mem_right m5 d (List.mem_filter.mp (List.mem_of_mem_head? hd)).1
      have : e.wildcard = true := hw
      rw [e3, parseElement_wildcard hpv] at this
      cases this

/-- No field of a type is of a document type. -/
theorem parse_fields {env : ParseEnv} {ord : MapOrder} {roots : List Element} {ss : List Schema} {H : THeap} (ho : Orderly roots) (hr : Regular roots)
    (h : parseSchemas env ord roots = .ok (ss, H)) (hc : Coherent H) {id : Nat} {c : ComplexT} (hid : H[id]? = some (.complex c)) :
    ∀ el ∈ c.elements, (xmlName H el.type).loc ≠ b!"_self" := by
  intro el hel hself
  obtain ⟨-, -, -, -, -, h6⟩ := parse_orderly ho h
  obtain ⟨-, -, h9, -⟩ := parse_regular ho hr h
  rcases (hc.fields id c hid).1 el hel with ⟨b, hb, -⟩ | ⟨j, hj, hlt⟩
  · rw [hb] at hself
    exact builtinName_self b hself
  · have ho' := List.getElem?_eq_getElem hlt
    rw [hj] at hself
    simp only [xmlName, ho'] at hself
    obtain ⟨r, hrr, hsrc⟩ := Xsd.parse_source ho h j _ ho'
    obtain ⟨s, hs, id', c', g1, g2, -⟩ := parse_document ho h hrr
    have hk := h6 s hs _ (get_some_mem g1) (Or.inl rfl)
    simp only [xmlName, g2] at hk
    have hsp := ho.spaces r hrr _ (Or.inl hsrc)
    have : j = id' := by
      refine hc.named j id' _ _ ho' g2 ?_
      rw [hk]
      exact xname_of hsp hself
    subst this
    exact h9 s hs _ _ (get_some_mem g1) id _ hid (by rw [← hj]; exact Or.inr (Or.inl ⟨el, hel, rfl⟩))

end GoXml.Xsdgen

namespace GoXml.Wsdl
open Xsd Xsdgen GoMap

/-- The function sends, for the parts of its input with this property, values of the Go type, and takes them as its parameters; if there are too many
of them, it takes a struct with fields of the type. The same holds for its output. -/
def Passes (gcfg : GenConfig) (d : Definition) (is : Part → Prop) (N : Str) (g : FuncDecl) : Prop :=
  (∀ input, d.message.get g.op.input = some input → ∀ (i : Nat) p, input.parts[i]? = some p → is p →
    (∃ v, g.body.sent[i]? = some (title p.name, N, ⟨d.targetNS, p.name⟩, N ++ b!"(" ++ v ++ b!")")) ∧
    ((input.parts.length : Int) ≤ gcfg.maxArgs → ∃ v, g.params.tail[i]? = some (v ++ b!" " ++ N)) ∧
    (gcfg.maxArgs < (input.parts.length : Int) → title input.name.loc ≠ [] →
      ∃ fields, (title input.name.loc, fields) ∈ g.decls ∧ fields[i]? = some (title p.name, N))) ∧
  ∀ output, d.message.get g.op.output = some output → ∀ (i : Nat) p, output.parts[i]? = some p → is p →
    g.body.received[i]? = some (title p.name, N, ⟨d.targetNS, p.name⟩) ∧
    ((output.parts.length : Int) ≤ gcfg.maxReturns → g.results[i]? = some N) ∧
    (gcfg.maxReturns < (output.parts.length : Int) → title output.name.loc ≠ [] →
      ∃ fields, (title output.name.loc, fields) ∈ g.decls ∧ fields[i]? = some (title p.name, N))

theorem shown_self {N : Str} (h : N ∉ hiddenTypes.map (·.1)) : shown N = N := by
  unfold shown
  rw [List.find?_eq_none.mpr (fun x hx => by simpa using fun e => h (List.mem_map.mpr ⟨x, hx, e⟩))]
  rfl

theorem made_passes {gcfg : GenConfig} {d : Definition} {is : Part → Prop} {N : Str} {g : FuncDecl} (hN : N ∉ hiddenTypes.map (·.1))
    (h : MadeOf gcfg d is N g) : Passes gcfg d is N g := by
  obtain ⟨input, output, ins, outs, hi, ho, h1, h2, h3, h4, hf⟩ := h
  have hs := (shown_eq _).trans (shown_self hN)
  have get : ∀ {ps : List Part} {l : List (Part × Str)}, l.map (·.1) = ps → (∀ x ∈ l, is x.1 → x.2 = N) →
      ∀ (i : Nat) p, ps[i]? = some p → is p → l[i]? = some (p, N) := by
    intro ps l hl hx i p hp ht
    rw [← hl, List.getElem?_map] at hp
    obtain ⟨x, hx1, rfl⟩ := Option.map_eq_some_iff.mp hp
    rw [hx1, ← hx x (List.mem_of_getElem? hx1) ht]
  have l1 : ins.length = input.parts.length := by rw [← h1, List.length_map]
  have l2 : outs.length = output.parts.length := by rw [← h2, List.length_map]
  rw [hf] at hi ho ⊢
  constructor
  · intro input' hin i p hip ht
    rw [show (funcOf g.port g.op (argsOf gcfg.maxArgs gcfg.maxReturns d.targetNS input output ins outs)).op = g.op from rfl] at hin hi
    rw [hi] at hin
    cases hin
    have hx := get h1 h3 i p hip ht
    refine ⟨?_, ?_, ?_⟩
    · simp only [funcOf, bodyOf, argsOf, List.getElem?_map, hx, Option.map_some]
      exact ⟨_, rfl⟩
    · intro hle
      simp only [funcOf, argsOf, List.tail_cons, l1, decide_eq_true_eq, if_neg (Int.not_lt.mpr hle), List.getElem?_map, hx, Option.map_some, hs]
      exact ⟨_, rfl⟩
    · intro hlt hne
      refine ⟨(argsOf gcfg.maxArgs gcfg.maxReturns d.targetNS input output ins outs).inputFields.map fun f => (f.name, f.publicType), ?_, ?_⟩
      · simp only [funcOf, wrapperDecls]
        refine List.mem_append_left _ ?_
        have : (argsOf gcfg.maxArgs gcfg.maxReturns d.targetNS input output ins outs).inputType = title input.name.loc := by
          simp only [argsOf, l1, decide_eq_true_eq, if_pos hlt]
        rw [this, if_pos hne]
        exact List.mem_singleton_self _
      · simp only [argsOf, List.getElem?_map, hx, Option.map_some, hs]
  · intro output' hin i p hip ht
    rw [show (funcOf g.port g.op (argsOf gcfg.maxArgs gcfg.maxReturns d.targetNS input output ins outs)).op = g.op from rfl] at hin ho
    rw [ho] at hin
    cases hin
    have hx := get h2 h4 i p hip ht
    have hlt : i < outs.length := (List.getElem?_eq_some_iff.mp hx).1
    refine ⟨?_, ?_, ?_⟩
    · simp only [funcOf, bodyOf, argsOf, List.getElem?_map, hx, Option.map_some]
    · intro hle
      simp only [funcOf, argsOf, l2, decide_eq_true_eq, if_neg (Int.not_lt.mpr hle)]
      rw [List.getElem?_append_left (by rw [List.length_map]; exact hlt), List.getElem?_map, hx, Option.map_some, hs]
    · intro hlt hne
      refine ⟨(argsOf gcfg.maxArgs gcfg.maxReturns d.targetNS input output ins outs).returnFields.map fun f => (f.name, f.type), ?_, ?_⟩
      · simp only [funcOf, wrapperDecls]
        refine List.mem_append_right _ ?_
        have : (argsOf gcfg.maxArgs gcfg.maxReturns d.targetNS input output ins outs).returnType = title output.name.loc := by
          simp only [argsOf, l2, decide_eq_true_eq, if_pos hlt]
        rw [this, if_pos hne]
        exact List.mem_singleton_self _
      · simp only [argsOf, l2, decide_eq_true_eq, if_pos hlt, List.getElem?_map, hx, Option.map_some, hs]

/-- The part is of the type: it names the type or, if it names none, an element of a schema in which all elements of that name, at the top or below
an element at the top, are declared with the type. -/
def IsOf (roots : List Element) (name : XName) (p : Part) : Prop :=
  p.type = name ∨ (p.type.loc = [] ∧ p.element.loc ≠ [] ∧ ∃ r ∈ roots, target r = p.element.space ∧
    ∀ top ∈ r.children, top.name = ⟨w3cSchemaNS, b!"element"⟩ → ∀ v ∈ top :: allNamed top w3cSchemaNS b!"element",
      (defines (target r) v).loc = p.element.loc → attrNamed v b!"type" ≠ [] ∧ refersTo v b!"type" = name)

/-- The functions pass values of the Go type of a type whose Go name the code knows. -/
theorem portsIn_pass {env : Env} {n k : Nat} {penv : ParseEnv} {ord : MapOrder} {roots : List Element} {cfg cfg' : Xsdgen.Config} {gcfg : GenConfig}
    {root : Element} {schemas : List Schema} {H H' : THeap} {code : Xsdgen.Code} (hp : parseSchemas penv ord roots = .ok (schemas, H)) (ho : Orderly roots)
    (hr : Regular roots) (hder : Derivable roots) {q : XState × List (Str × FuncDecl)}
    (hq : portsIn env cfg' n k gcfg (Wsdl.parse root) (H', code) (Wsdl.parse root).ports = .ok q)
    (hparts : ∀ p, InOperation (Wsdl.parse root) p → p.type.loc ≠ b!"_self") {name : XName} (hloc : name.loc ≠ [])
    (hN : publicName env cfg name ∉ hiddenTypes.map (·.1))
    (hk : get code.names name = some (publicName env cfg name) ∧ (∀ name, publicName env cfg' name = publicName env cfg name) ∧ Linked H' ∧
      (∀ t, xmlName H' t = xmlName H t) ∧ (∀ id o, o.name.loc = b!"_self" → Quiet id o H → Quiet id o H') ∧
      (∀ x t, get code.types x = some t → ∃ s ∈ schemas, (x, t) ∈ s.types) ∧ ∀ s ∈ schemas, ∀ x t, (x, t) ∈ s.types → get code.types x = some t) :
    ∀ g ∈ q.2, Passes gcfg (Wsdl.parse root) (IsOf roots name) (publicName env cfg name) g.2 := by
  obtain ⟨k1, k2, k3, k4, k5, k6, k7⟩ := hk
  obtain ⟨-, -, h3, -, -, h6⟩ := parse_orderly ho hp
  obtain ⟨-, -, h9, -⟩ := parse_regular ho hr hp
  obtain ⟨hc, -, -⟩ := parse_derivable ho hr hder hp
  intro g hgf
  have := portsIn_knows (T := code.types) (H := H) (name := name) (by
    intro x t ht
    obtain ⟨s, hs, hx⟩ := k6 x t ht
    refine ⟨fun hx' => h6 s hs _ hx (Or.inr hx'), ?_⟩
    have := h3 s hs _ hx
    cases t with
    | link m => exact absurd rfl (this m)
    | _ => trivial) (fun ns id c _ hid => parse_fields ho hr hp hc hid) _ _ _ ⟨rfl, k3, by rw [k2]; exact k1, k4, by
      intro ns id hid
      obtain ⟨s, hs, hx⟩ := k6 _ _ hid
      have hk := h6 s hs _ hx (Or.inl rfl)
      simp only [xmlName] at hk
      split at hk
      · rename_i o ho'
        have h1 : o.name.loc = b!"_self" := by rw [hk]
        exact ⟨o, h1, k5 id o h1 ⟨ho', fun j o' _ ho'' => h9 s hs ns id hx j o' ho''⟩, ho'⟩
      · exact absurd (congrArg XName.loc hk) (fun h => by cases h)⟩ (fun port hport op hop m hm p hpm => hparts p ⟨port, hport, op, hop, m, hm, hpm⟩) hq g hgf
  have := made_passes (by rw [k2]; exact hN) this
  rw [k2] at this
  have imp : ∀ p, IsOf roots (name) p → RefersBy code.types H (name) p := by
    rintro p (ht | ⟨hl, hel, r1, hr1, hsp, hv⟩)
    · exact Or.inl ⟨by rw [ht]; exact hloc, ht⟩
    · right
      obtain ⟨s, hs, id, c, g1, g2, g3⟩ := parse_document ho hp hr1
      refine ⟨hl, id, c, by rw [← hsp]; exact k7 s hs _ _ (get_some_mem g1), g2, ?_⟩
      intro m hm hmn
      rcases g3 m hm with hnil | ⟨top, ht1, ht2, v, hv1, hv2, hv3⟩
      · rw [hmn] at hnil
        exact absurd hnil hel
      · obtain ⟨w1, w2⟩ := hv top ht1 ht2 v hv1 (by rw [← hv2, hmn])
        rcases hv3.2 w1 with ⟨b, -, -, hb, hb'⟩ | ⟨-, s', -, id', o, -, hid', hon, ht'⟩
        · rw [hb', ← w2, ← hb]; rfl
        · rw [ht']
          simp only [xmlName, hid', hon, w2]
  exact ⟨fun input hi i p hp hx => this.1 input hi i p hp (imp p hx), fun output hi i p hp hx => this.2 output hi i p hp (imp p hx)⟩

/-- C160, partial, where options change declarations only if they are structs whose only field is a slice: the struct may be such a one. -/
theorem C160_altered_partial (env : Env) (srt : Sorter strLt) (n k : Nat) (parse : List Xsdgen.Doc → Outcome (List Schema × THeap)) (penv : ParseEnv)
    (ord : MapOrder) (roots : List Element) (cfg : Xsdgen.Config) (gcfg : GenConfig) (root : Element) (docs : List Xsdgen.Doc) (schemas : List Schema) (H : THeap)
    (hparse : parse (some root :: docs) = parseSchemas penv ord roots) (hp : parseSchemas penv ord roots = .ok (schemas, H)) (ho : Orderly roots)
    (hr : Regular roots) (hder : Derivable roots) (hpre : Untouched cfg H schemas) (hpost : Unaltered cfg)
    (om : Omitted) (hom : Omits cfg om) (hd : (wanted cfg (some root :: docs)).Nodup)
    (hf : ∀ x ∈ wanted cfg (some root :: docs), ∃ r ∈ roots, target r = x) (hn : H.length + 3 ≤ n) (file : File)
    (h : genFile env srt n k parse cfg gcfg (some root :: docs) = .ok file)
    (hparts : ∀ p, InOperation (Wsdl.parse root) p → p.type.loc ≠ b!"_self")
    (r : Element) (hrr : r ∈ roots) (hns : target r ∈ wanted cfg (some root :: docs)) (e : Element) (he : e ∈ allNamed r w3cSchemaNS b!"complexType")
    (el : Element) (hg : GivesStruct roots om (defines (target r) e) e el)
    (hsel : Selected cfg (defines (target r) e)) (hloc : (defines (target r) e).loc ≠ [])
    (hhelp : ∀ k helper, get (addStandardHelpers cfg).helperTypes k = some helper → helper.name ≠ publicName env cfg (defines (target r) e))
    (hone : ∀ r' ∈ roots, ∀ m ∈ typeNames r', publicName env cfg m = publicName env cfg (defines (target r) e) → m = defines (target r) e)
    (hN : publicName env cfg (defines (target r) e) ∉ hiddenTypes.map (·.1)) :
    (∃ doc d, GoDecl.type doc (publicName env cfg (defines (target r) e)) d ∈ file.types) ∧
    (∀ doc d, GoDecl.type doc (publicName env cfg (defines (target r) e)) d ∈ file.types →
      ∃ fields, (d = .struct fields ∨ cfg.postprocessType ≠ none ∧ SliceStruct (.struct fields)) ∧
        FieldsOf env cfg roots om (target r) (defines (target r) e) el fields) ∧
    ∀ g ∈ file.funcs, Passes gcfg (Wsdl.parse root) (IsOf roots (defines (target r) e)) (publicName env cfg (defines (target r) e)) g.2 := by
  obtain ⟨cfg', H', code, hgen, hstruct⟩ := C156_altered_partial env srt srt n parse penv ord roots cfg (some root :: docs) schemas H hparse hp ho hr hder hpre
    hpost om hom hd hf hn
  obtain ⟨a1, a2⟩ := hstruct r hrr hns e he el hg hsel hloc hhelp hone
  unfold genFile at h
  dsimp only at h
  rw [hgen] at h
  obtain ⟨q, hq, hfile⟩ := bind_ok (show ((portsIn env cfg' n k gcfg (Wsdl.parse root) (H', code) (Wsdl.parse root).ports).bind fun q =>
    .ok { types := (Xsdgen.genAST srt code).2, funcs := q.2 }) = Run.ok file from h)
  cases hfile
  exact ⟨a1, a2, portsIn_pass hp ho hr hder hq hparts hloc hN (genCode_knows hparse hp ho hr hder hpre hom hgen hrr hns he hg hsel hloc)⟩

/-- C160, partial: a function that wsdlgen generates sends and receives, for a part of a complex type of the schemas that has content or attributes,
values of the struct that the same file declares for the type, and the struct has the fields that the documents say. Missing: types that share their
Go names with others. -/
theorem C160_functions_partial (env : Env) (srt : Sorter strLt) (n k : Nat) (parse : List Xsdgen.Doc → Outcome (List Schema × THeap)) (penv : ParseEnv)
    (ord : MapOrder) (roots : List Element) (cfg : Xsdgen.Config) (gcfg : GenConfig) (root : Element) (docs : List Xsdgen.Doc) (schemas : List Schema) (H : THeap)
    (hparse : parse (some root :: docs) = parseSchemas penv ord roots) (hp : parseSchemas penv ord roots = .ok (schemas, H)) (ho : Orderly roots)
    (hr : Regular roots) (hder : Derivable roots) (hpre : Untouched cfg H schemas) (hpost : cfg.postprocessType = none)
    (om : Omitted) (hom : Omits cfg om) (hd : (wanted cfg (some root :: docs)).Nodup)
    (hf : ∀ x ∈ wanted cfg (some root :: docs), ∃ r ∈ roots, target r = x) (hn : H.length + 3 ≤ n) (file : File)
    (h : genFile env srt n k parse cfg gcfg (some root :: docs) = .ok file)
    (hparts : ∀ p, InOperation (Wsdl.parse root) p → p.type.loc ≠ b!"_self")
    (r : Element) (hrr : r ∈ roots) (hns : target r ∈ wanted cfg (some root :: docs)) (e : Element) (he : e ∈ allNamed r w3cSchemaNS b!"complexType")
    (el : Element) (hg : GivesStruct roots om (defines (target r) e) e el)
    (hsel : Selected cfg (defines (target r) e)) (hloc : (defines (target r) e).loc ≠ [])
    (hhelp : ∀ k helper, get (addStandardHelpers cfg).helperTypes k = some helper → helper.name ≠ publicName env cfg (defines (target r) e))
    (hone : ∀ r' ∈ roots, ∀ m ∈ typeNames r', publicName env cfg m = publicName env cfg (defines (target r) e) → m = defines (target r) e)
    (hN : publicName env cfg (defines (target r) e) ∉ hiddenTypes.map (·.1)) :
    (∃ doc d, GoDecl.type doc (publicName env cfg (defines (target r) e)) d ∈ file.types) ∧
    (∀ doc d, GoDecl.type doc (publicName env cfg (defines (target r) e)) d ∈ file.types →
      ∃ fields, d = .struct fields ∧ FieldsOf env cfg roots om (target r) (defines (target r) e) el fields) ∧
    ∀ g ∈ file.funcs, Passes gcfg (Wsdl.parse root) (IsOf roots (defines (target r) e)) (publicName env cfg (defines (target r) e)) g.2 := by
  obtain ⟨h1, h2, h3⟩ := C160_altered_partial env srt n k parse penv ord roots cfg gcfg root docs schemas H hparse hp ho hr hder hpre
    (unaltered_none hpost) om hom hd hf hn file h hparts r hrr hns e he el hg hsel hloc hhelp hone hN
  refine ⟨h1, fun doc d hdecl => ?_, h3⟩
  obtain ⟨fields, hx | ⟨hx, -⟩, hfields⟩ := h2 doc d hdecl
  · exact ⟨fields, hx, hfields⟩
  · exact absurd hpost hx

/-- C160, partial, for simple types: a function that wsdlgen generates sends and receives, for a part of a simple type of the schemas that is a list, a
union, an enumeration or restricted in length, values of the type that the same file declares for it, and the declaration is what the documents say. -/
theorem C160_simple_partial (env : Env) (srt : Sorter strLt) (n k : Nat) (parse : List Xsdgen.Doc → Outcome (List Schema × THeap)) (penv : ParseEnv)
    (ord : MapOrder) (roots : List Element) (cfg : Xsdgen.Config) (gcfg : GenConfig) (root : Element) (docs : List Xsdgen.Doc) (schemas : List Schema) (H : THeap)
    (hparse : parse (some root :: docs) = parseSchemas penv ord roots) (hp : parseSchemas penv ord roots = .ok (schemas, H)) (ho : Orderly roots)
    (hr : Regular roots) (hder : Derivable roots) (hpre : Untouched cfg H schemas) (hpost : Unaltered cfg)
    (hd : (wanted cfg (some root :: docs)).Nodup)
    (hf : ∀ x ∈ wanted cfg (some root :: docs), ∃ r ∈ roots, target r = x) (hn : H.length + 3 ≤ n) (file : File)
    (h : genFile env srt n k parse cfg gcfg (some root :: docs) = .ok file)
    (hparts : ∀ p, InOperation (Wsdl.parse root) p → p.type.loc ≠ b!"_self")
    (r : Element) (hrr : r ∈ roots) (hns : target r ∈ wanted cfg (some root :: docs)) (e : Element) (he : e ∈ allNamed r w3cSchemaNS b!"simpleType")
    (el : Element) (hk : schemaKids e = [el]) (href : Refined e)
    (hsel : Selected cfg (defines (target r) e)) (hloc : (defines (target r) e).loc ≠ [])
    (hhelp : ∀ k helper, get (addStandardHelpers cfg).helperTypes k = some helper → helper.name ≠ publicName env cfg (defines (target r) e))
    (hone : ∀ r' ∈ roots, ∀ m ∈ typeNames r', publicName env cfg m = publicName env cfg (defines (target r) e) → m = defines (target r) e)
    (hN : publicName env cfg (defines (target r) e) ∉ hiddenTypes.map (·.1)) :
    (∃ doc d, GoDecl.type doc (publicName env cfg (defines (target r) e)) d ∈ file.types) ∧
    (∀ doc d, GoDecl.type doc (publicName env cfg (defines (target r) e)) d ∈ file.types → DeclaredAs roots el d) ∧
    ∀ g ∈ file.funcs, Passes gcfg (Wsdl.parse root) (IsOf roots (defines (target r) e)) (publicName env cfg (defines (target r) e)) g.2 := by
  obtain ⟨cfg', H', code, hgen, hsimple⟩ := C157_simple_partial env srt srt n parse penv ord roots cfg (some root :: docs) schemas H hparse hp ho hr hder hpre
    hpost hd hf hn
  obtain ⟨a1, a2⟩ := hsimple r hrr hns e he el hk href hsel hloc hhelp hone
  unfold genFile at h
  dsimp only at h
  rw [hgen] at h
  obtain ⟨q, hq, hfile⟩ := bind_ok (show ((portsIn env cfg' n k gcfg (Wsdl.parse root) (H', code) (Wsdl.parse root).ports).bind fun q =>
    .ok { types := (Xsdgen.genAST srt code).2, funcs := q.2 }) = Run.ok file from h)
  cases hfile
  obtain ⟨hc, -, -⟩ := parse_derivable ho hr hder hp
  obtain ⟨s, hs, hst, id, t, f, m, hget, hid, htn, hpt, hf'⟩ := declared_simple ho hp hrr he
  have hname : (((TObj.simple t).mapTy f).withMixed m).name = defines (target r) e := htn
  exact ⟨a1, a2, portsIn_pass hp ho hr hder hq hparts hloc hN (genCode_keeps hparse hp ho hpre hgen hs (by rw [hst]; exact hns) hget hid hname
    (Or.inl (refined_content ho hp hc hrr he href id _ hid hname)) (simple_named ho hrr he) hsel hloc)⟩

/-! ### Documents that meet the conditions -/

/-- A schema with a type and an element of the type. -/
def callDoc : Str :=
  b!"<xs:schema xmlns:xs=\"http://www.w3.org/2001/XMLSchema\" xmlns:u=\"u\" targetNamespace=\"u\">" ++
  b!"<xs:element name=\"ask\" type=\"u:Ask\"/>" ++
  b!"<xs:complexType name=\"Ask\"><xs:sequence><xs:element name=\"size\" type=\"xs:int\"/></xs:sequence>" ++
  b!"<xs:attribute name=\"a\" type=\"xs:string\"/></xs:complexType></xs:schema>"

/-- The schemas of a document, and what `Parse` makes of them. -/
def typesIn (doc : Str) : Option (List Element × List Schema × THeap) := ((parseDocs [doc]).bind (normalize doubling 40)).bind fun roots =>
  match parseSchemas testEnv Xsd.inOrder roots with
  | .ok r => some (roots, r)
  | _ => none

theorem typesIn_parse {doc : Str} {roots : List Element} {schemas : List Schema} {H : THeap} (h : typesIn doc = some (roots, schemas, H)) :
    parseSchemas testEnv Xsd.inOrder roots = .ok (schemas, H) := by
  obtain ⟨roots', -, h⟩ := Option.bind_eq_some_iff.mp h
  split at h
  · rename_i r hr
    cases h
    exact hr
  · cases h

/-- A document with an operation that is given the type and the element, and answers with the element. -/
def callWsdl : Element := fileDoc [(b!"x", b!"type", b!"u:Ask"), (b!"y", b!"element", b!"u:ask")] [(b!"r", b!"element", b!"u:ask")]
  [(b!"get", b!"t:In", b!"t:Out")] [b!"Q"]

def callFile (gcfg : GenConfig) (root : Element) (roots : List Element) : Option File :=
  (genFile asciiEnv (Sorter.byKey fun s => s) 10 2 (fun _ => parseSchemas testEnv Xsd.inOrder roots) C101_cfg gcfg [some root]).toOption

theorem callFile_ok {gcfg : GenConfig} {root : Element} {roots : List Element} {file : File} (h : callFile gcfg root roots = some file) :
    genFile asciiEnv (Sorter.byKey fun s => s) 10 2 (fun _ => parseSchemas testEnv Xsd.inOrder roots) C101_cfg gcfg [some root] = .ok file := by
  unfold callFile at h
  revert h
  generalize genFile _ _ _ _ _ _ _ _ = r
  intro h
  cases r <;> cases h
  rfl

theorem fileThat {o : Option File} {f : File → Bool} (h : o.any f = true) : ∃ file, o = some file ∧ f file = true := by
  cases o with
  | none => cases h
  | some file => exact ⟨file, rfl, h⟩

/-- `IsOf`, decided. -/
def isOf (roots : List Element) (name : XName) (p : Part) : Bool :=
  decide (p.type = name) || (decide (p.type.loc = [] ∧ p.element.loc ≠ []) && roots.any fun r => decide (target r = p.element.space) &&
    r.children.all fun top => decide (top.name ≠ ⟨w3cSchemaNS, b!"element"⟩) || (top :: allNamed top w3cSchemaNS b!"element").all fun v =>
      decide ((defines (target r) v).loc = p.element.loc → attrNamed v b!"type" ≠ [] ∧ refersTo v b!"type" = name))

theorem isOf_spec {roots : List Element} {name : XName} {p : Part} (h : isOf roots name p = true) : IsOf roots name p := by
  unfold isOf at h
  simp only [Bool.or_eq_true, Bool.and_eq_true, decide_eq_true_eq, List.any_eq_true, List.all_eq_true] at h
  rcases h with h | ⟨⟨h1, h2⟩, r, hr, h3, h4⟩
  · exact Or.inl h
  · exact Or.inr ⟨h1, h2, r, hr, h3, fun top ht hn v hv => (h4 top ht).elim (fun h => absurd hn h) (fun h => h v hv)⟩

/-- The document and the schema meet the conditions: `Ask` is a struct with the fields that the schema says, and the function is given two and answers
with one. If one parameter is allowed, it is given a struct of two. -/
example : ∃ roots schemas H, typesIn callDoc = some (roots, schemas, H) ∧ Orderly roots ∧ Regular roots ∧ Derivable roots ∧
    (∀ p ∈ allParts (Wsdl.parse callWsdl), IsOf roots ⟨b!"u", b!"Ask"⟩ p) ∧
    ∃ file1 file2, callFile ⟨none, 5, 5⟩ callWsdl roots = some file1 ∧ callFile ⟨none, 1, 5⟩ callWsdl roots = some file2 ∧
      file1.funcs.map (·.2.params) = [[b!"ctx context.Context", b!"x Ask", b!"y Ask"]] ∧ file1.funcs.map (·.2.results) = [[b!"Ask", b!"error"]] ∧
      file2.funcs.map (·.2.decls) = [[(b!"In", [(b!"X", b!"Ask"), (b!"Y", b!"Ask")])]] ∧
      ∃ r ∈ roots, ∃ el, (allNamed el w3cSchemaNS b!"element").map (attrNamed · b!"name") = [b!"size"] ∧
        (allNamed el w3cSchemaNS b!"attribute").map (attrNamed · b!"name") = [b!"a"] ∧
        ∃ doc fields, GoDecl.type doc b!"Ask" (.struct fields) ∈ file1.types ∧ FieldsOf asciiEnv C101_cfg roots {} (target r) ⟨b!"u", b!"Ask"⟩ el fields ∧
          ∀ g ∈ file1.funcs, Passes ⟨none, 5, 5⟩ (Wsdl.parse callWsdl) (IsOf roots ⟨b!"u", b!"Ask"⟩) b!"Ask" g.2 := by
  have : (typesIn callDoc).map (fun (x : List Element × List Schema × THeap) => orderlyOk x.1 && regularOk x.1 &&
      derivableOk ordersRank (fun n => decide (n.space ≠ w3cSchemaNS) || ordersUnlisted n) x.1 && decide (∀ n ∈ [b!"u"], ∃ r ∈ x.1, target r = n) &&
      structOk C101_cfg x.1 {} ⟨b!"u", b!"Ask"⟩ [b!"size"] [b!"a"] && decide (x.2.2.length + 3 ≤ 10) &&
      ((allParts (Wsdl.parse callWsdl)).all fun p => isOf x.1 ⟨b!"u", b!"Ask"⟩ p && decide (p.type.loc ≠ b!"_self")) &&
      (callFile ⟨none, 5, 5⟩ callWsdl x.1).any (fun file =>
        decide (file.funcs.map (·.2.params) = [[b!"ctx context.Context", b!"x Ask", b!"y Ask"]]) && decide (file.funcs.map (·.2.results) = [[b!"Ask", b!"error"]])) &&
      (callFile ⟨none, 1, 5⟩ callWsdl x.1).any (fun file =>
        decide (file.funcs.map (·.2.decls) = [[(b!"In", [(b!"X", b!"Ask"), (b!"Y", b!"Ask")])]]))) = some true := by
    decide +kernel
  obtain ⟨⟨roots, schemas, H⟩, hx, h⟩ := Option.map_eq_some_iff.mp this
  simp only [Bool.and_eq_true] at h
  obtain ⟨⟨⟨⟨⟨⟨⟨⟨ho, hr⟩, hd⟩, hf⟩, hs⟩, hl⟩, hparts⟩, h1⟩, h2⟩ := h
  obtain ⟨file1, hf1, h1⟩ := fileThat h1
  obtain ⟨file2, hf2, h2⟩ := fileThat h2
  obtain ⟨h1, h1'⟩ := (Bool.and_eq_true _ _).mp h1
  have hparts := fun p hp => (Bool.and_eq_true _ _).mp (List.all_eq_true.mp hparts p hp)
  refine ⟨roots, schemas, H, hx, orderly_of ho, regular_of hr, derivable_of hd, fun p hp => isOf_spec (hparts p hp).1, file1, file2, hf1, hf2,
    of_decide_eq_true h1, of_decide_eq_true h1', of_decide_eq_true h2, ?_⟩
  obtain ⟨r, hrr, e, he, el, hn, hgs, k1, k2, k3, k4⟩ := structOk_spec hs
  have hsp := (orderly_of ho).spaces r hrr _ (Or.inl (List.mem_append_left _ (List.mem_map_of_mem (List.mem_append_left _ he))))
  rw [← hn] at hsp
  have hpub : publicName asciiEnv C101_cfg (defines (target r) e) = b!"Ask" := by rw [← hn]; decide +kernel
  obtain ⟨⟨doc, d, hdecl⟩, hfields, hfuncs⟩ := C160_functions_partial asciiEnv (Sorter.byKey fun s => s) 10 2
    (fun _ => parseSchemas testEnv Xsd.inOrder roots) testEnv Xsd.inOrder roots C101_cfg ⟨none, 5, 5⟩ callWsdl [] schemas H rfl (typesIn_parse hx)
    (orderly_of ho) (regular_of hr) (derivable_of hd) (untouched_none rfl) rfl {} ⟨Or.inl ⟨rfl, rfl⟩, Or.inl ⟨rfl, rfl⟩⟩ (by decide : [b!"u"].Nodup) (of_decide_eq_true hf) (of_decide_eq_true hl) file1
    (callFile_ok hf1) (fun p hp => of_decide_eq_true (hparts p (allParts_mem hp)).2) r hrr
    (by rw [← hsp]; exact List.mem_singleton_self _) e he el (by rw [← hn]; exact hgs) ⟨fun m e => (nomatch e), fun f e => (nomatch e)⟩ (by rw [← hn]; decide)
    (by rw [← hn]; exact k3) (by rw [← hn]; exact k4) (by rw [hpub]; decide)
  obtain ⟨fields, rfl, hfo⟩ := hfields doc d hdecl
  rw [hpub, ← hn] at hfuncs
  rw [hpub] at hdecl
  rw [← hn] at hfo
  exact ⟨r, hrr, el, k1, k2, doc, fields, hdecl, hfo, hfuncs⟩

/-- A schema with a simple type and an element of the type. -/
def kindDoc : Str :=
  b!"<xs:schema xmlns:xs=\"http://www.w3.org/2001/XMLSchema\" xmlns:u=\"u\" targetNamespace=\"u\"><xs:element name=\"kind\" type=\"u:Kind\"/>" ++
  b!"<xs:simpleType name=\"Kind\"><xs:restriction base=\"xs:token\"><xs:enumeration value=\"a\"/></xs:restriction></xs:simpleType></xs:schema>"

def kindWsdl : Element := fileDoc [(b!"x", b!"type", b!"u:Kind")] [(b!"r", b!"element", b!"u:kind")] [(b!"get", b!"t:In", b!"t:Out")] [b!"Q"]

/-- The document and the schema meet the conditions for simple types: `Kind` is a string, and the function is given one and answers with one. -/
example : ∃ roots schemas H, typesIn kindDoc = some (roots, schemas, H) ∧ Orderly roots ∧ Regular roots ∧ Derivable roots ∧
    (∀ p ∈ allParts (Wsdl.parse kindWsdl), IsOf roots ⟨b!"u", b!"Kind"⟩ p) ∧
    ∃ file, callFile ⟨none, 5, 5⟩ kindWsdl roots = some file ∧
      file.funcs.map (·.2.params) = [[b!"ctx context.Context", b!"x Kind"]] ∧ file.funcs.map (·.2.results) = [[b!"Kind", b!"error"]] ∧
      ∃ el, el.name.loc = b!"restriction" ∧ ∃ doc d, GoDecl.type doc b!"Kind" d ∈ file.types ∧ DeclaredAs roots el d ∧
        ∀ g ∈ file.funcs, Passes ⟨none, 5, 5⟩ (Wsdl.parse kindWsdl) (IsOf roots ⟨b!"u", b!"Kind"⟩) b!"Kind" g.2 := by
  have : (typesIn kindDoc).map (fun (x : List Element × List Schema × THeap) => orderlyOk x.1 && regularOk x.1 &&
      derivableOk ordersRank (fun n => decide (n.space ≠ w3cSchemaNS) || ordersUnlisted n) x.1 && decide (∀ n ∈ [b!"u"], ∃ r ∈ x.1, target r = n) &&
      simpleOk C101_cfg x.1 ⟨b!"u", b!"Kind"⟩ b!"restriction" ⟨w3cSchemaNS, b!"token"⟩ && decide (x.2.2.length + 3 ≤ 10) &&
      ((allParts (Wsdl.parse kindWsdl)).all fun p => isOf x.1 ⟨b!"u", b!"Kind"⟩ p && decide (p.type.loc ≠ b!"_self")) &&
      (callFile ⟨none, 5, 5⟩ kindWsdl x.1).any (fun file =>
        decide (file.funcs.map (·.2.params) = [[b!"ctx context.Context", b!"x Kind"]]) && decide (file.funcs.map (·.2.results) = [[b!"Kind", b!"error"]]))) =
      some true := by
    decide +kernel
  obtain ⟨⟨roots, schemas, H⟩, hx, h⟩ := Option.map_eq_some_iff.mp this
  simp only [Bool.and_eq_true] at h
  obtain ⟨⟨⟨⟨⟨⟨⟨ho, hr⟩, hd⟩, hf⟩, hs⟩, hl⟩, hparts⟩, h1⟩ := h
  obtain ⟨file, hfile, h1⟩ := fileThat h1
  obtain ⟨h1, h1'⟩ := (Bool.and_eq_true _ _).mp h1
  have hparts := fun p hp => (Bool.and_eq_true _ _).mp (List.all_eq_true.mp hparts p hp)
  refine ⟨roots, schemas, H, hx, orderly_of ho, regular_of hr, derivable_of hd, fun p hp => isOf_spec (hparts p hp).1, file, hfile,
    of_decide_eq_true h1, of_decide_eq_true h1', ?_⟩
  unfold simpleOk at hs
  split at hs
  · rename_i r e el hdef
    obtain ⟨hrr, he, hn, hk, href⟩ := simpleIn_spec hdef
    simp only [Bool.and_eq_true, decide_eq_true_eq, List.all_eq_true] at hs
    obtain ⟨⟨⟨k1, k2⟩, k3⟩, k4⟩ := hs
    have hsp := (orderly_of ho).spaces r hrr _ (Or.inl (List.mem_append_left _ (List.mem_map_of_mem (List.mem_append_right _ he))))
    rw [hn] at hsp
    have hpub : publicName asciiEnv C101_cfg (defines (target r) e) = b!"Kind" := by rw [hn]; decide +kernel
    obtain ⟨⟨doc, d, hdecl⟩, hall, hfuncs⟩ := C160_simple_partial asciiEnv (Sorter.byKey fun s => s) 10 2
      (fun _ => parseSchemas testEnv Xsd.inOrder roots) testEnv Xsd.inOrder roots C101_cfg ⟨none, 5, 5⟩ kindWsdl [] schemas H rfl (typesIn_parse hx)
      (orderly_of ho) (regular_of hr) (derivable_of hd) (untouched_none rfl) (unaltered_none rfl) (by decide : [b!"u"].Nodup) (of_decide_eq_true hf) (of_decide_eq_true hl) file
      (callFile_ok hfile) (fun p hp => of_decide_eq_true (hparts p (allParts_mem hp)).2) r hrr
      (by rw [← hsp]; exact List.mem_singleton_self _) e he el hk href ⟨fun m e => (nomatch e), fun f e => (nomatch e)⟩ (by rw [hn]; decide)
      (fun k helper hk => by rw [hn]; exact k3 _ (get_some_mem hk)) (by rw [hn]; exact k4) (by rw [hpub]; decide)
    have := hall doc d hdecl
    rw [hpub, hn] at hfuncs
    rw [hpub] at hdecl
    exact ⟨el, k1, doc, d, hdecl, this, hfuncs⟩
  · cases hs

/-- C160 without the condition that the type shares its Go name with no other. -/
def C160_full : Prop :=
  ∀ (env : Env) (srt : Sorter strLt) (n k : Nat) (parse : List Xsdgen.Doc → Outcome (List Schema × THeap)) (penv : ParseEnv)
    (ord : MapOrder) (roots : List Element) (cfg : Xsdgen.Config) (gcfg : GenConfig) (root : Element) (docs : List Xsdgen.Doc) (schemas : List Schema)
    (H : THeap), parse (some root :: docs) = parseSchemas penv ord roots → parseSchemas penv ord roots = .ok (schemas, H) → Orderly roots →
    Regular roots → Derivable roots → Untouched cfg H schemas → cfg.postprocessType = none → ∀ om,
    Omits cfg om → (wanted cfg (some root :: docs)).Nodup → (∀ x ∈ wanted cfg (some root :: docs), ∃ r ∈ roots, target r = x) →
    H.length + 3 ≤ n → ∀ file, genFile env srt n k parse cfg gcfg (some root :: docs) = .ok file →
    (∀ p, InOperation (Wsdl.parse root) p → p.type.loc ≠ b!"_self") →
    ∀ r ∈ roots, target r ∈ wanted cfg (some root :: docs) → ∀ e ∈ allNamed r w3cSchemaNS b!"complexType", ∀ el,
      GivesStruct roots om (defines (target r) e) e el → Selected cfg (defines (target r) e) → (defines (target r) e).loc ≠ [] →
      (∀ k helper, get (addStandardHelpers cfg).helperTypes k = some helper → helper.name ≠ publicName env cfg (defines (target r) e)) →
      publicName env cfg (defines (target r) e) ∉ hiddenTypes.map (·.1) →
      (∃ doc d, GoDecl.type doc (publicName env cfg (defines (target r) e)) d ∈ file.types) ∧
      (∀ doc d, GoDecl.type doc (publicName env cfg (defines (target r) e)) d ∈ file.types →
        ∃ fields, d = .struct fields ∧ FieldsOf env cfg roots om (target r) (defines (target r) e) el fields) ∧
      ∀ g ∈ file.funcs, Passes gcfg (Wsdl.parse root) (IsOf roots (defines (target r) e)) (publicName env cfg (defines (target r) e)) g.2

/-- Two types with the same Go name. -/
def pairDoc : Str :=
  b!"<xs:schema xmlns:xs=\"http://www.w3.org/2001/XMLSchema\" targetNamespace=\"u\">" ++
  b!"<xs:complexType name=\"t\"><xs:attribute name=\"a\" type=\"xs:int\"/></xs:complexType>" ++
  b!"<xs:complexType name=\"T\"><xs:attribute name=\"b\" type=\"xs:int\"/></xs:complexType></xs:schema>"

/-- An operation that is given one of each. -/
def pairWsdl : Element := fileDoc [(b!"x", b!"type", b!"u:t"), (b!"y", b!"type", b!"u:T")] [] [(b!"get", b!"t:In", b!"t:Out")] [b!"Q"]

/-- The definition of `t` is one with an attribute `a` that has no form. -/
def pairOk (roots : List Element) : Bool :=
  match definedIn roots ⟨b!"u", b!"t"⟩ with
  | some (_, e, el) => (modelOf e).isSome && decide (refersTo el b!"base" = ⟨w3cSchemaNS, b!"anyType"⟩) &&
      (allNamed el w3cSchemaNS b!"attribute").any fun v => decide (attrNamed v b!"name" = b!"a" ∧ attrNamed v b!"use" ≠ b!"required" ∧
        ∀ x ∈ v.attrs, x.name = ⟨[], b!"form"⟩ → x.value ≠ b!"qualified")
  | none => false

/-- C160 is false as it stands: a function that is given a value of each of two types with the same Go name takes two values of one struct, which has
the fields of one of the types only. -/
theorem C160_refuted : ¬ C160_full := by
  intro hfull
  have : (typesIn pairDoc).map (fun (x : List Element × List Schema × THeap) => orderlyOk x.1 && regularOk x.1 &&
      derivableOk ordersRank (fun n => decide (n.space ≠ w3cSchemaNS) || ordersUnlisted n) x.1 && decide (∀ n ∈ [b!"u"], ∃ r ∈ x.1, target r = n) &&
      decide (x.2.2.length + 3 ≤ 10) && pairOk x.1 &&
      (addStandardHelpers C101_cfg).helperTypes.all (fun h => decide (h.2.name ≠ b!"T")) &&
      ((allParts (Wsdl.parse pairWsdl)).all fun p => decide (p.type.loc ≠ b!"_self")) &&
      (callFile ⟨none, 5, 5⟩ pairWsdl x.1).any (fun file =>
        decide ((declaredExprs file.types).map (fun x => (x.1, tagsOf x.2)) = [(b!"T", [b!"xml:\"b,attr,omitempty\""])]) &&
        decide (file.funcs.map (·.2.params) = [[b!"ctx context.Context", b!"x T", b!"y T"]]))) = some true := by
    decide +kernel
  obtain ⟨⟨roots, schemas, H⟩, hx, h⟩ := Option.map_eq_some_iff.mp this
  simp only [Bool.and_eq_true] at h
  obtain ⟨⟨⟨⟨⟨⟨⟨⟨ho, hr⟩, hd⟩, hf⟩, hl⟩, ht⟩, hh⟩, hparts⟩, h1⟩ := h
  obtain ⟨file, hfile, h1⟩ := fileThat h1
  obtain ⟨hdecls, -⟩ := (Bool.and_eq_true _ _).mp h1
  have hdecls := of_decide_eq_true hdecls
  have hall := hfull asciiEnv (Sorter.byKey fun s => s) 10 2
    (fun _ => parseSchemas testEnv Xsd.inOrder roots) testEnv Xsd.inOrder roots C101_cfg ⟨none, 5, 5⟩ pairWsdl [] schemas H rfl (typesIn_parse hx)
    (orderly_of ho) (regular_of hr) (derivable_of hd) (untouched_none rfl) rfl {} ⟨Or.inl ⟨rfl, rfl⟩, Or.inl ⟨rfl, rfl⟩⟩ (by decide : [b!"u"].Nodup) (of_decide_eq_true hf) (of_decide_eq_true hl) file
    (callFile_ok hfile) (fun p hp => of_decide_eq_true (List.all_eq_true.mp hparts p (allParts_mem hp)))
  unfold pairOk at ht
  split at ht
  · rename_i r e el hdef
    obtain ⟨hr', he, hn, hm⟩ := definedIn_spec hdef
    simp only [Bool.and_eq_true, decide_eq_true_eq, List.any_eq_true] at ht
    obtain ⟨⟨hs, hb⟩, v, hv, hva, hvu, hvf⟩ := ht
    have hm : modelOf e = some el := by
      rcases hm with hm | ⟨hm, -⟩
      · exact hm
      · rw [hm] at hs; cases hs
    have hsp := (orderly_of ho).spaces r hr' _ (Or.inl (List.mem_append_left _ (List.mem_map_of_mem (List.mem_append_left _ he))))
    rw [hn] at hsp
    have hpub : publicName asciiEnv C101_cfg ⟨b!"u", b!"t"⟩ = b!"T" := by decide +kernel
    obtain ⟨⟨doc, d, hdecl⟩, hfields, -⟩ := hall r hr' (by rw [← hsp]; exact List.mem_singleton_self _) e he el
      (Or.inl ⟨modelOf_model hm, Or.inl (.any hr' he (modelOf_model hm) hb)⟩) ⟨fun m e => (nomatch e), fun f e => (nomatch e)⟩ (by rw [hn]; decide) (by
        intro k helper hk
        rw [hn, hpub]
        exact of_decide_eq_true (List.all_eq_true.mp hh _ (get_some_mem hk))) (by rw [hn, hpub]; decide)
    obtain ⟨fields, rfl, -, hfa, -⟩ := hfields doc d hdecl
    obtain ⟨f, hf', sp, loc, -, hloc, -, hspace, htag⟩ := hfa v hv (Or.inl rfl)
    rw [hspace hvf, hloc (by rw [hva]; decide), hva, if_neg hvu] at htag
    have hmem : (b!"T", fields.map (·.tag)) ∈ [(b!"T", [b!"xml:\"b,attr,omitempty\""])] := by
      rw [← hdecls]
      refine List.mem_map.mpr ⟨(b!"T", .struct fields), List.mem_filterMap.mpr ⟨_, hdecl, ?_⟩, rfl⟩
      rw [hn, hpub]
    have : fields.map (·.tag) = [b!"xml:\"b,attr,omitempty\""] := congrArg Prod.snd (List.mem_singleton.mp hmem)
    have hft : f.tag ∈ fields.map (·.tag) := List.mem_map_of_mem hf'
    rw [this, List.mem_singleton, htag] at hft
    revert hft
    decide
  · cases ht

end GoXml.Wsdl
