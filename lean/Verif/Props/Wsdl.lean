import Verif.Proofs.Wsdl
set_option autoImplicit false

/-! Properties C54-C57, C70: what `wsdl.Parse` extracts from a document. -/

namespace GoXml.Wsdl

/-- The target namespace. -/
abbrev tnsOf (root : Element) : Str := attrNamed root b!"targetNamespace"

/-- A document with two messages, a port type and a binding with SOAP 1.1 and HTTP parts, and two
services. Prefix `t` is the target namespace. -/
def sampleScope : Scope := [⟨b!"urn:t", b!"t"⟩, ⟨nsWsdl, []⟩, ⟨nsSoap, b!"s"⟩]

def w (loc : Str) (attrs : List (Str × Str)) (cs : List Element) : Element :=
  .mk ⟨nsWsdl, loc⟩ (attrs.map fun a => ⟨⟨[], a.1⟩, a.2⟩) sampleScope [] cs

def foreign (ns loc : Str) (attrs : List (Str × Str)) : Element :=
  .mk ⟨ns, loc⟩ (attrs.map fun a => ⟨⟨[], a.1⟩, a.2⟩) sampleScope [] []

def sampleDoc (soap : Str) : Element :=
  w b!"definitions" [(b!"targetNamespace", b!"urn:t")] [
    w b!"message" [(b!"name", b!"In")] [
      w b!"part" [(b!"name", b!"a"), (b!"type", b!"t:A")] [],
      w b!"part" [(b!"name", b!"b"), (b!"element", b!"t:B")] []],
    w b!"message" [(b!"name", b!"Out")] [],
    w b!"portType" [(b!"name", b!"P")] [
      w b!"operation" [(b!"name", b!"Get")] [
        w b!"input" [(b!"message", b!"t:In")] [], w b!"output" [(b!"message", b!"t:Out")] []],
      w b!"operation" [(b!"name", b!"Put")] [w b!"input" [(b!"message", b!"t:In")] []]],
    w b!"binding" [(b!"name", b!"B"), (b!"type", b!"t:P")] [
      foreign nsHttp b!"binding" [(b!"verb", b!"get")],
      w b!"operation" [(b!"name", b!"Get")] [foreign soap b!"operation" [(b!"soapAction", b!"urn:get")]]],
    w b!"service" [(b!"name", b!"S1")] [w b!"port" [(b!"name", b!"Q1"), (b!"binding", b!"t:B")] [foreign soap b!"address" [(b!"location", b!"http://1")]]],
    w b!"service" [(b!"name", b!"S2")] [w b!"port" [(b!"name", b!"Q2"), (b!"binding", b!"t:X")] []]]

/-! ### C54 -/

/-- C54. For every document and every name, the message held under the name is the one that the
document defines (the last one if there are several). -/
theorem C54_messages (root : Element) (n : XName) :
    (parse root).message.get n =
      ((definitions root (tnsOf root) b!"message" n).getLast?).map (messageOf (tnsOf root)) := by
  have h : (parse root).message = parseMessages (root.attr [] b!"targetNamespace") root := rfl
  rw [h, attr_eq, parseMessages, searchEl_eq _ _ _ (by decide)]
  simp only [parseMessage_eq]
  rw [messages_fold]
  simp [GoMap.get_nil, definitions]; rfl

/-- C54. If no two messages have the same name (as WSDL requires), every message element is held
under its name, with its parts, and nothing else is. -/
theorem C54_complete (root : Element)
    (hu : ((allNamed root nsWsdl b!"message").map (defines (tnsOf root))).Nodup) :
    (∀ m ∈ allNamed root nsWsdl b!"message",
      (parse root).message.get (defines (tnsOf root) m) = some (messageOf (tnsOf root) m)) ∧
    (∀ n msg, (parse root).message.get n = some msg →
      ∃ m ∈ allNamed root nsWsdl b!"message", n = defines (tnsOf root) m ∧ msg = messageOf (tnsOf root) m) := by
  constructor
  · intro m hm
    rw [C54_messages]
    have hf : definitions root (tnsOf root) b!"message" (defines (tnsOf root) m) = [m] := by
      unfold definitions
      generalize allNamed root nsWsdl b!"message" = l at *
      induction l with
      | nil => cases hm
      | cons a l ih =>
        rw [List.map_cons, List.nodup_cons] at hu
        rw [List.filter_cons]
        rcases List.mem_cons.mp hm with rfl | hm
        · rw [if_pos (by simp), List.filter_eq_nil_iff.mpr]
          intro x hx
          simp only [decide_eq_true_eq]
          exact fun he => hu.1 (List.mem_map.mpr ⟨x, hx, he⟩)
        · rw [if_neg]
          · exact ih hu.2 hm
          · simp only [decide_eq_true_eq]
            exact fun he => hu.1 (List.mem_map.mpr ⟨m, hm, he.symm⟩)
    rw [hf]; rfl
  · intro n msg h
    rw [C54_messages] at h
    cases hl : (definitions root (tnsOf root) b!"message" n).getLast? with
    | none => rw [hl] at h; cases h
    | some m =>
      rw [hl] at h
      have hm := List.mem_of_getLast? hl
      unfold definitions at hm
      obtain ⟨hm, hd⟩ := List.mem_filter.mp hm
      exact ⟨m, hm, (by simpa using hd : defines (tnsOf root) m = n).symm, (by simpa using h.symm)⟩

example : ((allNamed (sampleDoc nsSoap) nsWsdl b!"message").map (defines (tnsOf (sampleDoc nsSoap)))).Nodup ∧
    (parse (sampleDoc nsSoap)).message.get ⟨b!"urn:t", b!"In"⟩ =
      some ⟨⟨b!"urn:t", b!"In"⟩, [⟨b!"a", ⟨b!"urn:t", b!"A"⟩, ⟨nsWsdl, []⟩⟩, ⟨b!"b", ⟨nsWsdl, []⟩, ⟨b!"urn:t", b!"B"⟩⟩]⟩ := by
  decide +kernel

/-! ### C55 -/

/-- The ports of a service. -/
theorem ports_of_service (root svc : Element) :
    parsePorts (tnsOf root) root svc = (allNamed svc nsWsdl b!"port").map fun port =>
      { name := attrNamed port b!"name"
        address := lastOr (lastOr [] (fun a => attrNamed a b!"location") (allNamed port nsSoap b!"address"))
          (fun a => attrNamed a b!"location") (allNamed port nsSoap12 b!"address")
        method := parseMethod (tnsOf root) root port
        operations := parseOperations (tnsOf root) root port } := by
  unfold parsePorts
  rw [searchEl_eq _ _ _ (by decide)]
  simp only [assignLast_eq, attr_eq]
  rw [show wsdlNS = nsWsdl from rfl]
  congr 1
  funext port
  rw [searchEl_eq _ _ _ (by decide), searchEl_eq _ _ _ (by decide)]
  rfl

/-- C55, partial. For every document, a port has exactly one operation for each operation of the port
types that its bindings refer to, in document order, with that operation's name, documentation, input
and output message, and the action of the SOAP 1.1 operation in the binding. Missing: the action if
the binding is for SOAP 1.2, see `C55_soap12_refuted`. -/
theorem C55_operations_partial (root port : Element) :
    parseOperations (tnsOf root) root port = (offered root (tnsOf root) port).map fun bo =>
      { doc := docText bo.2
        name := defines (tnsOf root) bo.2
        input := lastOr ⟨[], []⟩ (fun i => refersTo i b!"message") (allNamed bo.2 nsWsdl b!"input")
        output := lastOr ⟨[], []⟩ (fun i => refersTo i b!"message") (allNamed bo.2 nsWsdl b!"output")
        soapAction := lastOr [] (fun s => attrNamed s b!"soapAction") (soapOperations nsSoap bo.1 bo.2) } := by
  unfold parseOperations offered bindingsOf
  rw [isBinding_filter, refersTo_eq]
  simp only [isPortType_filter, refersTo_eq, List.map_flatMap, List.map_map]
  congr 1
  funext b
  congr 1
  funext pt
  rw [searchEl_eq _ _ _ (by decide)]
  apply List.map_congr_left
  intro o _
  unfold parseOperation
  simp only [Function.comp, assignLast_eq, soapLoop_eq, documentation_eq, resolveDefault_eq, refersTo_eq]
  rw [searchEl_eq _ _ _ (by decide), searchEl_eq _ _ _ (by decide), searchFuncEl_eq]
  congr 2
  unfold soapOperations counterparts
  congr 1
  apply List.filter_congr
  intro x _
  simp [attr_eq]

/-- The operations of a port with one binding and one port type: one per operation, with the input
and output messages. -/
theorem C55_unique_partial (root port b pt : Element) (hb : bindingsOf root (tnsOf root) port = [b])
    (hp : definitions root (tnsOf root) b!"portType" (refersTo b b!"type") = [pt]) :
    (parseOperations (tnsOf root) root port).map (·.name) =
      (allNamed pt nsWsdl b!"operation").map (defines (tnsOf root)) ∧
    ∀ o ∈ allNamed pt nsWsdl b!"operation", ∀ i out, allNamed o nsWsdl b!"input" = [i] →
      allNamed o nsWsdl b!"output" = [out] → ∀ e s, counterparts b o = [e] → allNamed e nsSoap b!"operation" = [s] →
      ⟨docText o, attrNamed s b!"soapAction", defines (tnsOf root) o, refersTo i b!"message", refersTo out b!"message"⟩ ∈
        parseOperations (tnsOf root) root port := by
  rw [C55_operations_partial]
  unfold offered
  rw [hb]
  simp only [List.flatMap_cons, List.flatMap_nil, List.append_nil, hp, List.map_map]
  refine ⟨rfl, ?_⟩
  intro o ho i out hi hout e s he hs
  refine List.mem_map.mpr ⟨o, ho, ?_⟩
  simp [Function.comp, hi, hout, soapOperations, he, hs, lastOr]

/-- C55 is false of the action: a binding for SOAP 1.2 gives no action although it states one. -/
theorem C55_soap12_refuted :
    let root := sampleDoc nsSoap12
    ∃ port ∈ allNamed root nsWsdl b!"port", ∃ bo ∈ offered root (tnsOf root) port,
      (soapOperations nsSoap12 bo.1 bo.2).map (attrNamed · b!"soapAction") = [b!"urn:get"] ∧
      (parseOperations (tnsOf root) root port)[0]?.map (·.name) = some (defines (tnsOf root) bo.2) ∧
      (parseOperations (tnsOf root) root port)[0]?.map (·.soapAction) = some [] := by
  refine ⟨_, List.mem_of_getElem? (i := 0) rfl, _, List.mem_of_getElem? (i := 0) rfl, ?_⟩
  decide +kernel

/-- The hypotheses of `C55_unique_partial` hold in the sample document, and its operations are found. -/
example :
    let root := sampleDoc nsSoap
    ∀ port, (allNamed root nsWsdl b!"port")[0]? = some port →
    (bindingsOf root (tnsOf root) port).length = 1 ∧
    ((bindingsOf root (tnsOf root) port).map fun b =>
      (definitions root (tnsOf root) b!"portType" (refersTo b b!"type")).length) = [1] ∧
    (parseOperations (tnsOf root) root port).map (fun o => (o.name.loc, o.input.loc, o.output.loc, o.soapAction)) =
      [(b!"Get", b!"In", b!"Out", b!"urn:get"), (b!"Put", b!"In", [], [])] := by
  intro root port h
  have : port = w b!"port" [(b!"name", b!"Q1"), (b!"binding", b!"t:B")] [foreign nsSoap b!"address" [(b!"location", b!"http://1")]] :=
    (Option.some.inj h).symm
  subst this
  decide +kernel

/-! ### C56 -/

/-- C56. A port's method is the upper-case verb of the first http binding that has one, and POST if
there is none. -/
theorem C56_method (root port : Element) :
    (∀ before h after, httpBindings root (tnsOf root) port = before ++ h :: after →
      (∀ x ∈ before, attrNamed x b!"verb" = []) → attrNamed h b!"verb" ≠ [] →
      IsUpper (attrNamed h b!"verb") (parseMethod (tnsOf root) root port)) ∧
    ((∀ x ∈ httpBindings root (tnsOf root) port, attrNamed x b!"verb" = []) →
      parseMethod (tnsOf root) root port = b!"POST") := by
  have key : parseMethod (tnsOf root) root port =
      (((httpBindings root (tnsOf root) port).find? fun h => decide (attrNamed h b!"verb" ≠ [])).map
        fun h => toUpper (attrNamed h b!"verb")).getD b!"POST" := by
    unfold parseMethod
    rw [isBinding_filter, refersTo_eq, methodLoop_eq]; rfl
  rw [key]
  constructor
  · intro before h after he hb hv
    rw [he, List.find?_append, List.find?_eq_none.mpr (by simpa using hb), List.find?_cons]
    simp only [hv, ne_eq, not_false_eq_true, decide_true, Option.none_or, Option.map_some, Option.getD_some]
    exact toUpper_isUpper _
  · intro h
    rw [List.find?_eq_none.mpr (by simpa using h)]; rfl

example :
    let root := sampleDoc nsSoap
    (allNamed root nsWsdl b!"port").map (fun p => ((httpBindings root (tnsOf root) p).map (attrNamed · b!"verb"),
      parseMethod (tnsOf root) root p)) = [([b!"get"], b!"GET"), ([], b!"POST")] := by
  decide +kernel

/-! ### C57 -/

/-- C57 is false of the code: the ports of all services but the last are lost. -/
theorem C57_services_refuted :
    let root := sampleDoc nsSoap
    (allNamed root nsWsdl b!"port").map (attrNamed · b!"name") = [b!"Q1", b!"Q2"] ∧
    (parse root).ports.map (·.name) = [b!"Q2"] := by
  decide +kernel

/-- C57, partial: the ports, and the documentation, are those of the last service, in document
order, with name, address, method and operations of each. Missing: the ports of other services. -/
theorem C57_services_partial (root : Element) :
    (parse root).ports = lastOr [] (parsePorts (tnsOf root) root) (allNamed root nsWsdl b!"service") ∧
    (parse root).doc = lastOr [] docText (allNamed root nsWsdl b!"service") ∧
    (parse root).targetNS = tnsOf root := by
  have h : parse root = ⟨(serviceLoop (tnsOf root) root ([], []) (allNamed root nsWsdl b!"service")).1,
      (serviceLoop (tnsOf root) root ([], []) (allNamed root nsWsdl b!"service")).2,
      parseMessages (tnsOf root) root, tnsOf root⟩ := by
    unfold parse
    rw [attr_eq, searchEl_eq _ _ _ (by decide)]; rfl
  rw [h, serviceLoop_eq]
  refine ⟨?_, ?_, rfl⟩ <;> unfold lastOr <;> cases (allNamed root nsWsdl b!"service").getLast? with
  | none => rfl
  | some s => first | rfl | exact documentation_eq s

/-- C57, partial: with a single service, every port of the document that is in it is in the
definition. -/
theorem C57_single_partial (root svc : Element) (h : allNamed root nsWsdl b!"service" = [svc]) :
    (parse root).ports.map (·.name) = (allNamed svc nsWsdl b!"port").map (attrNamed · b!"name") := by
  rw [(C57_services_partial root).1, h]
  simp only [lastOr, List.getLast?_singleton, Option.map_some, Option.getD_some]
  rw [ports_of_service, List.map_map]; rfl

example : ∃ svc,
    allNamed (w b!"definitions" [] [w b!"service" [] [w b!"port" [(b!"name", b!"Q")] []]]) nsWsdl b!"service" = [svc] :=
  ⟨_, rfl⟩

/-! ### C70 -/

/-- C70. Each port has its name, and the address is the location of its (last) SOAP 1.2 address
element or, if there is none, of its (last) SOAP 1.1 address element, and empty without either. -/
theorem C70_port_address (root svc : Element) :
    (parsePorts (tnsOf root) root svc).length = (allNamed svc nsWsdl b!"port").length ∧
    ∀ (i : Nat) port p, (allNamed svc nsWsdl b!"port")[i]? = some port → (parsePorts (tnsOf root) root svc)[i]? = some p →
      p.name = attrNamed port b!"name" ∧
      (∀ before a, allNamed port nsSoap12 b!"address" = before ++ [a] → p.address = attrNamed a b!"location") ∧
      (allNamed port nsSoap12 b!"address" = [] → ∀ before a, allNamed port nsSoap b!"address" = before ++ [a] →
        p.address = attrNamed a b!"location") ∧
      (allNamed port nsSoap12 b!"address" = [] → allNamed port nsSoap b!"address" = [] → p.address = []) := by
  rw [ports_of_service]
  refine ⟨by simp, ?_⟩
  intro i port p h1 h2
  rw [List.getElem?_map, h1] at h2
  simp only [Option.map_some, Option.some.injEq] at h2
  subst h2
  refine ⟨rfl, ?_, ?_, ?_⟩
  · intro before a h; simp [h, lastOr]
  · intro h before a h'; simp [h, h', lastOr]
  · intro h h'; simp [h, h', lastOr]

example :
    let root := sampleDoc nsSoap12
    (allNamed root nsWsdl b!"service").map (fun s => (parsePorts (tnsOf root) root s).map fun p => (p.name, p.address)) =
      [[(b!"Q1", b!"http://1")], [(b!"Q2", [])]] := by
  decide +kernel

end GoXml.Wsdl
