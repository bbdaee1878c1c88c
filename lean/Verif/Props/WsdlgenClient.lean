import Verif.Proofs.WsdlgenClient
import Verif.Props.WsdlBody
set_option autoImplicit false

/-! Properties C119 to C124: what calls of generated functions send and return. -/

namespace GoXml.Wsdl

/-! ### C119 -/

/-- C119 in full: if the body of the response is an element with an element for each part of the output message, a call returns the values in
these. -/
def C119_all : Prop := ∀ (net : Net) (c : Client) (answer : Request → Option Response) (V : Type) (vals : Values V) (b : Body) (args : List V)
  (req : Request) (rsp : Response) (doc : Node) (name : XName) (outs : List Node) (values : List V), Plain c answer →
  makeRequest net c b.method b.address b.soapAction (encodeInput vals b args) = .ok req → answer req = some rsp → rsp.body = some doc →
  Enveloped [.elem name outs] doc → Carries vals b.received outs values → call net c vals b args = (none, values)

/-- C119: the response is ignored. Whatever the body of the response contains, unless it is a fault or is called `Message`, a call returns zero
values, and no error. -/
theorem C119_ignored (net : Net) (c : Client) (answer : Request → Option Response) (hc : Plain c answer) {V : Type} (vals : Values V) (b : Body)
    (args : List V) (req : Request) (rsp : Response) (doc : Node) (kids : List Node)
    (hr : makeRequest net c b.method b.address b.soapAction (encodeInput vals b args) = .ok req) (ha : answer req = some rsp)
    (hd : rsp.body = some doc) (he : Enveloped kids doc) (hk : ∀ n ∈ elemNames kids, n.loc ≠ b!"Message" ∧ n ≠ ⟨soap11, b!"Fault"⟩) :
    call net c vals b args = (none, b.received.map fun f => vals.zero f.2.1) := by
  unfold call
  rw [clientDo_plain net c answer hc _ _ _ _ _ _ req hr rsp ha, readResponse_body c answer hc _ _ rsp kids doc hd he _
    (body_skips _ kids _ hk)]
  rfl

/-- Values that are texts. -/
def textValues : Values Str where
  zero _ := []
  encode v n := some [.elem n [.text v]]
  decode _ _ n := (nodeText n, true)

/-- The function for an operation that gets a symbol and returns a price. -/
def priceBody (method : Str) : Body :=
  { msgName := ⟨b!"u", b!"GetPrice"⟩, inputName := ⟨b!"u", b!"GetPriceRequest"⟩, outputName := ⟨b!"u", b!"GetPriceResponse"⟩
    sent := [(b!"Symbol", b!"string", ⟨b!"u", b!"symbol"⟩, b!"string(symbol)")], received := [(b!"Price", b!"string", ⟨b!"u", b!"price"⟩)]
    method := method, address := b!"http://x", soapAction := b!"urn:get" }

/-- It is one that is generated. -/
example : (genAST ⟨none, 3, 3⟩ ⟨fun n => n.loc, fun _ => none⟩
    { doc := [], targetNS := b!"u"
      ports := [⟨b!"P", b!"http://x", b!"POST", [⟨[], b!"urn:get", ⟨b!"u", b!"GetPrice"⟩, ⟨b!"u", b!"GetPriceRequest"⟩, ⟨b!"u", b!"GetPriceResponse"⟩⟩]⟩]
      message := [(⟨b!"u", b!"GetPriceRequest"⟩, ⟨⟨b!"u", b!"GetPriceRequest"⟩, [typed b!"symbol" b!"string"]⟩),
        (⟨b!"u", b!"GetPriceResponse"⟩, ⟨⟨b!"u", b!"GetPriceResponse"⟩, [typed b!"price" b!"string"]⟩)] }).map
    (fun fs => fs.map fun f => f.body) = some [priceBody b!"POST"] := by decide +kernel

/-- A server that gives the same answer to all. -/
def replying (kids : List Node) : Client :=
  { httpClient := some fun _ => some { status := 200, body := some (.elem ⟨soap11, b!"Envelope"⟩ [.elem ⟨soap11, b!"Body"⟩ kids]) } }

def anyNet : Net := { default := fun _ => none, acceptable := fun _ _ => true }

/-- C119 is false of the code: `GetPrice` returns no price. -/
theorem C119_results_refuted : ¬ C119_all := by
  intro h
  have := h anyNet (replying [.elem ⟨b!"u", b!"GetPriceResponse"⟩ [.elem ⟨b!"u", b!"price"⟩ [.text b!"12"]]]) _ Str textValues (priceBody b!"POST")
    [b!"X"] _ _ _ ⟨b!"u", b!"GetPriceResponse"⟩ [.elem ⟨b!"u", b!"price"⟩ [.text b!"12"]] [b!"12"] ⟨rfl, rfl, rfl⟩ rfl rfl rfl
    ⟨[], rfl, by simp⟩ (.cons rfl .nil)
  have h2 := congrArg Prod.snd this
  revert h2
  decide

/-- C119, partial: it holds for an operation called `Message`, if the response has the structure that the request would have: the element for the
operation contains one for the message, which contains the parts. -/
theorem C119_results_partial (net : Net) (c : Client) (answer : Request → Option Response) (hc : Plain c answer) {V : Type} (vals : Values V) (b : Body)
    (args : List V) (req : Request) (rsp : Response) (doc : Node) (outs : List Node) (values : List V)
    (hr : makeRequest net c b.method b.address b.soapAction (encodeInput vals b args) = .ok req) (ha : answer req = some rsp)
    (hd : rsp.body = some doc) (he : Enveloped [.elem b.msgName [.elem b.outputName outs]] doc) (hv : Carries vals b.received outs values)
    (hm : b.msgName.loc = b!"Message") (hn : (b.received.map (·.2.2.loc)).Nodup) : call net c vals b args = (none, values) := by
  have key : ∀ (pre : List (Str × Str × XName)) (post : List (Str × Str × XName)) (outs : List Node) (values done : List V),
      Carries vals post outs values → b.received = pre ++ post → done.length = pre.length →
      decodeKids (b.received.mapIdx fun i f => (f.2.2, fun (s : List V) n => match s[i]? with
        | some v => (s.set i (vals.decode f.2.1 v n).1, (vals.decode f.2.1 v n).2)
        | none => (s, true))) (done ++ post.map fun f => vals.zero f.2.1) outs = (done ++ values, true) := by
    intro pre post outs values done h
    induction h generalizing pre done with
    | nil => intro _ _; rfl
    | @cons f fs k outs v vs hdec _ ih =>
      intro hp hl
      have hi : b.received[pre.length]? = some f := by rw [hp]; simp
      have hget : (done ++ (f :: fs).map fun f => vals.zero f.2.1)[pre.length]? = some (vals.zero f.2.1) := by rw [← hl]; simp
      rw [decodeKids_ok (fields_find vals b.received _ pre.length f hi hn) (s' := (done ++ [v]) ++ fs.map fun f => vals.zero f.2.1) (by
        dsimp only
        rw [hget]
        dsimp only
        rw [hdec, ← hl]
        simp)]
      have := ih (pre ++ [f]) (done ++ [v]) (by rw [hp]; simp) (by simp [hl])
      rw [this]
      simp
  have h1 : decodeOutput vals b (b.received.map fun f => vals.zero f.2.1) (.elem b.msgName [.elem b.outputName outs]) = (values, true) := by
    unfold decodeOutput decodeStruct
    dsimp only
    rw [if_pos (by simp [nameAccepted])]
    refine (decodeKids_ok (f := (b.outputName, _)) (by rw [List.find?_cons_of_pos (by simp [fieldMatches])]) (s' := values) ?_).trans rfl
    dsimp only
    exact key [] b.received outs values [] hv rfl rfl
  unfold call
  rw [clientDo_plain net c answer hc _ _ _ _ _ _ req hr rsp ha, readResponse_body c answer hc _ _ rsp _ doc hd he ({ out := values }, true) (by
    rw [decodeKids_ok (f := (⟨[], b!"Message"⟩, _)) (by rw [bodyFields, List.find?_cons_of_pos (by simp [fieldMatches, hm])])
      (s' := { out := values }) (by dsimp only; rw [h1])]
    rfl)]
  rfl

example :
    let b : Body := { priceBody b!"POST" with msgName := ⟨b!"u", b!"Message"⟩ }
    let c := replying [.elem ⟨b!"u", b!"Message"⟩ [.elem ⟨b!"u", b!"GetPriceResponse"⟩ [.elem ⟨b!"u", b!"price"⟩ [.text b!"12"]]]]
    Carries textValues b.received [.elem ⟨b!"u", b!"price"⟩ [.text b!"12"]] [b!"12"] ∧ call anyNet c textValues b [b!"X"] = (none, [b!"12"]) :=
  ⟨.cons rfl .nil, rfl⟩

/-! ### C120 -/

/-- C120: a fault is returned as an error, with its code and its explanation. -/
theorem C120_faults (net : Net) (c : Client) (answer : Request → Option Response) (hc : Plain c answer) {V : Type} (vals : Values V) (b : Body)
    (args : List V) (req : Request) (rsp : Response) (doc fault : Node) (pre post : List Node) (code string : Str)
    (hr : makeRequest net c b.method b.address b.soapAction (encodeInput vals b args) = .ok req) (ha : answer req = some rsp)
    (hd : rsp.body = some doc) (he : Enveloped (pre ++ fault :: post) doc) (hf : IsFault code string fault)
    (hk : ∀ n ∈ elemNames pre ++ elemNames post, n.loc ≠ b!"Message" ∧ n ≠ ⟨soap11, b!"Fault"⟩) :
    (call net c vals b args).1 = some (.fault code string) := by
  unfold call
  obtain ⟨g, hg, hgc, hgs⟩ := decodeFault_spec code string fault hf {}
  rw [clientDo_plain net c answer hc _ _ _ _ _ _ req hr rsp ha, readResponse_body c answer hc _ _ rsp _ doc hd he
    ({ out := b.received.map fun f => vals.zero f.2.1, fault := some g }, true) (by
      rw [decodeKids_append _ _ _ _ _ (body_skips _ pre _ fun n hn => hk n (List.mem_append_left _ hn))]
      obtain ⟨fs, kc, ks, rfl, _⟩ := hf
      rw [decodeKids_ok (f := (⟨soapEnvNS, b!"Fault"⟩, _)) rfl (s' := { out := b.received.map fun f => vals.zero f.2.1, fault := some g }) (by
        dsimp only [Option.getD_none]
        rw [hg])]
      exact body_skips _ post _ fun n hn => hk n (List.mem_append_right _ hn))]
  subst hgc hgs
  rfl

/-- The fault in section 4.4 of SOAP 1.1. -/
def sampleFault : Node := .elem ⟨soap11, b!"Fault"⟩
  [.elem ⟨[], b!"faultcode"⟩ [.text b!"SOAP-ENV:Server"], .text b!" ", .elem ⟨[], b!"faultstring"⟩ [.text b!"Server Error"],
   .elem ⟨[], b!"detail"⟩ [.elem ⟨b!"u", b!"faultcode"⟩ [.text b!"no"]]]

example : IsFault b!"SOAP-ENV:Server" b!"Server Error" sampleFault ∧
    call anyNet (replying [sampleFault]) textValues (priceBody b!"POST") [b!"X"] = (some (.fault b!"SOAP-ENV:Server" b!"Server Error"), [[]]) :=
  ⟨⟨_, _, _, rfl, rfl, rfl, rfl, rfl⟩, rfl⟩

/-! ### C121 -/

/-- A request as SOAP 1.1 wants it: the intent is quoted (section 6.1.1), the media type is stated (section 6), and the body has one of the two
forms that WSDL 1.1 has (section 3.5). -/
def AsPrescribed (action : Str) (parts : List Str) (elements : List XName) (req : Request) : Prop :=
  (b!"SOAPAction", b!"\"" ++ action ++ b!"\"") ∈ req.header ∧ (∃ v, (b!"Content-Type", v) ∈ req.header) ∧
  ∃ kids doc, req.body = some doc ∧ Enveloped kids doc ∧ (RpcStyle parts kids ∨ DocumentStyle elements kids)

/-- C121 in full: what a generated function sends with `POST` is as SOAP 1.1 and WSDL 1.1 want it. `elements` are the elements that the parts
refer to, if they do. -/
def C121_all : Prop := ∀ (net : Net) (c : Client) (V : Type) (vals : Values V) (b : Body) (args : List V) (req : Request) (elements : List XName),
  c.requestHook = none → b.method = b!"POST" → makeRequest net c b.method b.address b.soapAction (encodeInput vals b args) = .ok req →
  AsPrescribed b.soapAction (b.sent.map (·.2.2.1.loc)) elements req

/-- C121, what is true of all requests: the method, the address, the intent. With `POST` and `PUT` the body is an envelope with an element for
the operation, in which is one for the message, in which are the arguments in order. -/
theorem C121_request_partial (net : Net) (c : Client) (hh : c.requestHook = none) {V : Type} (vals : Values V) (b : Body) (args : List V)
    (req : Request) (hr : makeRequest net c b.method b.address b.soapAction (encodeInput vals b args) = .ok req) :
    req.method = b.method ∧ req.uri = b.address ∧ req.header = [(b!"SOAPAction", b.soapAction)] ∧
    (b.method = b!"POST" ∨ b.method = b!"PUT" → ∃ doc fs, req.body = some doc ∧ Enveloped [.elem b.msgName [.elem b.inputName fs]] doc ∧
      Encodes vals (args.zip (b.sent.map (·.2.2.1))) fs) := by
  obtain ⟨h1, h2, h3, h4⟩ := makeRequest_ok net c hh _ _ _ _ req hr
  refine ⟨h1, h2, h3, fun hm => ?_⟩
  rw [if_pos hm] at h4
  obtain ⟨d, hd, hb⟩ := h4
  unfold encodeInput at hd
  rw [Option.map_eq_some_iff] at hd
  obtain ⟨fs, hfs, rfl⟩ := hd
  refine ⟨_, fs, hb, ⟨[.elem ⟨soap11, b!"Header"⟩ []], rfl, ?_⟩, ?_⟩
  · intro h hh'
    cases List.mem_singleton.mp hh'
    exact ⟨_, rfl⟩
  · exact encodeFields_spec vals _ _ fs hfs

/-- The argument of a request for a price. -/
def priceRequest : Request :=
  { method := b!"POST", uri := b!"http://x", header := [(b!"SOAPAction", b!"urn:get")]
    body := some (.elem ⟨soap11, b!"Envelope"⟩ [.elem ⟨soap11, b!"Header"⟩ [], .elem ⟨soap11, b!"Body"⟩
      [.elem ⟨b!"u", b!"GetPrice"⟩ [.elem ⟨b!"u", b!"GetPriceRequest"⟩ [.elem ⟨b!"u", b!"symbol"⟩ [.text b!"X"]]]]]) }

theorem priceRequest_made :
    makeRequest anyNet (replying []) b!"POST" b!"http://x" b!"urn:get" (encodeInput textValues (priceBody b!"POST") [b!"X"]) = .ok priceRequest := rfl

/-- C121 is false of the code: no request says that it contains XML. -/
theorem C121_media_type_refuted : ¬ C121_all ∧ ∀ (net : Net) (c : Client) (method uri action : Str) (m : Option Node) (req : Request),
    c.requestHook = none → makeRequest net c method uri action m = .ok req → ∀ v, (b!"Content-Type", v) ∉ req.header := by
  have h2 : ∀ (net : Net) (c : Client) (method uri action : Str) (m : Option Node) (req : Request),
      c.requestHook = none → makeRequest net c method uri action m = .ok req → ∀ v, (b!"Content-Type", v) ∉ req.header := by
    intro net c method uri action m req hh hr v hv
    rw [(makeRequest_ok net c hh _ _ _ _ req hr).2.2.1, List.mem_singleton] at hv
    exact absurd (congrArg Prod.fst hv) (show (b!"Content-Type" : Str) ≠ b!"SOAPAction" by decide)
  refine ⟨fun h => ?_, h2⟩
  obtain ⟨_, ⟨v, hv⟩, _⟩ := h anyNet (replying []) Str textValues (priceBody b!"POST") [b!"X"] priceRequest [] rfl rfl priceRequest_made
  exact h2 _ _ _ _ _ _ _ rfl priceRequest_made v hv

/-- C121 is false of the code: the intent is not quoted. -/
theorem C121_action_refuted : ¬ C121_all ∧ ∀ (net : Net) (c : Client) (method uri action : Str) (m : Option Node) (req : Request),
    c.requestHook = none → makeRequest net c method uri action m = .ok req → (b!"SOAPAction", b!"\"" ++ action ++ b!"\"") ∉ req.header := by
  have h2 : ∀ (net : Net) (c : Client) (method uri action : Str) (m : Option Node) (req : Request),
      c.requestHook = none → makeRequest net c method uri action m = .ok req → (b!"SOAPAction", b!"\"" ++ action ++ b!"\"") ∉ req.header := by
    intro net c method uri action m req hh hr hv
    rw [(makeRequest_ok net c hh _ _ _ _ req hr).2.2.1, List.mem_singleton] at hv
    have := congrArg (fun p => p.2.length) hv
    simp at this
    omega
  refine ⟨fun h => ?_, h2⟩
  obtain ⟨hv, _⟩ := h anyNet (replying []) Str textValues (priceBody b!"POST") [b!"X"] priceRequest [] rfl rfl priceRequest_made
  exact h2 _ _ _ _ _ _ _ rfl priceRequest_made hv

theorem enveloped_unique {a b : List Node} {doc : Node} (ha : Enveloped a doc) (hb : Enveloped b doc) : a = b := by
  obtain ⟨hs, rfl, _⟩ := ha
  obtain ⟨hs', h, _⟩ := hb
  injection h with _ h
  have := congrArg List.getLast? h
  rw [List.getLast?_append, List.getLast?_append] at this
  injection this with this
  injection this

/-- C121 is false of the code: requests have an element named after the message between that for the operation and those for the parts. So
unless the only part has the name of the message they are not in rpc style, and they are in document style only if the part refers to an element
with the name of the operation. -/
theorem C121_style_refuted : ¬ C121_all ∧ ∀ (net : Net) (c : Client) (V : Type) (vals : Values V) (b : Body) (args : List V) (req : Request)
    (parts : List Str) (elements : List XName) (kids : List Node) (doc : Node), c.requestHook = none →
    makeRequest net c b.method b.address b.soapAction (encodeInput vals b args) = .ok req → req.body = some doc → Enveloped kids doc →
    (RpcStyle parts kids ↔ parts = [b.inputName.loc]) ∧ (DocumentStyle elements kids ↔ elements = [b.msgName]) := by
  have h2 : ∀ (net : Net) (c : Client) (V : Type) (vals : Values V) (b : Body) (args : List V) (req : Request)
      (parts : List Str) (elements : List XName) (kids : List Node) (doc : Node), c.requestHook = none →
      makeRequest net c b.method b.address b.soapAction (encodeInput vals b args) = .ok req → req.body = some doc → Enveloped kids doc →
      (RpcStyle parts kids ↔ parts = [b.inputName.loc]) ∧ (DocumentStyle elements kids ↔ elements = [b.msgName]) := by
    intro net c V vals b args req parts elements kids doc hh hr hb he
    have hm : b.method = b!"POST" ∨ b.method = b!"PUT" := by
      have := (makeRequest_ok net c hh _ _ _ _ req hr).2.2.2
      by_cases hm : b.method = b!"POST" ∨ b.method = b!"PUT"
      · exact hm
      · rw [if_neg hm, hb] at this
        cases this
    obtain ⟨doc', fs, hb', he', _⟩ := (C121_request_partial net c hh vals b args req hr).2.2.2 hm
    rw [hb] at hb'
    cases hb'
    cases enveloped_unique he he'
    constructor
    · constructor
      · rintro ⟨name, as, h, rfl⟩
        injection h with h _
        injection h with _ h
        subst h
        rfl
      · rintro rfl
        exact ⟨_, _, rfl, rfl⟩
    · exact ⟨Eq.symm, Eq.symm⟩
  refine ⟨fun h => ?_, h2⟩
  obtain ⟨_, _, kids, doc, hb, he, hs⟩ := h anyNet (replying []) Str textValues (priceBody b!"POST") [b!"X"] priceRequest [⟨b!"u", b!"symbol"⟩] rfl rfl
    priceRequest_made
  obtain ⟨h3, h4⟩ := h2 anyNet (replying []) Str textValues (priceBody b!"POST") [b!"X"] priceRequest ((priceBody b!"POST").sent.map (·.2.2.1.loc))
    [⟨b!"u", b!"symbol"⟩] kids doc rfl priceRequest_made hb he
  rcases hs with hs | hs
  · exact absurd (h3.mp hs) (by decide)
  · exact absurd (h4.mp hs) (by decide)

example : priceRequest.body.isSome = true := rfl

/-! ### C122 -/

/-- C122 in full: from a request it can be told what the arguments were. -/
def C122_all : Prop := ∀ (net : Net) (c : Client) (V : Type) (vals : Values V) (b : Body) (args args' : List V) (req : Request) (out out' : List Node),
  c.requestHook = none → makeRequest net c b.method b.address b.soapAction (encodeInput vals b args) = .ok req →
  makeRequest net c b.method b.address b.soapAction (encodeInput vals b args') = .ok req →
  Encodes vals (args.zip (b.sent.map (·.2.2.1))) out → Encodes vals (args'.zip (b.sent.map (·.2.2.1))) out' → out = out'

/-- C122, partial: it holds for `POST` and `PUT`. -/
theorem C122_arguments_partial (net : Net) (c : Client) (hh : c.requestHook = none) {V : Type} (vals : Values V) (b : Body)
    (hm : b.method = b!"POST" ∨ b.method = b!"PUT") (args args' : List V) (req : Request) (out out' : List Node)
    (h : makeRequest net c b.method b.address b.soapAction (encodeInput vals b args) = .ok req)
    (h' : makeRequest net c b.method b.address b.soapAction (encodeInput vals b args') = .ok req)
    (ho : Encodes vals (args.zip (b.sent.map (·.2.2.1))) out) (ho' : Encodes vals (args'.zip (b.sent.map (·.2.2.1))) out') : out = out' := by
  have uniq : ∀ (as : List (V × XName)) (x y : List Node), Encodes vals as x → Encodes vals as y → x = y := by
    rintro as x y ⟨ls, hls, rfl⟩ ⟨ms, hms, rfl⟩
    congr 1
    induction hls generalizing ms with
    | nil => cases hms; rfl
    | cons h1 _ ih =>
      cases hms with
      | cons h2 h3 =>
        rw [h1] at h2
        cases h2
        rw [ih _ h3]
  obtain ⟨d, fs, hb, he, hf⟩ := (C121_request_partial net c hh vals b args req h).2.2.2 hm
  obtain ⟨d', fs', hb', he', hf'⟩ := (C121_request_partial net c hh vals b args' req h').2.2.2 hm
  rw [hb] at hb'
  cases hb'
  have := enveloped_unique he he'
  rw [uniq _ _ _ ho hf, uniq _ _ _ ho' hf']
  injection this with this
  injection this with _ this
  injection this with this
  injection this

/-- C122 is false of the code: with other methods the arguments are dropped. -/
theorem C122_arguments_refuted : ¬ C122_all ∧ ∀ (net : Net) (c : Client) (V : Type) (vals : Values V) (b : Body) (args args' : List V),
    b.method ≠ b!"POST" → b.method ≠ b!"PUT" → makeRequest net c b.method b.address b.soapAction (encodeInput vals b args) =
      makeRequest net c b.method b.address b.soapAction (encodeInput vals b args') := by
  constructor
  · intro h
    have := h anyNet (replying []) Str textValues (priceBody b!"GET") [b!"X"] [b!"Y"] _ [.elem ⟨b!"u", b!"symbol"⟩ [.text b!"X"]]
      [.elem ⟨b!"u", b!"symbol"⟩ [.text b!"Y"]] rfl rfl rfl ⟨_, .cons rfl .nil, rfl⟩ ⟨_, .cons rfl .nil, rfl⟩
    injection this with this
    injection this with _ this
    injection this with this
    injection this with this
    revert this
    decide
  · intro net c V vals b args args' h1 h2
    unfold makeRequest
    rw [if_neg (by rintro (h | h); exacts [h1 h, h2 h]), if_neg (by rintro (h | h); exacts [h1 h, h2 h])]

/-! ### C123 -/

/-- C123 in full: a call succeeds only if the server says that it did, with a status from 200 to 299. -/
def C123_all : Prop := ∀ (net : Net) (c : Client) (answer : Request → Option Response) (V : Type) (vals : Values V) (b : Body) (args : List V)
  (req : Request), Plain c answer → makeRequest net c b.method b.address b.soapAction (encodeInput vals b args) = .ok req →
  (call net c vals b args).1 = none → ∃ rsp, answer req = some rsp ∧ 200 ≤ rsp.status ∧ rsp.status < 300

/-- C123, partial: a call succeeds only if there is a response, and it is an envelope without a fault. -/
theorem C123_success_partial (net : Net) (c : Client) (answer : Request → Option Response) (hc : Plain c answer) {V : Type} (vals : Values V)
    (b : Body) (args : List V) (h : (call net c vals b args).1 = none) :
    ∃ req rsp kids, makeRequest net c b.method b.address b.soapAction (encodeInput vals b args) = .ok req ∧ answer req = some rsp ∧
      rsp.body = some (.elem ⟨soap11, b!"Envelope"⟩ kids) ∧
      ∀ k, .elem ⟨soap11, b!"Body"⟩ k ∈ kids → (⟨soap11, b!"Fault"⟩ : XName) ∉ elemNames k := by
  unfold call clientDo at h
  rcases hr : makeRequest net c b.method b.address b.soapAction (encodeInput vals b args) with e | req
  · rw [hr] at h; cases h
  rw [hr] at h
  dsimp only at h
  rw [hc.1, Option.getD_some] at h
  rcases ha : answer req with _ | rsp
  · rw [ha] at h; cases h
  rw [ha] at h
  dsimp only at h
  refine ⟨req, rsp, ?_⟩
  unfold readResponse at h
  rw [hc.2.1] at h
  dsimp only at h
  rcases hb : rsp.body with _ | doc
  · rw [hb] at h; cases h
  rw [hb] at h
  rcases doc with t | ⟨n, k⟩
  · cases h
  dsimp only at h
  split at h
  · cases h
  rename_i h1
  split at h
  · cases h
  rename_i h2
  obtain ⟨kids, e, hk⟩ := decodeEnvelope_ok (decodeOutput vals b) _ (.elem n k) ⟨n, k, rfl⟩ (by simpa using h1) h2
  exact ⟨kids, rfl, ha, by rw [e], hk⟩

/-- C123 is false of the code: the status is not looked at. -/
theorem C123_status_refuted : ¬ C123_all ∧ ∀ (c : Client) (V : Type) (out : Decode V) (s : V) (rsp rsp' : Response), c.responseHook = none →
    rsp.body = rsp'.body → readResponse c out s rsp = readResponse c out s rsp' := by
  constructor
  · intro h
    obtain ⟨rsp, h1, _, h2⟩ := h anyNet
      { httpClient := some fun _ => some { status := 500, body := some (.elem ⟨soap11, b!"Envelope"⟩ [.elem ⟨soap11, b!"Body"⟩ []]) } } _ Str textValues
      (priceBody b!"POST") [b!"X"] priceRequest ⟨rfl, rfl, rfl⟩ rfl rfl
    cases h1
    revert h2
    decide
  · intro c V out s rsp rsp' hc hb
    unfold readResponse
    rw [hc]
    dsimp only
    rw [hb]

example : (call anyNet (replying [.elem ⟨b!"u", b!"GetPriceResponse"⟩ []]) textValues (priceBody b!"POST") [b!"X"]).1 = none ∧
    (call anyNet { httpClient := some fun _ => none } textValues (priceBody b!"POST") [b!"X"]).1 = some .send ∧
    (call anyNet { httpClient := some fun _ => some ⟨200, none⟩ } textValues (priceBody b!"POST") [b!"X"]).1 = some .decode ∧
    (call anyNet { httpClient := some fun _ => some ⟨200, some (.elem ⟨[], b!"html"⟩ [])⟩ } textValues (priceBody b!"POST") [b!"X"]).1 = some .decode :=
  ⟨rfl, rfl, rfl, rfl⟩

/-! ### C124 -/

/-- C124: a client with hooks is one without them whose transport changes requests before, and responses after, it does what it does otherwise.
A client without a transport uses the default one. -/
theorem C124_hooks (net : Net) {V : Type} (vals : Values V) (b : Body) (args : List V) (http : Option (Request → Option Response))
    (onRequest : Option (Request → Request)) (onResponse : Option (Response → Response)) :
    call net { httpClient := http, requestHook := onRequest, responseHook := onResponse } vals b args =
    call net { httpClient := some fun r => ((http.getD net.default) ((onRequest.getD id) r)).map (onResponse.getD id) } vals b args := by
  unfold call clientDo makeRequest
  dsimp only
  generalize (if b.method = b!"POST" ∨ b.method = b!"PUT" then _ else _ : Except CallError (Option Node)) = body
  rcases body with e | body
  · rfl
  dsimp only
  by_cases ha : net.acceptable b.method b.address = true
  · rw [if_pos ha, if_pos ha]
    have key : ∀ (x : Option Response) (out : Decode (List V)) (s : List V), (match x with
        | none => (some CallError.send, s)
        | some rsp => readResponse { httpClient := http, requestHook := onRequest, responseHook := onResponse } out s rsp) =
        match x.map (onResponse.getD id) with
        | none => (some CallError.send, s)
        | some rsp => readResponse { httpClient := some fun r => ((http.getD net.default) ((onRequest.getD id) r)).map (onResponse.getD id) } out s rsp := by
      intro x out s
      cases x with
      | none => rfl
      | some rsp => cases onResponse <;> rfl
    cases onRequest <;> exact key _ _ _
  · rw [if_neg ha, if_neg ha]

/-- For example, a hook can add what C121 misses, and another can look at the status. -/
example :
    let c : Client :=
      { httpClient := some fun r => if (b!"Content-Type", b!"text/xml") ∈ r.header then some ⟨500, some (.elem ⟨soap11, b!"Envelope"⟩ [])⟩ else none
        requestHook := some fun r => { r with header := (b!"Content-Type", b!"text/xml") :: r.header }
        responseHook := some fun r => if r.status = 200 then r else ⟨r.status, none⟩ }
    (call anyNet c textValues (priceBody b!"POST") [b!"X"]).1 = some .decode ∧
    (call anyNet { c with responseHook := none } textValues (priceBody b!"POST") [b!"X"]).1 = none ∧
    (call anyNet { c with requestHook := none } textValues (priceBody b!"POST") [b!"X"]).1 = some .send := by decide +kernel

end GoXml.Wsdl
