import Verif.Model.Wsdl
set_option autoImplicit false

/-! Model of what generated code does when it runs: the method `do` of the type `Client` (`wsdlgen/helper.go:13-83`) and the functions
that call it (`wsdlgen/wsdlgen.go:206-242`), with what they use of `encoding/xml` and `net/http`.

Simplifications: documents are trees, so namespace declarations are not modelled; attributes play no role for the
types in question and are left out. -/

namespace GoXml.Wsdl

/-- The content of an XML document. -/
inductive Node where
  | text (s : Str)
  | elem (name : XName) (kids : List Node)

/-- Whether a field of a struct is for elements of this name: a namespace counts only if the field has one
(`unmarshalPath` in encoding/xml). -/
def fieldMatches (field n : XName) : Bool := decide (field.loc = n.loc) && (decide (field.space = []) || decide (field.space = n.space))

/-- Whether an element may be decoded into a struct with this `XMLName` (`Decoder.unmarshal` in encoding/xml). -/
def nameAccepted : Option XName → XName → Bool
  | none, _ => true
  | some w, n => (decide (w.loc = []) || decide (w.loc = n.loc)) && (decide (w.space = []) || decide (w.space = n.space))

/-- How the value of a field changes when an element is decoded into it, and whether that succeeds. -/
abbrev Decode (σ : Type) := σ → Node → σ × Bool

/-- The loop of `Decoder.unmarshal` (encoding/xml) over the content of an element: the first field for an element counts; other
elements are skipped. -/
def decodeKids {σ : Type} (fields : List (XName × Decode σ)) : σ → List Node → σ × Bool
  | s, [] => (s, true)
  | s, .text _ :: ks => decodeKids fields s ks
  | s, .elem n kids :: ks => match fields.find? fun f => fieldMatches f.1 n with
    | none => decodeKids fields s ks
    | some f => match f.2 s (.elem n kids) with
      | (s', true) => decodeKids fields s' ks
      | (s', false) => (s', false)

/-- Decoding of an element into a struct with the given `XMLName` and fields (encoding/xml). -/
def decodeStruct {σ : Type} (xmlName : Option XName) (fields : List (XName × Decode σ)) : Decode σ
  | s, .text _ => (s, true)
  | s, .elem n kids => if nameAccepted xmlName n then decodeKids fields s kids else (s, false)

/-- The text in an element, without that in elements inside it: what is decoded into a string (encoding/xml). -/
def textIn : List Node → Str
  | [] => []
  | .text s :: ks => s ++ textIn ks
  | .elem _ _ :: ks => textIn ks

def nodeText : Node → Str
  | .text s => s
  | .elem _ kids => textIn kids

/-- The field `Fault` of the envelope (wsdlgen/helper.go:25-29), allocated: `String`, `Code` and `Detail`. -/
structure Fault where
  string : Str := []
  code : Str := []
  detail : Str := []
deriving DecidableEq

def soapEnvNS : Str := b!"http://schemas.xmlsoap.org/soap/envelope/"

/-- Decoding of a fault (wsdlgen/helper.go:25-29). -/
def decodeFault : Decode Fault := decodeStruct none
  [(⟨[], b!"faultstring"⟩, fun f n => ({ f with string := nodeText n }, true)),
   (⟨[], b!"faultcode"⟩, fun f n => ({ f with code := nodeText n }, true)),
   (⟨[], b!"detail"⟩, fun f n => ({ f with detail := nodeText n }, true))]

/-- The variables that decoding of a response changes: those that `out` points to, and the fault. -/
structure Decoded (σ : Type) where
  out : σ
  fault : Option Fault := none

/-- Decoding of `soapEnvelope` (wsdlgen/helper.go:20-31). The field `Message` has no tag, so it is for elements of that name. Its type is
an interface that holds a pointer, so the element is decoded into what that points to. The header is not used. -/
def decodeEnvelope {σ : Type} (out : Decode σ) : Decode (Decoded σ) :=
  decodeStruct (some ⟨soapEnvNS, b!"Envelope"⟩)
    [(⟨soapEnvNS, b!"Header"⟩, fun s _ => (s, true)),
     (⟨soapEnvNS, b!"Body"⟩, decodeStruct none
       [(⟨[], b!"Message"⟩, fun s n => ({ s with out := (out s.out n).1 }, (out s.out n).2)),
        (⟨soapEnvNS, b!"Fault"⟩, fun s n =>
          ({ s with fault := some (decodeFault (s.fault.getD {}) n).1 }, (decodeFault (s.fault.getD {}) n).2))])]

/-- What `xml.Encoder.Encode` makes of a `soapEnvelope` without a fault (wsdlgen/helper.go:20-31): a value with an `XMLName` is
written with that name, so there is no element `Message`. -/
def encodeEnvelope (message : Node) : Node :=
  .elem ⟨soapEnvNS, b!"Envelope"⟩ [.elem ⟨soapEnvNS, b!"Header"⟩ [], .elem ⟨soapEnvNS, b!"Body"⟩ [message]]

/-- `http.Request`. -/
structure Request where
  method : Str
  uri : Str
  header : List (Str × Str) := []
  body : Option Node := none

/-- `http.Response`; the body is `none` if it is not well-formed XML. Text without an element is not either. -/
structure Response where
  status : Nat
  body : Option Node

/-- The generated type `Client` (wsdlgen/helper.go:14-18). `http.Client` is what answers requests; `none` is an error. -/
structure Client where
  httpClient : Option (Request → Option Response) := none
  responseHook : Option (Response → Response) := none
  requestHook : Option (Request → Request) := none

/-- The errors of `do`, by their source. -/
inductive CallError where
  | encode
  | request
  | send
  | decode
  | fault (code string : Str)
deriving DecidableEq

/-- What is left open: `http.DefaultClient`, and which methods and addresses `http.NewRequest` accepts. -/
structure Net where
  default : Request → Option Response
  acceptable : Str → Str → Bool

/-- The request that `do` makes (wsdlgen/helper.go:35-57); `message` is the encoding of `in`. -/
def makeRequest (net : Net) (c : Client) (method uri action : Str) (message : Option Node) : Except CallError Request :=
  let body : Except CallError (Option Node) :=
    if method = b!"POST" ∨ method = b!"PUT" then match message with
      | none => .error .encode
      | some m => .ok (some (encodeEnvelope m))
    else .ok none
  match body with
  | .error e => .error e
  | .ok body =>
    if net.acceptable method uri then
      let req : Request := { method := method, uri := uri, header := [(b!"SOAPAction", action)], body := body }
      .ok (match c.requestHook with
        | some h => h req
        | none => req)
    else .error .request

/-- What `do` makes of a response (wsdlgen/helper.go:70-82): the error, and what `out` points to. -/
def readResponse {σ : Type} (c : Client) (out : Decode σ) (s : σ) (rsp : Response) : Option CallError × σ :=
  let rsp := match c.responseHook with
    | some h => h rsp
    | none => rsp
  match rsp.body with
  | none => (some .decode, s)
  | some (.text _) => (some .decode, s)
  | some (.elem n kids) =>
    let r := decodeEnvelope out { out := s } (.elem n kids)
    if r.2 = false then (some .decode, r.1.out)
    else match r.1.fault with
      | some f => (some (.fault f.code f.string), r.1.out)
      | none => (none, r.1.out)

/-- `Client.do` (wsdlgen/helper.go:34-83): the error, and what `out` points to. -/
def clientDo {σ : Type} (net : Net) (c : Client) (method uri action : Str) (message : Option Node) (out : Decode σ) (s : σ) :
    Option CallError × σ :=
  match makeRequest net c method uri action message with
  | .error e => (some e, s)
  | .ok req => match (c.httpClient.getD net.default) req with
    | none => (some .send, s)
    | some rsp => readResponse c out s rsp

/-- The values of the types in generated code, by the names of these types: the zero value, and what encoding/xml does
with a value in a field of this name. -/
structure Values (V : Type) where
  zero : Str → V
  encode : V → XName → Option (List Node)
  decode : Str → V → Node → V × Bool

/-- Encodes the fields of `input.Args`. -/
def encodeFields {V : Type} (vals : Values V) : List XName → List V → Option (List Node)
  | n :: ns, v :: vs => match vals.encode v n, encodeFields vals ns vs with
    | some a, some b => some (a ++ b)
    | _, _ => none
  | _, _ => some []

/-- The encoding of the variable `input` of a generated function (wsdlgen/wsdlgen.go:207-219); `args` are the values of its fields. -/
def encodeInput {V : Type} (vals : Values V) (b : Body) (args : List V) : Option Node :=
  (encodeFields vals (b.sent.map (·.2.2.1)) args).map fun fs => .elem b.msgName [.elem b.inputName fs]

/-- Decoding into the variable `output` of a generated function (wsdlgen/wsdlgen.go:221-228), whose fields are `σ`. -/
def decodeOutput {V : Type} (vals : Values V) (b : Body) : Decode (List V) :=
  decodeStruct (some b.msgName)
    [(b.outputName, decodeStruct none (b.received.mapIdx fun i f =>
      (f.2.2, fun s n => match s[i]? with
        | some v => (s.set i (vals.decode f.2.1 v n).1, (vals.decode f.2.1 v n).2)
        | none => (s, true))))]

/-- A call of a generated function (wsdlgen/wsdlgen.go:206-241): its error, and the fields of `output.Args`, which are what it
returns. -/
def call {V : Type} (net : Net) (c : Client) (vals : Values V) (b : Body) (args : List V) : Option CallError × List V :=
  clientDo net c b.method b.address b.soapAction (encodeInput vals b args) (decodeOutput vals b) (b.received.map fun f => vals.zero f.2.1)

end GoXml.Wsdl
