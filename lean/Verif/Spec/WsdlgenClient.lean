import Verif.Model.WsdlgenClient
import Mathlib.Data.List.Forall2
set_option autoImplicit false

/-! Vocabulary for calls of generated functions: SOAP 1.1 messages. -/

namespace GoXml.Wsdl

/-- The namespace of SOAP 1.1 envelopes. -/
def soap11 : Str := b!"http://schemas.xmlsoap.org/soap/envelope/"

/-- A SOAP 1.1 envelope, with any headers, whose body contains `kids`. -/
def Enveloped (kids : List Node) (doc : Node) : Prop :=
  ∃ hs, doc = .elem ⟨soap11, b!"Envelope"⟩ (hs ++ [.elem ⟨soap11, b!"Body"⟩ kids]) ∧ ∀ h ∈ hs, ∃ k, h = .elem ⟨soap11, b!"Header"⟩ k

/-- The contents of the elements with the given local name. -/
def contentsOf (loc : Str) : List Node → List (List Node)
  | [] => []
  | .text _ :: ks => contentsOf loc ks
  | .elem n kids :: ks => if n.loc = loc then kids :: contentsOf loc ks else contentsOf loc ks

/-- The names of the elements. -/
def elemNames : List Node → List XName
  | [] => []
  | .text _ :: ks => elemNames ks
  | .elem n _ :: ks => n :: elemNames ks

/-- The text directly inside an element. -/
def charData (kids : List Node) : Str := (kids.filterMap fun k => match k with
  | .text s => some s
  | .elem _ _ => none).flatten

/-- A fault with this code and explanation (SOAP 1.1, section 4.4). -/
def IsFault (code string : Str) (n : Node) : Prop :=
  ∃ fs kc ks, n = .elem ⟨soap11, b!"Fault"⟩ fs ∧ contentsOf b!"faultcode" fs = [kc] ∧ contentsOf b!"faultstring" fs = [ks] ∧
    charData kc = code ∧ charData ks = string

/-- The body of a message in rpc style (WSDL 1.1, section 3.5): an element with an element for each part, named after it. -/
def RpcStyle (parts : List Str) (kids : List Node) : Prop :=
  ∃ name args, kids = [.elem name args] ∧ (elemNames args).map (·.loc) = parts

/-- The body of a message in document style (WSDL 1.1, section 3.5): the elements that the parts refer to. -/
def DocumentStyle (elements : List XName) (kids : List Node) : Prop := elemNames kids = elements

/-- The elements `outs`, one for each field and named after it, contain these values. -/
inductive Carries {V : Type} (vals : Values V) : List (Str × Str × XName) → List Node → List V → Prop
  | nil : Carries vals [] [] []
  | cons {f : Str × Str × XName} {fs : List (Str × Str × XName)} {k : List Node} {outs : List Node} {v : V} {vs : List V} :
      vals.decode f.2.1 (vals.zero f.2.1) (.elem f.2.2 k) = (v, true) → Carries vals fs outs vs →
      Carries vals (f :: fs) (.elem f.2.2 k :: outs) (v :: vs)

/-- The encodings of values, in order. -/
def Encodes {V : Type} (vals : Values V) (args : List (V × XName)) (out : List Node) : Prop :=
  ∃ ls, List.Forall₂ (fun a l => vals.encode a.1 a.2 = some l) args ls ∧ out = ls.flatten

/-- Requests reach `answer` and responses are read as they are. -/
def Plain (c : Client) (answer : Request → Option Response) : Prop :=
  c.httpClient = some answer ∧ c.responseHook = none ∧ c.requestHook = none

end GoXml.Wsdl
