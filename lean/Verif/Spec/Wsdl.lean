import Verif.Model.Wsdl
import Verif.Spec.XmlTree
set_option autoImplicit false

/-! What a WSDL 1.1 document says, read directly off the document. Only the data types of the model
are used, and the namespace URIs of the recommendation. -/

namespace GoXml.Wsdl

mutual
/-- All elements below an element, in document order. -/
def below : Element → List Element
  | .mk _ _ _ _ cs => belows cs
def belows : List Element → List Element
  | [] => []
  | c :: cs => c :: (below c ++ belows cs)
end

/-- The elements below `e` with the given name, in document order. -/
def allNamed (e : Element) (space loc : Str) : List Element :=
  (below e).filter fun x => decide (x.name = ⟨space, loc⟩)

/-- The value of the attribute, or the empty string. -/
def attrNamed (e : Element) (loc : Str) : Str :=
  ((e.attrs.find? fun a => decide (a.name.loc = loc)).map (·.value)).getD []

/-- The name that QName `q` denotes where the declarations `sc` are in force, innermost last. The
prefixes `xml` and `xmlns` are reserved; an undeclared prefix stands for itself. -/
def denoted (sc : Scope) (q : Str) : XName :=
  let p := if (58 : UInt8) ∈ q then q.takeWhile (fun c => decide (c ≠ 58)) else []
  let l := if (58 : UInt8) ∈ q then (q.dropWhile fun c => decide (c ≠ 58)).tail else q
  if p = b!"xml" then ⟨b!"http://www.w3.org/XML/1998/namespace", l⟩
  else if p = b!"xmlns" then ⟨b!"http://www.w3.org/2000/xmlns/", l⟩
  else ⟨((sc.reverse.find? fun d => decide (d.loc = p)).map (·.space)).getD p, l⟩

/-- The name that a `name` attribute defines: in the target namespace, unless it has a prefix or
there is no target namespace. -/
def defines (tns : Str) (e : Element) : XName :=
  if tns ≠ [] ∧ (58 : UInt8) ∉ attrNamed e b!"name" then ⟨tns, attrNamed e b!"name"⟩
  else denoted e.scope (attrNamed e b!"name")

/-- The name that an attribute refers to. -/
def refersTo (e : Element) (loc : Str) : XName := denoted e.scope (attrNamed e loc)

def nsWsdl : Str := b!"http://schemas.xmlsoap.org/wsdl/"
def nsSoap : Str := b!"http://schemas.xmlsoap.org/wsdl/soap/"
def nsSoap12 : Str := b!"http://schemas.xmlsoap.org/wsdl/soap12/"
def nsHttp : Str := b!"http://schemas.xmlsoap.org/wsdl/http/"

/-- The message that a `<message>` element describes. -/
def messageOf (tns : Str) (m : Element) : Message :=
  ⟨defines tns m, (allNamed m nsWsdl b!"part").map fun p => ⟨attrNamed p b!"name", refersTo p b!"type", refersTo p b!"element"⟩⟩

/-- The definitions with the given kind and name, in document order. -/
def definitions (root : Element) (tns kind : Str) (n : XName) : List Element :=
  (allNamed root nsWsdl kind).filter fun e => decide (defines tns e = n)

/-- The bindings of a port. -/
def bindingsOf (root : Element) (tns : Str) (port : Element) : List Element :=
  definitions root tns b!"binding" (refersTo port b!"binding")

/-- The operations that a port offers: those of the port types of its bindings, each with the
binding. -/
def offered (root : Element) (tns : Str) (port : Element) : List (Element × Element) :=
  (bindingsOf root tns port).flatMap fun b =>
    (definitions root tns b!"portType" (refersTo b b!"type")).flatMap fun pt =>
      (allNamed pt nsWsdl b!"operation").map fun o => (b, o)

/-- The elements of the binding that describe the same operation. -/
def counterparts (b o : Element) : List Element :=
  (below b).filter fun e => decide (e.name = o.name ∧ attrNamed e b!"name" = attrNamed o b!"name")

/-- The `<soap:operation>` elements for an operation in a binding, in a version of SOAP. -/
def soapOperations (ns : Str) (b o : Element) : List Element :=
  (counterparts b o).flatMap fun e => allNamed e ns b!"operation"

/-- The last element's value, or a default. -/
def lastOr {α β : Type} (d : β) (f : α → β) (l : List α) : β := (l.getLast?.map f).getD d

/-- Lines of documentation. -/
def docText (e : Element) : Str :=
  List.intercalate b!"\n" ((e.children.filter fun c => decide (c.name.loc = b!"documentation")).map (·.content))

/-- ASCII upper case. -/
def IsUpper (s u : Str) : Prop :=
  s.length = u.length ∧ ∀ (i : Nat) c d, s[i]? = some c → u[i]? = some d →
    if 97 ≤ c ∧ c ≤ 122 then c = d + 32 else d = c

/-- The `<http:binding>` elements of a port, in document order. -/
def httpBindings (root : Element) (tns : Str) (port : Element) : List Element :=
  (bindingsOf root tns port).flatMap fun b => allNamed b nsHttp b!"binding"

end GoXml.Wsdl
