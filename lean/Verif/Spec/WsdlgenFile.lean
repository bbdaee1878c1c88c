import Verif.Model.WsdlgenFile
import Verif.Spec.XsdgenName
import Verif.Spec.WsdlGen
set_option autoImplicit false

/-! Vocabulary for the files that wsdlgen generates. -/

namespace GoXml.Xsdgen
open Xsd

/-- A type refers to another: as its base, or as the type of an element or an attribute. -/
def Mentions : TObj → Ty → Prop
  | .simple s, t => s.base = some t
  | .complex c, t => c.base = some t ∨ (∃ e ∈ c.elements, e.type = t) ∨ ∃ a ∈ c.attributes, a.type = t

/-! ### The types of the parts of messages -/

/-- The file has a Go type for the type of this name: it is a built-in type of XML Schema, or a selected type of a
schema whose namespace code is generated for. -/
def Offered (cfg : Config) (schemas : List Schema) (H : THeap) (q : XName) : Prop :=
  (∃ b : Builtin, 0 ≤ b ∧ b < 50 ∧ (builtinName b).space = schemaNS ∧ q = builtinName b) ∨
  ∃ s ∈ schemas, s.targetNS ∈ cfg.namespaces ∧ ∃ (id : Nat) (o : TObj), (q, Ty.obj id) ∈ s.types ∧ H[id]? = some o ∧ o.name = q ∧ Selected cfg q ∧
    q.loc ≠ [] ∧ q.loc ≠ b!"_self"

/-- A schema declares an element, whose type has the name `t`, at the top level. -/
def Declares (schemas : List Schema) (H : THeap) (el t : XName) : Prop :=
  ∃ s ∈ schemas, ∃ (id : Nat) (c : ComplexT), (⟨el.space, b!"_self"⟩, Ty.obj id) ∈ s.types ∧ H[id]? = some (.complex c) ∧
    ∃ e ∈ c.elements, e.name = el ∧ xmlName H e.type = t

end GoXml.Xsdgen

namespace GoXml.Wsdl
open Xsd Xsdgen

/-- The file has a Go type for the type of the part, or for the types that its element is declared with. -/
def Refers (cfg : Xsdgen.Config) (schemas : List Schema) (H : THeap) (p : Part) : Prop :=
  (p.type.loc ≠ [] → Offered cfg schemas H p.type) ∧
  (p.type.loc = [] → p.element.loc ≠ [] → ∀ t, Declares schemas H p.element t → Offered cfg schemas H t)

/-- The part belongs to the input or the output of an operation. -/
def InOperation (d : Definition) (p : Part) : Prop :=
  ∃ port ∈ d.ports, ∃ op ∈ port.operations, ∃ m : Message, (d.message.get op.input = some m ∨ d.message.get op.output = some m) ∧ p ∈ m.parts

/-- The type that a generated function mentions is predeclared, declared by xsdgen, or declared with the function. -/
def Known (file : File) (g : FuncDecl) (t : Str) : Prop := Usable file.types t ∨ t ∈ g.decls.map (·.1)

/-- The Go types that the messages of an operation with many parts need: the titles of the messages with more parts than
parameters or results are allowed. A message without a name needs none. -/
def wrapperNames (gcfg : GenConfig) (d : Definition) (op : Operation) : List Str :=
  ((((d.message.get op.input).toList.filter fun m => decide ((m.parts.length : Int) > gcfg.maxArgs)) ++
    ((d.message.get op.output).toList.filter fun m => decide ((m.parts.length : Int) > gcfg.maxReturns))).map fun m => title m.name.loc).filter
      fun t => decide (t ≠ [])

/-- The built-in types that xsdgen has private types for (xsdgen's package documentation and `addStandardHelpers`), with
the names of the private types and the types that users see. -/
def privateTypes : List (Builtin × Str × Str) :=
  [(16, b!"xsdDate", b!"time.Time"), (17, b!"xsdDateTime", b!"time.Time"), (39, b!"xsdTime", b!"time.Time"), (22, b!"xsdGDay", b!"time.Time"),
   (23, b!"xsdGMonth", b!"time.Time"), (24, b!"xsdGMonthDay", b!"time.Time"), (25, b!"xsdGYear", b!"time.Time"), (26, b!"xsdGYearMonth", b!"time.Time"),
   (27, b!"xsdHexBinary", b!"[]byte"), (13, b!"xsdBase64Binary", b!"[]byte")]

end GoXml.Wsdl
