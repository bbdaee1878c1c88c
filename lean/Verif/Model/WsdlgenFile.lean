import Verif.Model.Wsdl
import Verif.Model.XsdgenName
import Verif.Model.XsdgenCli
set_option autoImplicit false

/-! Model of `wsdlgen.Config.GenAST` with the code that xsdgen generates (`wsdlgen/wsdlgen.go`). `Code.NameOf` changes
the types and the names, so both are passed along. The fixed declarations of `wsdlgen/helper.go` are given by their
names. The name and the comment of the package are not modelled. -/

namespace GoXml.Wsdl
open Xsd Xsdgen

/-- The types and the code of xsdgen, which change with every question. -/
abbrev XState := THeap × Xsdgen.Code

/-- `p.code.NameOf` (xsdgen/xsdgen.go:92-132). -/
def nameIn (env : Env) (cfg : Xsdgen.Config) (n k : Nat) (st : XState) (name : XName) : Run (XState × Str) :=
  (nameOf env cfg n k st.1 st.2 name).bind fun r => .ok ((r.1, r.2.1), r.2.2)

/-- `printer.getPartType` (wsdlgen/wsdlgen.go:268-285). -/
def getPartTypeIn (env : Env) (cfg : Xsdgen.Config) (n k : Nat) (st : XState) (part : Part) : Run (XState × Str) :=
  if part.type.loc ≠ [] then nameIn env cfg n k st part.type
  else if part.element.loc ≠ [] then
    match docType st.1 st.2 part.element.space with
    | none => .error
    | some doc => match doc.elements.find? fun el => decide (el.name = part.element) with
      | none => .error
      | some el => nameIn env cfg n k st (xmlName st.1 el.type)
  else .error

/-- The first half of the loops over parts (wsdlgen/wsdlgen.go:294-298 and 321-325). -/
def partTypesIn (env : Env) (cfg : Xsdgen.Config) (n k : Nat) : XState → List Part → Run (XState × List (Part × Str))
  | st, [] => .ok (st, [])
  | st, p :: ps => (getPartTypeIn env cfg n k st p).bind fun r =>
    (partTypesIn env cfg n k r.1 ps).bind fun q => .ok (q.1, (p, r.2) :: q.2)

/-- `printer.operation` (wsdlgen/wsdlgen.go:161-250): the name of the function, and the function. -/
def operationIn (env : Env) (cfg : Xsdgen.Config) (n k : Nat) (gcfg : GenConfig) (d : Definition) (port : Port) (op : Operation) (st : XState) :
    Run (XState × Str × FuncDecl) :=
  match d.message.get op.input, d.message.get op.output with
  | some input, some output =>
    (partTypesIn env cfg n k st input.parts).bind fun i => (partTypesIn env cfg n k i.1 output.parts).bind fun o =>
      .ok (o.1, publicName env cfg op.name, funcOf port op (argsOf gcfg.maxArgs gcfg.maxReturns d.targetNS input output i.2 o.2))
  | _, _ => .error

/-- `printer.port` (wsdlgen/wsdlgen.go:152-159). -/
def portIn (env : Env) (cfg : Xsdgen.Config) (n k : Nat) (gcfg : GenConfig) (d : Definition) (port : Port) :
    XState → List Operation → Run (XState × List (Str × FuncDecl))
  | st, [] => .ok (st, [])
  | st, op :: ops => (operationIn env cfg n k gcfg d port op st).bind fun r =>
    (portIn env cfg n k gcfg d port r.1 ops).bind fun q => .ok (q.1, r.2 :: q.2)

/-- The loop of `printer.genAST` (wsdlgen/wsdlgen.go:144-148). -/
def portsIn (env : Env) (cfg : Xsdgen.Config) (n k : Nat) (gcfg : GenConfig) (d : Definition) :
    XState → List Port → Run (XState × List (Str × FuncDecl))
  | st, [] => .ok (st, [])
  | st, p :: ps => (portIn env cfg n k gcfg d p st p.operations).bind fun r =>
    (portsIn env cfg n k gcfg d r.1 ps).bind fun q => .ok (q.1, r.2 ++ q.2)

/-- The generated file: what xsdgen has declared, and the methods of `Client` with their names. -/
structure File where
  types : List GoDecl
  funcs : List (Str × FuncDecl)

/-- The types that `printer.addHelpers` declares (wsdlgen/helper.go:13-32). -/
def clientTypes : List Str := [b!"Client", b!"soapEnvelope"]

/-- The methods of `Client` that `printer.addHelpers` declares (wsdlgen/helper.go:34-84). -/
def clientMethods : List Str := [b!"do"]

/-- The names of the types that the file declares. -/
def File.typeNames (f : File) : List Str :=
  (f.types.filterMap fun d => match d with
    | .type _ n _ => some n
    | .func _ => none) ++ clientTypes ++ f.funcs.flatMap fun g => g.2.decls.map (·.1)

/-- The names of the methods of `Client`. -/
def File.methodNames (f : File) : List Str := clientMethods ++ f.funcs.map (·.1)

/-- `Config.GenAST` (wsdlgen/wsdlgen.go:90-150) after the files have been read: the first document is parsed as a
WSDL document, all of them as schemas. -/
def genFile (env : Env) (srt : Sorter strLt) (n k : Nat) (parse : List Doc → Outcome (List Schema × THeap)) (cfg : Xsdgen.Config) (gcfg : GenConfig) :
    List Doc → Run File
  | some root :: docs =>
    let d := Wsdl.parse root
    match genCode env srt n parse cfg (some root :: docs) with
    | (cfg, .done r) => r.bind fun c => (portsIn env cfg n k gcfg d c d.ports).bind fun q =>
      .ok { types := (Xsdgen.genAST srt c.2).2, funcs := q.2 }
    | _ => .error
  | _ => .error

end GoXml.Wsdl
