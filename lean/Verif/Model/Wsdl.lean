import Verif.Model.XmlTree
import Verif.Model.GoMap
import Verif.Model.Gen
set_option autoImplicit false

/-! Model of `wsdl/wsdl.go` (after the document has been parsed) and of the decisions in
`wsdlgen/wsdlgen.go`. -/

namespace GoXml.Wsdl

/-- wsdl/wsdl.go:14-17 -/
def wsdlNS : Str := b!"http://schemas.xmlsoap.org/wsdl/"
def soapNS : Str := b!"http://schemas.xmlsoap.org/wsdl/soap/"
def soap12NS : Str := b!"http://schemas.xmlsoap.org/wsdl/soap12/"
def httpNS : Str := b!"http://schemas.xmlsoap.org/wsdl/http/"

/-- `Part` (wsdl/wsdl.go:66-69). -/
structure Part where
  name : Str
  type : XName
  element : XName
deriving DecidableEq

/-- `Message` (wsdl/wsdl.go:51-54). -/
structure Message where
  name : XName
  parts : List Part
deriving DecidableEq

/-- `Operation` (wsdl/wsdl.go:75-80). -/
structure Operation where
  doc : Str := []
  soapAction : Str := []
  name : XName := ⟨[], []⟩
  input : XName := ⟨[], []⟩
  output : XName := ⟨[], []⟩
deriving DecidableEq

/-- `Port` (wsdl/wsdl.go:83-86). -/
structure Port where
  name : Str
  address : Str
  method : Str
  operations : List Operation
deriving DecidableEq

/-- `Definition` (wsdl/wsdl.go:27-32). -/
structure Definition where
  doc : Str
  ports : List Port
  message : GoMap XName Message
  targetNS : Str

/-- `bytes.Join(docs, "\n")`. -/
def joinLines : List Str → Str
  | [] => []
  | [d] => d
  | d :: d' :: ds => d ++ b!"\n" ++ joinLines (d' :: ds)

/-- `documentation` (wsdl/wsdl.go:89-98). -/
def documentation (el : Element) : Str :=
  joinLines ((el.children.filter fun d => decide (d.name.loc = b!"documentation")).map (·.content))

/-- The elements that `Search` finds. -/
def searchEl (el : Element) (space loc : Str) : List Element := (el.search space loc).map (·.2)

/-- The elements that `SearchFunc` finds. -/
def searchFuncEl (el : Element) (fn : Element → Bool) : List Element := (el.searchFunc fun _ e => fn e).map (·.2)

/-- A part (wsdl/wsdl.go:106-110). -/
def parsePart (part : Element) : Part :=
  { name := part.attr [] b!"name"
    type := resolve part.scope (part.attr [] b!"type")
    element := resolve part.scope (part.attr [] b!"element") }

/-- A message (wsdl/wsdl.go:103-112). -/
def parseMessage (targetNS : Str) (msg : Element) : Message :=
  { name := resolveDefault msg.scope (msg.attr [] b!"name") targetNS
    parts := (searchEl msg wsdlNS b!"part").map parsePart }

/-- `parseMessages` (wsdl/wsdl.go:100-116). -/
def parseMessages (targetNS : Str) (root : Element) : GoMap XName Message :=
  (searchEl root wsdlNS b!"message").foldl
    (fun m msg => m.set (parseMessage targetNS msg).name (parseMessage targetNS msg)) []

/-- `for _, x := range xs { v = f(x) }`. -/
def assignLast {α β : Type} (f : α → β) : β → List α → β
  | v, [] => v
  | _, x :: xs => assignLast f (f x) xs

/-- The predicate for bindings (wsdl/wsdl.go:140-144, 159-163). -/
def isBinding (targetNS : Str) (binding : XName) (el : Element) : Bool :=
  decide (el.name.space = wsdlNS) && decide (el.name.loc = b!"binding") &&
    decide (resolveDefault el.scope (el.attr [] b!"name") targetNS = binding)

/-- The predicate for port types (wsdl/wsdl.go:167-171). -/
def isPortType (targetNS : Str) (portType : XName) (el : Element) : Bool :=
  decide (el.name.space = wsdlNS) && decide (el.name.loc = b!"portType") &&
    decide (resolveDefault el.scope (el.attr [] b!"name") targetNS = portType)

/-- `strings.ToUpper`, on ASCII letters. -/
def toUpper (s : Str) : Str := s.map fun c => if 97 ≤ c ∧ c ≤ 122 then c - 32 else c

/-- The inner loop of `parseMethod` (wsdl/wsdl.go:146-151). -/
def methodOfBinding : List Element → Option Str
  | [] => none
  | h :: hs => if (h.attr [] b!"verb").length > 0 then some (toUpper (h.attr [] b!"verb")) else methodOfBinding hs

/-- The outer loop of `parseMethod` (wsdl/wsdl.go:145-153). -/
def methodLoop : List Element → Str
  | [] => b!"POST"
  | bind :: bs => match methodOfBinding (searchEl bind httpNS b!"binding") with
    | some m => m
    | none => methodLoop bs

/-- `parseMethod` (wsdl/wsdl.go:138-154). -/
def parseMethod (targetNS : Str) (root port : Element) : Str :=
  methodLoop (searchFuncEl root (isBinding targetNS (resolve port.scope (port.attr [] b!"binding"))))

/-- The loops that set `SOAPAction` (wsdl/wsdl.go:187-191). -/
def soapLoop (v : Str) : List Element → Str
  | [] => v
  | el :: els => soapLoop (assignLast (fun s => s.attr [] b!"soapAction") v (searchEl el soapNS b!"operation")) els

/-- One operation (wsdl/wsdl.go:174-192). -/
def parseOperation (targetNS : Str) (bind op : Element) : Operation :=
  { doc := documentation op
    name := resolveDefault op.scope (op.attr [] b!"name") targetNS
    input := assignLast (fun i => resolve i.scope (i.attr [] b!"message")) ⟨[], []⟩ (searchEl op wsdlNS b!"input")
    output := assignLast (fun i => resolve i.scope (i.attr [] b!"message")) ⟨[], []⟩ (searchEl op wsdlNS b!"output")
    soapAction := soapLoop [] (searchFuncEl bind fun el =>
      decide (el.name = op.name) && decide (el.attr [] b!"name" = op.attr [] b!"name")) }

/-- `parseOperations` (wsdl/wsdl.go:156-197). -/
def parseOperations (targetNS : Str) (root port : Element) : List Operation :=
  (searchFuncEl root (isBinding targetNS (resolve port.scope (port.attr [] b!"binding")))).flatMap fun bind =>
    (searchFuncEl root (isPortType targetNS (resolve bind.scope (bind.attr [] b!"type")))).flatMap fun pt =>
      (searchEl pt wsdlNS b!"operation").map (parseOperation targetNS bind)

/-- `parsePorts` (wsdl/wsdl.go:118-135). -/
def parsePorts (targetNS : Str) (root svc : Element) : List Port :=
  (searchEl svc wsdlNS b!"port").map fun port =>
    { name := port.attr [] b!"name"
      address := assignLast (fun a => a.attr [] b!"location")
        (assignLast (fun a => a.attr [] b!"location") [] (searchEl port soapNS b!"address"))
        (searchEl port soap12NS b!"address")
      method := parseMethod targetNS root port
      operations := parseOperations targetNS root port }

/-- The loop over services (wsdl/wsdl.go:210-213). -/
def serviceLoop (targetNS : Str) (root : Element) : Str × List Port → List Element → Str × List Port
  | acc, [] => acc
  | _, svc :: svcs => serviceLoop targetNS root (documentation svc, parsePorts targetNS root svc) svcs

/-- `Parse` (wsdl/wsdl.go:200-215), after the document has been parsed. -/
def parse (root : Element) : Definition :=
  let tns := root.attr [] b!"targetNamespace"
  let dp := serviceLoop tns root ([], []) (searchEl root wsdlNS b!"service")
  { doc := dp.1, ports := dp.2, message := parseMessages tns root, targetNS := tns }

/-! ### wsdlgen -/

/-- `strings.Title` on ASCII letters: a letter after anything but a letter, digit, underscore or
non-ASCII byte is made upper case. -/
def titleLoop (prevSep : Bool) : Str → Str
  | [] => []
  | c :: cs =>
    let word := decide ((48 ≤ c ∧ c ≤ 57) ∨ (65 ≤ c ∧ c ≤ 90) ∨ c = 95 ∨ (97 ≤ c ∧ c ≤ 122) ∨ 128 ≤ c)
    (if prevSep && decide (97 ≤ c ∧ c ≤ 122) then c - 32 else c) :: titleLoop (!word) cs

def title (s : Str) : Str := titleLoop true s

/-- `field` (wsdlgen/wsdlgen.go:71-85). -/
structure Field where
  name : Str
  type : Str
  xmlName : XName := ⟨[], []⟩
  publicType : Str := []
  inputArg : Str := []
deriving DecidableEq

/-- `opArgs` (wsdlgen/wsdlgen.go:41-68), the fields that the templates use. -/
structure OpArgs where
  input : List Str
  output : List Str
  inputType : Str
  returnType : Str
  inputFields : List Field
  outputFields : List Field
  returnFields : List Field
  inputName : XName
  outputName : XName
deriving DecidableEq

/-- `exposeType` (wsdlgen/wsdlgen.go:255-266). -/
def exposeType (typ : Str) : Str :=
  if typ ∈ [b!"xsdDate", b!"xsdTime", b!"xsdDateTime", b!"gDay", b!"gMonth", b!"gMonthDay", b!"gYear", b!"gYearMonth"] then
    b!"time.Time"
  else if typ ∈ [b!"hexBinary", b!"base64Binary"] then b!"[]byte"
  else if typ ∈ [b!"idrefs", b!"nmtokens", b!"notation", b!"entities"] then b!"[]string"
  else typ

/-- What wsdlgen takes from the code generated by xsdgen (`xsdgen.Code`): the Go name of a type, and
the elements of the document type of a namespace with the names of their types. The boolean of
`DocType` is the option. -/
structure Code where
  nameOf : XName → Str
  docType : Str → Option (List (XName × XName))

/-- `printer.getPartType` (wsdlgen/wsdlgen.go:268-285); `none` is an error. -/
def getPartType (code : Code) (part : Part) : Option Str :=
  if part.type.loc ≠ [] then some (code.nameOf part.type)
  else if part.element.loc ≠ [] then
    match code.docType part.element.space with
    | none => none
    | some els => (els.find? fun el => decide (el.1 = part.element)).map fun el => code.nameOf el.2
  else none

/-- The types of all parts, or an error if one has none (the first half of the loops at
wsdlgen/wsdlgen.go:294-312 and 321-333). -/
def partTypes (code : Code) : List Part → Option (List (Part × Str))
  | [] => some []
  | p :: ps => match getPartType code p, partTypes code ps with
    | some t, some r => some ((p, t) :: r)
    | _, _ => none

/-- The name of the parameter for a part (wsdlgen/wsdlgen.go:300-303). -/
def paramName (p : Part) (typ : Str) : Str :=
  if Gen.sanitize p.name = typ then Gen.sanitize p.name ++ b!"_" else Gen.sanitize p.name

/-- What `printer.opArgs` makes of the parts of the two messages and their types (wsdlgen/wsdlgen.go:287-351). -/
def argsOf (maxArgs maxReturns : Int) (targetNS : Str) (input output : Message) (ins outs : List (Part × Str)) : OpArgs :=
  let wrapIn := decide ((ins.length : Int) > maxArgs)
  let wrapOut := decide ((outs.length : Int) > maxReturns)
  let outputFields := outs.map fun pt =>
    { name := title pt.1.name, type := pt.2, xmlName := ⟨targetNS, pt.1.name⟩ : Field }
  { input := if wrapIn then [b!"v " ++ input.name.loc]
      else ins.map fun pt => paramName pt.1 pt.2 ++ b!" " ++ exposeType pt.2
    output := (if wrapOut then [title output.name.loc] else outs.map fun pt => exposeType pt.2) ++ [b!"error"]
    inputType := if wrapIn then title input.name.loc else []
    returnType := if wrapOut then title output.name.loc else []
    inputFields := ins.map fun pt =>
      { name := title pt.1.name, type := pt.2, xmlName := ⟨targetNS, pt.1.name⟩, publicType := exposeType pt.2
        inputArg := if wrapIn then b!"v." ++ title pt.1.name else paramName pt.1 pt.2 }
    outputFields := outputFields
    returnFields := if wrapOut then outputFields.map fun v =>
      { name := v.name, type := exposeType v.type, inputArg := v.name } else []
    inputName := input.name
    outputName := output.name }

/-- `printer.opArgs` (wsdlgen/wsdlgen.go:287-351); `none` is an error. -/
def opArgs (code : Code) (maxArgs maxReturns : Int) (targetNS : Str) (input output : Message) :
    Option OpArgs :=
  match partTypes code input.parts, partTypes code output.parts with
  | some ins, some outs => some (argsOf maxArgs maxReturns targetNS input output ins outs)
  | _, _ => none

/-- The type declarations that `printer.operation` adds (wsdlgen/wsdlgen.go:175-200): each name with
its fields. -/
def wrapperDecls (a : OpArgs) : List (Str × List (Str × Str)) :=
  (if a.inputType ≠ [] then [(a.inputType, a.inputFields.map fun f => (f.name, f.publicType))] else []) ++
  (if a.returnType ≠ [] then [(a.returnType, a.returnFields.map fun f => (f.name, f.type))] else [])

/-- The values in the `return` statement of the body template (wsdlgen/wsdlgen.go:231-241). -/
def returnValues (a : OpArgs) : List Str :=
  if a.outputFields ≠ [] then (a.outputFields.map fun f => f.type ++ b!"(output.Args." ++ f.name ++ b!")") ++ [b!"err"]
  else if a.returnType ≠ [] then [b!"result", b!"err"]
  else [b!"err"]

/-- The body of a generated function before its `return` statement (wsdlgen/wsdlgen.go:206-229): the names of the
variables `input` and `output`, of their `Args` with the fields of both, the value assigned to each field of `input`,
and the arguments of `c.do`. -/
structure Body where
  msgName : XName
  inputName : XName
  outputName : XName
  sent : List (Str × Str × XName × Str)
  received : List (Str × Str × XName)
  method : Str
  address : Str
  soapAction : Str
deriving DecidableEq

/-- A generated function: the port and operation it is for, its parameters and results, its body, the values in
its `return` statement, and the types declared with it. -/
structure FuncDecl where
  port : Port
  op : Operation
  params : List Str
  results : List Str
  returns : List Str
  decls : List (Str × List (Str × Str))
  body : Body

/-- `Config` of wsdlgen, the fields that matter here (wsdlgen/config.go:11-20). -/
structure GenConfig where
  portFilter : Option (Port → Bool)
  maxArgs : Int
  maxReturns : Int

/-- `OnlyPorts` (wsdlgen/config.go:70-82): the configuration after applying the option. -/
def onlyPorts (ports : List Str) (cfg : GenConfig) : GenConfig :=
  { cfg with portFilter := some fun p => decide (p.name ∈ ports) }

/-- The body of the function (wsdlgen/wsdlgen.go:206-229). -/
def bodyOf (port : Port) (op : Operation) (a : OpArgs) : Body :=
  { msgName := op.name, inputName := a.inputName, outputName := a.outputName
    sent := a.inputFields.map fun f => (f.name, f.type, f.xmlName, f.type ++ b!"(" ++ f.inputArg ++ b!")")
    received := a.outputFields.map fun f => (f.name, f.type, f.xmlName)
    method := port.method, address := port.address, soapAction := op.soapAction }

/-- The function that `printer.operation` makes (wsdlgen/wsdlgen.go:175-249). -/
def funcOf (port : Port) (op : Operation) (a : OpArgs) : FuncDecl :=
  { port := port, op := op, params := b!"ctx context.Context" :: a.input, results := a.output
    returns := returnValues a, decls := wrapperDecls a, body := bodyOf port op a }

/-- `printer.operation` (wsdlgen/wsdlgen.go:161-250); `none` is an error. That the texts made from
the templates are valid Go is not modelled, so errors of `gen.Snippets` and `fn.Decl` are not
either. -/
def operation (cfg : GenConfig) (code : Code) (d : Definition) (port : Port) (op : Operation) : Option FuncDecl :=
  match d.message.get op.input, d.message.get op.output with
  | some input, some output =>
    match opArgs code cfg.maxArgs cfg.maxReturns d.targetNS input output with
    | some a => some (funcOf port op a)
    | none => none
  | _, _ => none

/-- `printer.port` (wsdlgen/wsdlgen.go:152-159). -/
def portDecls (cfg : GenConfig) (code : Code) (d : Definition) (port : Port) : List Operation → Option (List FuncDecl)
  | [] => some []
  | op :: ops => match operation cfg code d port op, portDecls cfg code d port ops with
    | some f, some fs => some (f :: fs)
    | _, _ => none

/-- The loop of `printer.genAST` (wsdlgen/wsdlgen.go:144-148). -/
def genLoop (cfg : GenConfig) (code : Code) (d : Definition) : List Port → Option (List FuncDecl)
  | [] => some []
  | p :: ps => match portDecls cfg code d p p.operations, genLoop cfg code d ps with
    | some fs, some gs => some (fs ++ gs)
    | _, _ => none

/-- `printer.genAST` (wsdlgen/wsdlgen.go:142-150), the functions it adds. -/
def genAST (cfg : GenConfig) (code : Code) (d : Definition) : Option (List FuncDecl) := genLoop cfg code d d.ports

end GoXml.Wsdl
