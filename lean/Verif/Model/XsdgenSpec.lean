import Verif.Model.XsdgenTypes
set_option autoImplicit false

/-! Model of the generation of type declarations: `genTypeSpec` and what it calls, `Config.gen` and
`Code.GenAST` (xsdgen/xsdgen.go), with the table of built-in types (xsdgen/builtin.go) and the helper
types (xsdgen/config.go). Simplifications: bodies of methods are left out (those of list types are in
`Model/XsdgenList.lean`), and apart from the one that never parses (xsdgen/xsdgen.go:1087) they are taken to
parse. The string in the tag of a field is kept without quotes. -/

namespace GoXml.Xsdgen
open Xsd

/-! ### Built-in types -/

/-- `builtinTbl` (xsdgen/builtin.go:33-82) in the order of the constants; `none` is nil. -/
def builtinTbl : List (Option GoExpr) :=
  let str := GoExpr.ident b!"string"
  let time := GoExpr.ident b!"time.Time"
  let int := GoExpr.ident b!"int"
  [some str, some (.array str), some str, some str, some str, some (.array str), some str, some str, some (.array str),
   some (.array str), some str, some (.ident b!"xml.Name"), some str, some (.array (.ident b!"byte")), some (.ident b!"bool"),
   some (.ident b!"byte"), some time, some time, some (.ident b!"float64"), some (.ident b!"float64"), some str,
   some (.ident b!"float32"), some time, some time, some time, some time, some time, some (.array (.ident b!"byte")), some int,
   some int, some str, some (.ident b!"int64"), some int, some int, some int, some str, some int, some int, some str, some time,
   some str, some (.ident b!"byte"), some (.ident b!"uint"), some (.ident b!"uint64"), some (.ident b!"uint"), none, none, none,
   none, some str]

/-- `builtinExpr` (xsdgen/builtin.go:9-14). -/
def builtinExpr (b : Builtin) : Run (Option GoExpr) :=
  if b > (builtinTbl.length : Int) ∨ b < 0 then .ok none
  else match builtinTbl[b.toNat]? with
    | some e => .ok e
    | none => .panic

/-- `Config.expr` (xsdgen/config.go:442-451). -/
def exprOf (env : Env) (cfg : Config) (H : THeap) : Ty → Run GoExpr
  | .builtin b => (builtinExpr b).bind fun o => match o with
    | some e => .ok e
    | none => .error
  | t => .ok (.ident (publicName env cfg (xmlName H t)))

/-- The text of an expression, as printed by go/format. -/
def exprText : GoExpr → Str
  | .ident s => s
  | .array e => b!"[]" ++ exprText e

/-- The entries added to `helperTypes` by `addStandardHelpers` for times (xsdgen/config.go:629-684). -/
def timeHelper (b : Builtin) : XName × Spec :=
  let name := b!"xsd" ++ builtinString b
  (builtinName b,
    { name := name, expr := .plain (.ident b!"time.Time"), priv := true, xsdType := .builtin b
      methods := [⟨b!"t *" ++ name, b!"UnmarshalText"⟩, ⟨b!"t " ++ name, b!"MarshalText"⟩, ⟨b!"t " ++ name, b!"MarshalXML"⟩,
        ⟨b!"t " ++ name, b!"MarshalXMLAttr"⟩]
      helperFuncs := [b!"_unmarshalTime", b!"_marshalTime"] })

/-- The entries for binary data (xsdgen/config.go:686-732). -/
def binaryHelper (b : Builtin) : XName × Spec :=
  let name := b!"xsd" ++ builtinString b
  (builtinName b,
    { name := name, expr := .plain (.array (.ident b!"byte")), priv := true, xsdType := .builtin b
      methods := [⟨b!"b *" ++ name, b!"UnmarshalText"⟩, ⟨b!"b " ++ name, b!"MarshalText"⟩] })

/-- `addStandardHelpers` (xsdgen/config.go:594-733). -/
def addStandardHelpers (cfg : Config) : Config :=
  { cfg with
    helperFuncs := [(b!"_unmarshalTime", ⟨[], b!"_unmarshalTime"⟩), (b!"_marshalTime", ⟨[], b!"_marshalTime"⟩)]
    helperTypes := [timeHelper 16, timeHelper 17, timeHelper 22, timeHelper 23, timeHelper 24, timeHelper 25, timeHelper 26,
      timeHelper 39, binaryHelper 27, binaryHelper 13] }

/-! ### Names of fields -/

/-- The loop in `nameGenerator.unique` (xsdgen/xsdgen.go:562-568): the first free name among the `k` names
from number `i` on. -/
def freeName (taken : List Str) (name : Str) : Nat → Nat → Option Str
  | 0, _ => none
  | k + 1, i => if name ++ natStr i ∈ taken then freeName taken name k (i + 1) else some (name ++ natStr i)

/-- `nameGenerator.unique` (xsdgen/xsdgen.go:559-573): the name and the names taken. -/
def uniqueName (taken : List Str) (name : Str) : Str × List Str :=
  if name ∈ taken then
    match freeName taken name 1000 0 with
    | some u => (u, u :: taken)
    | none => (name, taken)
  else (name, name :: taken)

/-- `nameGenerator.attribute` (xsdgen/xsdgen.go:575-582). -/
def attributeName (env : Env) (cfg : Config) (taken : List Str) (base : XName) : Str × List Str :=
  let name := publicName env cfg base
  if name ∈ taken then uniqueName taken (name ++ b!"Attr") else (name, name :: taken)

/-- `nameGenerator.element` (xsdgen/xsdgen.go:584-591). -/
def elementName (env : Env) (cfg : Config) (taken : List Str) (base : XName) : Str × List Str :=
  let name := publicName env cfg base
  if name ∈ taken then uniqueName taken name else (name, name :: taken)

/-! ### Complex types -/

/-- `fieldOverride` (xsdgen/xsdgen.go:546-552). -/
structure Override where
  fieldName : Str
  fromType : Str
  toType : Str
  dflt : Str := []
  type : Ty
  tag : Str
deriving DecidableEq, Repr

/-- The variables of `genComplexType`. -/
structure Acc where
  taken : List Str := []
  fields : List Field := []
  overrides : List Override := []
  helpers : List XName := []
deriving DecidableEq, Repr

/-- The loop for the base of a mixed type (xsdgen/xsdgen.go:606-611) with at most `n` steps. -/
def mixedBase (H : THeap) : Nat → Ty → Run Ty
  | 0, _ => .running
  | n + 1, b => match baseOf H b with
    | none => .ok b
    | some c => if isSimple H b then .ok b else mixedBase H n c

/-- The field for the text of a mixed type (xsdgen/xsdgen.go:601-649). -/
def charData (env : Env) (cfg : Config) (n : Nat) (H : THeap) (t : ComplexT) : Run Acc :=
  if t.mixed then
    match t.base with
    | none => .panic
    | some b0 => (mixedBase H n b0).bind fun base => (exprOf env cfg H base).bind fun expr =>
      let tag := b!"xml:\",chardata\""
      match base with
      | .builtin b =>
        if b = AnyType then .ok {}
        else
          let fields := [{ name := b!"Value", type := expr, tag := tag : Field }]
          if nonTrivialBuiltin (some base) then
            match cfg.helperTypes.get (xmlName H base) with
            | none => .error
            | some h => .ok { taken := [b!"Value"], fields := fields, helpers := [xmlName H h.xsdType],
                              overrides := [{ fieldName := b!"Value", fromType := exprText expr, tag := tag, toType := h.name, type := base }] }
          else .ok { taken := [b!"Value"], fields := fields }
      | base => if isSimple H base then .ok { fields := [{ name := exprText expr, type := expr, tag := tag }] } else .panic
  else .ok {}

/-- The fields taken over from the base type (xsdgen/xsdgen.go:651-674). -/
def takeOver (H : THeap) (t : ComplexT) : ComplexT :=
  match complexBase H t with
  | none => t
  | some b =>
    { t with
      attributes := mergeAttributes t.attributes b.2.attributes
      elements := if t.elements.any (·.wildcard) then t.elements
        else match b.2.elements.find? (·.wildcard) with
          | some e => t.elements ++ [e]
          | none => t.elements }

/-- The override for an element or attribute (xsdgen/xsdgen.go:709-729 and 758-778); `expr` is
`cfg.expr(type)`, `helper` the name added to `helperTypes`. -/
def addOverride (cfg : Config) (H : THeap) (acc : Acc) (name dflt tag : Str) (type : Ty) (expr : GoExpr)
    (helper : Spec → XName) : Run Acc :=
  if nonTrivialBuiltin (some type) then
    match cfg.helperTypes.get (xmlName H type) with
    | none => .error
    | some h => .ok { acc with
        helpers := acc.helpers ++ [helper h]
        overrides := acc.overrides ++ [⟨name, exprText expr, h.name, dflt, type, tag⟩] }
  else if dflt ≠ [] then
    .ok { acc with overrides := acc.overrides ++ [⟨name, exprText expr, exprText expr, dflt, type, tag⟩] }
  else .ok acc

/-- The loop over elements (xsdgen/xsdgen.go:680-730). -/
def elemStep (env : Env) (cfg : Config) (H : THeap) (acc : Acc) (el : XElem) : Run Acc :=
  let options := if el.nillable || el.optional then b!",omitempty" else []
  (exprOf env cfg H el.type).bind fun expr =>
    let gen := elementName env cfg acc.taken el.name
    let tag := if el.wildcard then b!"xml:\",any\""
      else b!"xml:\"" ++ el.name.space ++ b!" " ++ el.name.loc ++ options ++ b!"\""
    let name := if el.wildcard then (if el.plural then b!"Items" else b!"Item") else gen.1
    let base := if el.wildcard ∧ el.type = .builtin AnyType then GoExpr.ident b!"string" else expr
    let base := if el.plural then GoExpr.array base else base
    addOverride cfg H { acc with taken := gen.2, fields := acc.fields ++ [⟨name, base, tag⟩] } name el.dflt tag el.type expr
      (fun h => xmlName H h.xsdType)

/-- The loop over attributes (xsdgen/xsdgen.go:731-779). -/
def attrStep (env : Env) (cfg : Config) (H : THeap) (acc : Acc) (a : XAttr) : Run Acc :=
  let options := if a.optional then b!",omitempty" else []
  let qualified := a.attr.any fun x => decide (x.name = ⟨[], b!"form"⟩ ∧ x.value = b!"qualified")
  let tag := if qualified then b!"xml:\"" ++ a.name.space ++ b!" " ++ a.name.loc ++ b!",attr" ++ options ++ b!"\""
    else b!"xml:\"" ++ a.name.loc ++ b!",attr" ++ options ++ b!"\""
  (exprOf env cfg H a.type).bind fun expr =>
    let gen := attributeName env cfg acc.taken a.name
    addOverride cfg H { acc with taken := gen.2, fields := acc.fields ++ [⟨gen.1, expr, tag⟩] } gen.1 a.dflt tag a.type expr
      (fun _ => xmlName H a.type)

def runFold {α β : Type} (f : β → α → Run β) : β → List α → Run β
  | b, [] => .ok b
  | b, a :: as => (f b a).bind fun b' => runFold f b' as

/-- The fields of `genComplexType` (xsdgen/xsdgen.go:601-779), for the type after `takeOver`. -/
def genFields (env : Env) (cfg : Config) (n : Nat) (H : THeap) (t : ComplexT) : Run Acc :=
  (charData env cfg n H t).bind fun acc =>
    (runFold (elemStep env cfg H) acc (filterFields cfg t).2).bind fun acc =>
      runFold (attrStep env cfg H) acc (filterFields cfg t).1

/-- `genComplexType` (xsdgen/xsdgen.go:592-796). `takeOver` changes neither the base nor the flag that
`charData` looks at. The methods are those of `genComplexTypeMethods` (xsdgen/xsdgen.go:798-866). -/
def genComplexType (env : Env) (cfg : Config) (n : Nat) (H : THeap) (id : Nat) (t : ComplexT) : Run (THeap × List Spec) :=
  let t := takeOver H t
  let H := H.set id (.complex t)
  (genFields env cfg n H t).bind fun acc =>
    let name := publicName env cfg t.name
    let methods : List FuncDecl :=
      (if acc.overrides.any (fun o => nonTrivialBuiltin (some o.type)) then [⟨b!"t *" ++ name, b!"MarshalXML"⟩] else []) ++
      (if acc.overrides = [] then [] else [⟨b!"t *" ++ name, b!"UnmarshalXML"⟩])
    .ok (H, [{ doc := t.doc, name := name, expr := .struct acc.fields, xsdType := .obj id, helperTypes := acc.helpers, methods := methods }])

/-! ### Simple types -/

/-- The loop for the base of a list (xsdgen/xsdgen.go:957-959) with at most `n` steps. -/
def lastBase (H : THeap) : Nat → Ty → Run Ty
  | 0, _ => .running
  | n + 1, b => match baseOf H b with
    | none => .ok b
    | some c => lastBase H n c

/-- The cases of the switch in `genSimpleListSpec` (xsdgen/xsdgen.go:961-1121). -/
inductive ListCodec where
  | strings | times | int64s | floats | ints | uints | uint64s | bytes | bools
deriving DecidableEq, Repr

/-- The switch in `genSimpleListSpec` (xsdgen/xsdgen.go:961-1121): ID, NCName, NMTOKEN, Name, QName, ENTITY,
AnyURI, Language, String, Token, XMLLang, XMLSpace, XMLBase, XMLId, Duration, NormalizedString,
AnySimpleType; Date, DateTime, GDay, GMonth, GMonthDay, GYear, GYearMonth, Time; Long; Decimal, Double; Int,
Integer, NegativeInteger, NonNegativeInteger, NonPositiveInteger, Short; UnsignedInt, UnsignedShort;
UnsignedLong; Byte, UnsignedByte; Boolean. -/
def listCodec (b : Int) : Option ListCodec :=
  if b ∈ ([3, 6, 7, 10, 11, 2, 12, 30, 38, 40, 45, 46, 47, 48, 20, 35, 49] : List Int) then some .strings
  else if b ∈ ([16, 17, 22, 23, 24, 25, 26, 39] : List Int) then some .times
  else if b = 31 then some .int64s
  else if b ∈ ([18, 19] : List Int) then some .floats
  else if b ∈ ([28, 29, 32, 33, 34, 37] : List Int) then some .ints
  else if b ∈ ([42, 44] : List Int) then some .uints
  else if b = 43 then some .uint64s
  else if b ∈ ([15, 41] : List Int) then some .bytes
  else if b = 14 then some .bools
  else none

/-- `genSimpleListSpec` (xsdgen/xsdgen.go:937-1136). The body of `MarshalText` for lists of booleans does not
parse (xsdgen/xsdgen.go:1086-1087). -/
def genSimpleListSpec (env : Env) (cfg : Config) (n : Nat) (H : THeap) (id : Nat) (t : SimpleT) : Run (List Spec) :=
  match t.base with
  | none => .panic
  | some b => (exprOf env cfg H b).bind fun expr => (lastBase H n b).bind fun base => match base with
    | .builtin b =>
      let name := publicName env cfg t.name
      match listCodec b with
      | none => .error
      | some .bools => .error
      | some _ => .ok [{ name := name, expr := .plain (.array expr), xsdType := .obj id
                         methods := [⟨b!"x *" ++ name, b!"MarshalText"⟩, ⟨b!"x *" ++ name, b!"UnmarshalText"⟩] }]
    | _ => .panic

/-- `genSimpleType` (xsdgen/xsdgen.go:868-902) with `addSpecMethods` (xsdgen/xsdgen.go:905-933). -/
def genSimpleType (env : Env) (cfg : Config) (n : Nat) (H : THeap) (id : Nat) (t : SimpleT) : Run (List Spec) :=
  if t.list then genSimpleListSpec env cfg n H id t
  else
    let name := publicName env cfg t.name
    if t.union ≠ [] then .ok [{ doc := t.doc, name := name, expr := .plain (.ident b!"string"), xsdType := .obj id }]
    else match t.base with
      | none => .panic
      | some b => (exprOf env cfg H b).bind fun expr =>
        let s : Spec := { doc := t.doc, name := name, expr := .plain expr, xsdType := .obj id }
        if nonTrivialBuiltin t.base then
          match cfg.helperTypes.get (xmlName H b) with
          | none => .error
          | some h => .ok [{ s with
              helperTypes := [xmlName H h.xsdType]
              methods := [⟨b!"t *" ++ name, b!"UnmarshalText"⟩, ⟨b!"t " ++ name, b!"MarshalText"⟩] }]
        else .ok [s]

/-- `genTypeSpec` (xsdgen/xsdgen.go:525-544). -/
def genTypeSpec (env : Env) (cfg : Config) (n : Nat) (H : THeap) : Ty → Run (THeap × List Spec)
  | .obj id => match H[id]? with
    | some (.simple s) => (genSimpleType env cfg n H id s).bind fun r => .ok (H, r)
    | some (.complex c) => genComplexType env cfg n H id c
    | none => .ok (H, [])
  | _ => .ok (H, [])

/-! ### gen -/

/-- `Code` (xsdgen/xsdgen.go:74-80) and what is left of the configuration's helpers. -/
structure Code where
  names : GoMap XName Str := []
  decls : GoMap Str Spec := []
  types : GoMap XName Ty := []
  pkgname : Str := []

/-- The loop over the types of a schema (xsdgen/xsdgen.go:181-192). The flag tells whether there was an error.
Simplification: if there is one, the attributes that `takeOver` has merged before are forgotten; no code
is returned in that case. -/
def genList (env : Env) (cfg : Config) (n : Nat) : THeap → List Ty → Run (THeap × List Spec × Bool)
  | H, [] => .ok (H, [], false)
  | H, t :: ts => match genTypeSpec env cfg n H t with
    | .ok r => (genList env cfg n r.1 ts).bind fun q => .ok (q.1, r.2 ++ q.2.1, q.2.2)
    | .error => (genList env cfg n H ts).bind fun q => .ok (q.1, q.2.1, true)
    | .panic => .panic
    | .running => .running

/-- The loop over the selected schemas (xsdgen/xsdgen.go:177-193), given the types of each in the order in
which the map is visited. -/
def genSchemas (env : Env) (cfg : Config) (n : Nat) : THeap → List (List Ty) → Run (THeap × List Spec × Bool)
  | H, [] => .ok (H, [], false)
  | H, types :: rest => (flatten cfg n H types).bind fun f =>
    (expandComplexTypes n f.1 f.2).bind fun H2 =>
      (genList env cfg n H2 f.2).bind fun r =>
        (genSchemas env cfg n r.1 rest).bind fun q => .ok (q.1, r.2.1 ++ q.2.1, r.2.2 || q.2.2)

/-- `code.decls[s.name] = s` for all specs (xsdgen/xsdgen.go:188-191). -/
def declare : List Spec → GoMap Str Spec → GoMap Str Spec
  | [], m => m
  | s :: ss, m => declare ss (m.set s.name s)

/-- `code.names[XMLName(s.xsdType)] = s.name` for all specs. -/
def nameAll (H : THeap) : List Spec → GoMap XName Str → GoMap XName Str
  | [], m => m
  | s :: ss, m => nameAll H ss (m.set (xmlName H s.xsdType) s.name)

/-- The loop over helper types (xsdgen/xsdgen.go:207-215): the names that the visited declarations ask for,
the declarations, and the helper types left. A helper that is added while the map is visited may be
visited or not; the helpers ask for no other (`addStandardHelpers`). -/
def addHelpers : List XName → GoMap Str Spec → GoMap XName Spec → GoMap Str Spec × GoMap XName Spec
  | [], decls, helpers => (decls, helpers)
  | dep :: deps, decls, helpers => match helpers.get dep with
    | some h => addHelpers deps (decls.set h.name h) (helpers.erase dep)
    | none => addHelpers deps decls helpers

/-- The loop over the helper functions of one declaration (xsdgen/xsdgen.go:218-225). -/
def addFuncs : List Str → Spec → GoMap Str FuncDecl → Spec × GoMap Str FuncDecl
  | [], s, fns => (s, fns)
  | dep :: deps, s, fns => match fns.get dep with
    | some f => addFuncs deps { s with methods := s.methods ++ [f] } (fns.erase dep)
    | none => addFuncs deps s fns

/-- The loop over the sorted names (xsdgen/xsdgen.go:216-226). -/
def addAllFuncs : List Str → GoMap Str Spec → GoMap Str FuncDecl → GoMap Str Spec × GoMap Str FuncDecl
  | [], decls, fns => (decls, fns)
  | t :: ts, decls, fns => match decls.get t with
    | some s => addAllFuncs ts (decls.set t (addFuncs s.helperFuncs s fns).1) (addFuncs s.helperFuncs s fns).2
    | none => addAllFuncs ts decls fns

/-- `gen` after the specs are made (xsdgen/xsdgen.go:196-227): the declarations and the configuration. -/
def finish (srt : Sorter strLt) (cfg : Config) (specs : List Spec) : GoMap Str Spec × Config :=
  let decls := declare specs []
  let decls := match cfg.postprocessType with
    | some f => decls.map fun e => (e.1, f e.2)
    | none => decls
  let h := addHelpers (decls.flatMap fun e => e.2.helperTypes) decls cfg.helperTypes
  let f := addAllFuncs (srt.sort (h.1.map (·.1))) h.1 cfg.helperFuncs
  (f.1, { cfg with helperTypes := h.2, helperFuncs := f.2 })

/-- Preprocessing of the types of a schema (xsdgen/xsdgen.go:160-168), which sees the types of all schemas. -/
def preprocess (pre : TypeTransform) (s : Schema) : List (XName × Ty) → THeap → List (XName × Ty) × THeap
  | [], H => ([], H)
  | e :: es, H =>
    let r := pre s (some e.2) H
    let q := preprocess pre s es r.2
    ((e.1, r.1.getD e.2) :: q.1, q.2)

/-- Preprocessing of all selected schemas (xsdgen/xsdgen.go:156-174). -/
def preprocessAll (pre : TypeTransform) (all : GoMap XName Ty) : List Schema → THeap → List Schema × THeap
  | [], H => ([], H)
  | s :: ss, H =>
    let r := preprocess pre { s with types := all } s.types H
    let q := preprocessAll pre all ss r.2
    ({ s with types := r.1 } :: q.1, q.2)

/-- `all[k] = v` for the types of all schemas (xsdgen/xsdgen.go:143-153). -/
def allTypes (schemas : List Schema) : GoMap XName Ty :=
  schemas.foldl (fun m s => s.types.foldl (fun m e => GoMap.set m e.1 e.2) m) []

/-- `Config.gen` (xsdgen/xsdgen.go:134-227). -/
def gen (env : Env) (srt : Sorter strLt) (cfg : Config) (n : Nat) (primaries deps : List Schema) (H : THeap) :
    Run (THeap × Code × Config) :=
  let all := allTypes (primaries ++ deps)
  let p := match cfg.preprocessType with
    | some pre => preprocessAll pre all primaries H
    | none => (primaries, H)
  (genSchemas env cfg n p.2 (p.1.map fun s => s.types.map (·.2))).bind fun r =>
    if r.2.2 then .error
    else
      let f := finish srt cfg r.2.1
      .ok (r.1, { names := nameAll r.1 r.2.1 [], decls := f.1, types := all, pkgname := cfg.pkgname }, f.2)

/-- A declaration of the generated file. -/
inductive GoDecl where
  | type (doc name : Str) (expr : DeclExpr)
  | func (f : FuncDecl)
deriving DecidableEq, Repr

/-- `Code.GenAST` (xsdgen/xsdgen.go:229-260): the name of the package and the declarations. -/
def genAST (srt : Sorter strLt) (code : Code) : Str × List GoDecl :=
  (if code.pkgname = [] then b!"ws" else code.pkgname,
   (srt.sort (code.decls.map (·.1))).flatMap fun name => match code.decls.get name with
     | some s => .type s.doc name s.expr :: s.methods.map .func
     | none => [])

end GoXml.Xsdgen
