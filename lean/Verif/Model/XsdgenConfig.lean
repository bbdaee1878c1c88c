import Verif.Model.XsdParse
set_option autoImplicit false

/-! Model of the configuration of xsdgen (`xsdgen/config.go`) and of wsdlgen (`wsdlgen/config.go`).
Log messages are left out. -/

namespace GoXml.Xsdgen
open Xsd

/-- What is used of `regexp.Regexp`: `ReplaceAllString(src, repl)` and `MatchString`. -/
structure Regexp where
  replaceAll : Str → Str → Str
  matchString : Str → Bool

/-- The Go type expressions that are generated (go/ast): `ast.Ident` and `ast.ArrayType`. -/
inductive GoExpr where
  | ident (name : Str)
  | array (elt : GoExpr)
deriving DecidableEq, Repr

/-- A field of a struct made by `gen.Struct` (internal/gen/gen.go:75-95). -/
structure Field where
  name : Str
  type : GoExpr
  tag : Str
deriving DecidableEq, Repr

/-- The expression of a type declaration. -/
inductive DeclExpr where
  | plain (e : GoExpr)
  | struct (fields : List Field)
deriving DecidableEq, Repr

/-- A method or function declaration. Simplification: the body is left out. -/
structure FuncDecl where
  recv : Str
  name : Str
deriving DecidableEq, Repr

/-- `spec` (xsdgen/xsdgen.go:262-270). -/
structure Spec where
  name : Str := []
  doc : Str := []
  expr : DeclExpr
  priv : Bool := false
  methods : List FuncDecl := []
  xsdType : Ty
  helperTypes : List XName := []
  helperFuncs : List Str := []
deriving DecidableEq, Repr

/-- `typeTransform` (xsdgen/config.go:47). It may return nil and update what pointers point to. -/
abbrev TypeTransform := Schema → Option Ty → THeap → Option Ty × THeap

/-- `Config` (xsdgen/config.go:18-45). The functions in it get a pointer to an attribute, an element or
a type; of the type only its name is used (xsdgen/config.go:190). -/
structure Config where
  logger : Option Nat := none
  loglevel : Int := 0
  namespaces : List Str := []
  pkgname : Str := []
  followImports : Bool := false
  preprocessType : Option TypeTransform := none
  postprocessType : Option (Spec → Spec) := none
  helperFuncs : GoMap Str FuncDecl := []
  helperTypes : GoMap XName Spec := []
  filterAttributes : Option (XAttr → Bool) := none
  filterElements : Option (XElem → Bool) := none
  filterTypes : Option (XName → Bool) := none
  nameTransform : Option (XName → XName) := none
  allowTypes : Option (GoMap XName Bool) := none

/-- What is left open: `regexp.Compile`, `strings.Title`, and the two SOAP transformations
(xsdgen/config.go:500-592 and 738-866). -/
structure Env where
  compile : Str → Option Regexp
  title : Str → Str
  soapArray : TypeTransform
  arraySlice : Spec → Spec

/-- `strings.Join`. -/
def joinStr (sep : Str) : List Str → Str
  | [] => []
  | [s] => s
  | s :: t :: ss => s ++ sep ++ joinStr sep (t :: ss)

/-- `useFieldNames` (xsdgen/config.go:308-353), the change of one type of a field: it gets the name of
the field if it is anonymous and, for the complex type of an element, the name is not in use. -/
def renameAnon (check : Bool) (used : List XName) (name : XName) (H : THeap) : Ty → THeap
  | .obj id => match H[id]? with
    | some (.simple s) => if s.anonymous then H.set id (.simple { s with name := name, anonymous := false }) else H
    | some (.complex c) =>
      if c.anonymous && !(check && decide (name ∈ used)) then H.set id (.complex { c with name := name, anonymous := false })
      else H
    | none => H
  | _ => H

/-- `useFieldNames` (xsdgen/config.go:308-353). The fields are those of the type before any renaming:
renaming changes no field. -/
def useFieldNames : TypeTransform := fun s t H =>
  let used := s.types.map fun e => xmlName H e.2
  match t with
  | some (.obj id) => match H[id]? with
    | some (.complex c) =>
      let H := c.elements.foldl (fun H el => renameAnon true used el.name H el.type) H
      (t, c.attributes.foldl (fun H a => renameAnon false used a.name H a.type) H)
    | _ => (t, H)
  | _ => (t, H)

/-- The values of type `Option` (xsdgen/config.go:62) that occur: one constructor per function that
returns one. `setFilterAttributes f` and so on stand for `replacePropertyFilter(&cfg.filterAttributes, f)`
(xsdgen/config.go:128-134) on the configuration the option is used with; `disallowType` for the function
in `AllowType` (xsdgen/config.go:206-209). -/
inductive Opt where
  | namespaces (xmlns : List Str)
  | logOutput (l : Option Nat)
  | logLevel (n : Int)
  | setFilterAttributes (f : Option (XAttr → Bool))
  | setFilterElements (f : Option (XElem → Bool))
  | setFilterTypes (f : Option (XName → Bool))
  | ignoreAttributes (names : List Str)
  | ignoreElements (names : List Str)
  | onlyTypes (patterns : List Str)
  | allowType (n : XName)
  | disallowType (n : XName)
  | setPreprocess (f : Option TypeTransform)
  | setPostprocess (f : Option (Spec → Spec))
  | packageName (name : Str)
  | followImports (follow : Bool)
  | replace (pat repl : Str)
  | setNameTransform (f : Option (XName → XName))
  | replaceAllNames (reg : Regexp) (repl : Str)
  | useFieldNames
  | processTypes (f : TypeTransform)
  | handleSOAPArrayType
  | soapArrayAsSlice

/-- `if prev != nil { t = prev(s, t) }; return fn(s, t)` (xsdgen/config.go:360-365 and 375-380). -/
def thenTransform (prev : Option TypeTransform) (fn : TypeTransform) : TypeTransform := fun s t H =>
  match prev with
  | some p => fn s (p s t H).1 (p s t H).2
  | none => fn s t H

/-- The function that `Replace` and `replaceAllNamesRegex` install (xsdgen/config.go:259-273 and
288-298); an invalid pattern is `none`. -/
def thenReplace (prev : Option (XName → XName)) (reg : Option Regexp) (repl : Str) : XName → XName := fun name =>
  let name := match prev with
    | some p => p name
    | none => name
  match reg with
  | none => name
  | some r => { name with loc := r.replaceAll name.loc repl }

/-- Application of an option to a configuration: the configuration after it, and the returned option
(xsdgen/config.go:81-87, 108-153, 157-211, 213-300, 304-306, 357-418). -/
def applyOpt (env : Env) (o : Opt) (cfg : Config) : Config × Opt :=
  match o with
  | .namespaces x => ({ cfg with namespaces := x }, .namespaces cfg.namespaces)
  | .logOutput l => ({ cfg with logger := l }, .logOutput cfg.logger)
  | .logLevel n => ({ cfg with loglevel := n }, .logLevel cfg.loglevel)
  | .setFilterAttributes f => ({ cfg with filterAttributes := f }, .setFilterAttributes cfg.filterAttributes)
  | .setFilterElements f => ({ cfg with filterElements := f }, .setFilterElements cfg.filterElements)
  | .setFilterTypes f => ({ cfg with filterTypes := f }, .setFilterTypes cfg.filterTypes)
  | .ignoreAttributes names =>
    ({ cfg with filterAttributes := some fun a => decide (a.name.loc ∈ names) }, .setFilterAttributes cfg.filterAttributes)
  | .ignoreElements names =>
    ({ cfg with filterElements := some fun e => decide (e.name.loc ∈ names) }, .setFilterElements cfg.filterElements)
  | .onlyTypes patterns =>
    ({ cfg with filterTypes := some fun n => match env.compile (joinStr b!"|" patterns) with
        | none => false
        | some r => !r.matchString n.loc }, .setFilterTypes cfg.filterTypes)
  | .allowType n => ({ cfg with allowTypes := some (GoMap.set (cfg.allowTypes.getD []) n true) }, .disallowType n)
  | .disallowType n => ({ cfg with allowTypes := cfg.allowTypes.map fun m => GoMap.erase m n }, .allowType n)
  | .setPreprocess f => ({ cfg with preprocessType := f }, .setPreprocess cfg.preprocessType)
  | .setPostprocess f => ({ cfg with postprocessType := f }, .setPostprocess cfg.postprocessType)
  | .packageName s => ({ cfg with pkgname := s }, .packageName cfg.pkgname)
  | .followImports b => ({ cfg with followImports := b }, .followImports cfg.followImports)
  | .replace pat repl =>
    ({ cfg with nameTransform := some (thenReplace cfg.nameTransform (env.compile pat) repl) },
      .setNameTransform cfg.nameTransform)
  | .setNameTransform f => ({ cfg with nameTransform := f }, .setNameTransform cfg.nameTransform)
  | .replaceAllNames r repl =>
    ({ cfg with nameTransform := some (thenReplace cfg.nameTransform (some r) repl) }, .setNameTransform cfg.nameTransform)
  | .useFieldNames =>
    ({ cfg with preprocessType := some (thenTransform cfg.preprocessType Xsdgen.useFieldNames) },
      .setPreprocess cfg.preprocessType)
  | .processTypes f =>
    ({ cfg with preprocessType := some (thenTransform cfg.preprocessType f) }, .setPreprocess cfg.preprocessType)
  | .handleSOAPArrayType =>
    ({ cfg with preprocessType := some (thenTransform cfg.preprocessType env.soapArray) }, .setPreprocess cfg.preprocessType)
  | .soapArrayAsSlice =>
    ({ cfg with postprocessType := some fun s => env.arraySlice (match cfg.postprocessType with
        | some p => p s
        | none => s) }, .setPostprocess cfg.postprocessType)

/-- `Config.Option` (xsdgen/config.go:92-97); the returned option is nil if there was none. -/
def applyOpts (env : Env) : List Opt → Option Opt → Config → Config × Option Opt
  | [], previous, cfg => (cfg, previous)
  | o :: os, _, cfg => applyOpts env os (some (applyOpt env o cfg).2) (applyOpt env o cfg).1

/-- `Config.public` (xsdgen/config.go:473-478), which is also `Config.NameOf` (xsdgen/config.go:469-471). -/
def publicName (env : Env) (cfg : Config) (name : XName) : Str :=
  env.title (match cfg.nameTransform with
    | some f => (f name).loc
    | none => name.loc)

/-- The first loop of `Config.filterFields` (xsdgen/config.go:425-430). -/
def keepAttrs (f : Option (XAttr → Bool)) : List XAttr → List XAttr
  | [] => []
  | a :: as => match f with
    | some p => if p a then keepAttrs f as else a :: keepAttrs f as
    | none => a :: keepAttrs f as

/-- The second loop of `Config.filterFields` (xsdgen/config.go:431-436). -/
def keepElems (f : Option (XElem → Bool)) : List XElem → List XElem
  | [] => []
  | e :: es => match f with
    | some p => if p e then keepElems f es else e :: keepElems f es
    | none => e :: keepElems f es

/-- `Config.filterFields` (xsdgen/config.go:420-438). -/
def filterFields (cfg : Config) (t : ComplexT) : List XAttr × List XElem :=
  (keepAttrs cfg.filterAttributes t.attributes, keepElems cfg.filterElements t.elements)

/-! ### wsdlgen -/

/-- `Config` (wsdlgen/config.go:11-20). Of a port only the name is used. -/
structure WConfig where
  pkgName : Str := []
  pkgHeader : Str := []
  logger : Option Nat := none
  loglevel : Int := 0
  xsdgen : Config := {}
  portFilter : Option (Str → Bool) := none
  maxArgs : Int := 0
  maxReturns : Int := 0

/-- The values of type `Option` (wsdlgen/config.go:58) that occur. -/
inductive WOpt where
  | onlyPorts (ports : List Str)
  | packageName (name : Str)
  | packageComment (comment : Str)
  | logLevel (n : Int)
  | logOutput (l : Option Nat)
  | inputThreshold (n : Int)
  | outputThreshold (n : Int)
deriving DecidableEq

/-- Application of an option (wsdlgen/config.go:70-148). -/
def applyWOpt (env : Env) (o : WOpt) (cfg : WConfig) : WConfig × WOpt :=
  match o with
  | .onlyPorts ports => ({ cfg with portFilter := some fun p => decide (p ∈ ports) }, .onlyPorts [])
  | .packageName s => ({ cfg with pkgName := s }, .packageName cfg.pkgName)
  | .packageComment s => ({ cfg with pkgHeader := s }, .packageComment cfg.pkgHeader)
  | .logLevel n =>
    ({ cfg with loglevel := n, xsdgen := (applyOpt env (.logLevel n) cfg.xsdgen).1 }, .logLevel cfg.loglevel)
  | .logOutput l =>
    ({ cfg with logger := l, xsdgen := (applyOpt env (.logOutput l) cfg.xsdgen).1 }, .logOutput cfg.logger)
  | .inputThreshold n => ({ cfg with maxArgs := n }, .inputThreshold cfg.maxArgs)
  | .outputThreshold n => ({ cfg with maxReturns := n }, .outputThreshold cfg.maxReturns)

end GoXml.Xsdgen
