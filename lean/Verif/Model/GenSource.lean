import Verif.Model.Gen
import Verif.Model.Wsdl
set_option autoImplicit false

/-! Model of the functions of `internal/gen/gen.go` that build declarations and source files, of the `String` methods
of `internal/commandline/cli.go`, and of those of `wsdl/wsdl.go`.

Parsing and printing of Go source (`go/parser`, `go/format`, `golang.org/x/tools/imports`) are parameters. -/

namespace GoXml.Gen

/-! ### Functions -/

/-- `strings.SplitN(s, " ", 2)`, if it yields two parts. -/
def cutSpace : Str → Option (Str × Str)
  | [] => none
  | c :: cs =>
    if c = 32 then some ([], cs)
    else match cutSpace cs with
      | none => none
      | some (x, y) => some (c :: x, y)

/-- `ast.Field` as `FieldList` makes it: at most one name. -/
structure Param (E : Type) where
  name : Option Str
  type : E
deriving DecidableEq

/-- One turn of the loop of `FieldList` (internal/gen/gen.go:101-115). -/
def fieldOf {E : Type} (parseExpr : Str → Option E) (s : Str) : Option (Param E) :=
  match cutSpace s with
  | none => (parseExpr s).map fun e => ⟨none, e⟩
  | some (n, t) => (parseExpr t).map fun e => ⟨some n, e⟩

/-- `FieldList` (internal/gen/gen.go:99-116); `none` is an error. `parseExpr` is `parser.ParseExpr`. -/
def fieldList {E : Type} (parseExpr : Str → Option E) : List Str → Option (List (Param E))
  | [] => some []
  | s :: rest =>
    match fieldOf parseExpr s with
    | none => none
    | some p => (fieldList parseExpr rest).map (p :: ·)

/-- `Function` (internal/gen/gen.go:228-233). `failed` is that `err` is set, which `BodyTmpl` does if the template
cannot be expanded (internal/gen/gen.go:315-326); `body` is what `Body` and `BodyTmpl` make of their arguments. -/
structure Function where
  name : Str
  receiver : Str := []
  godoc : Str := []
  args : List Str := []
  returns : List Str := []
  failed : Bool := false
  body : Str := []

/-- `ast.FuncDecl` as `Decl` makes it; `none` is a nil field list. -/
structure Declared (E B : Type) where
  doc : List Str
  recv : Option (List (Param E))
  name : Str
  params : Option (List (Param E))
  results : Option (List (Param E))
  body : B
deriving DecidableEq

/-- The errors of `Decl` (internal/gen/gen.go:250-283). -/
inductive DeclError where
  | template | nameUnset | bodyUnset | field | block
deriving DecidableEq

/-- The closure `fl` of `Decl` (internal/gen/gen.go:265-271), if no error has occurred: `none` is an error. -/
def flOf {E : Type} (parseExpr : Str → Option E) (args : List Str) : Option (Option (List (Param E))) :=
  match args with
  | [] => some none
  | a :: rest => if a = [] then some none else (fieldList parseExpr (a :: rest)).map some

/-- `Function.Decl` (internal/gen/gen.go:246-295). `parseBlock` is the function of that name
(internal/gen/gen.go:394-408). -/
def decl {E B : Type} (parseExpr : Str → Option E) (parseBlock : Str → Option B) (fn : Function) :
    Except DeclError (Declared E B) :=
  if fn.failed then .error .template
  else if fn.name = [] then .error .nameUnset
  else if fn.body = [] then .error .bodyUnset
  else match flOf parseExpr fn.args with
    | none => .error .field
    | some args =>
      match flOf parseExpr fn.returns with
      | none => .error .field
      | some returns =>
        match flOf parseExpr [fn.receiver] with
        | none => .error .field
        | some receiver =>
          match parseBlock fn.body with
          | none => .error .block
          | some body => .ok ⟨funcComments fn.godoc, receiver, fn.name, args, returns, body⟩

/-! ### Constants -/

/-- An `ast.ValueSpec` of `constDecl`: one name, a type if one is given, and the text of the literal. -/
structure ConstSpec where
  name : Str
  type : Option Str
  value : Str
deriving DecidableEq

/-- The loop of `constDecl` (internal/gen/gen.go:143-159); `none` is a panic, which comes before the loop
(internal/gen/gen.go:140-142). `quoted` is `kind == token.STRING`. -/
def constSpecs (isPrint : Nat → Bool) (quoted : Bool) : List Str → Option (List ConstSpec)
  | [] => some []
  | name :: typ :: val :: rest =>
    (constSpecs isPrint quoted rest).map
      (⟨name, if typ = [] then none else some typ, if quoted then quote isPrint val else val⟩ :: ·)
  | _ => none

/-! ### Source files -/

/-- What is behind the last slash. -/
def afterSlash : Str → Str
  | [] => []
  | c :: cs => if (47 : UInt8) ∈ cs then afterSlash cs else if c = 47 then cs else c :: cs

/-- `filepath.Base` with the separator `/`. -/
def base (path : Str) : Str :=
  if path = [] then b!"."
  else
    let stripped := (path.reverse.dropWhile fun c => decide (c = 47)).reverse
    if stripped = [] then b!"/" else afterSlash stripped

/-- `strings.TrimSuffix(s, ".exe")`. -/
def trimExe (s : Str) : Str := if s.drop (s.length - 4) = b!".exe" then s.take (s.length - 4) else s

/-- The generated file: the package comment (`file.Doc`), and everything else. -/
structure Source (F : Type) where
  doc : Option (List Str)
  rest : F

/-- `PackageDoc` (internal/gen/gen.go:206-212). -/
def packageDoc {F : Type} (file : Source F) (comments : List Str) : Source F :=
  if comments = [] then file else { file with doc := some (commentGroup comments) }

/-- The comment `generatedByComment` (internal/gen/gen.go:433-434), with the empty line after it. -/
def generatedBy (arg0 : Str) : Str :=
  b!"// Code generated by " ++ trimExe (base arg0) ++ b!". DO NOT EDIT.\n\n"

/-- The comments in front of the package clause (internal/gen/gen.go:446-449). -/
def docText : List Str → Str
  | [] => []
  | v :: rest => v ++ b!"\n" ++ docText rest

/-- `FormattedSource` (internal/gen/gen.go:429-461): the source, or `none` for an error, and the file afterwards.
`arg0` is `os.Args[0]`, `node` is `format.Node` of a file without comment, `process` is `imports.Process`. -/
def formattedSource {F : Type} (node : F → Option Str) (process : Str → Str → Option Str) (arg0 : Str)
    (file : Source F) (output : Str) : Option Str × Source F :=
  let head := generatedBy arg0 ++ docText (file.doc.getD [])
  let file' : Source F := { file with doc := none }
  match node file.rest with
  | none => (none, file')
  | some text => (process output (head ++ text), file')

/-! ### The flags -/

/-- `ReplaceRuleList.String` (internal/commandline/cli.go:24-30). `source` is `Regexp.String`. -/
def rulesString {R : Type} (source : R → Str) : List (R × Str) → Str
  | [] => []
  | r :: rest => source r.1 ++ b!" -> " ++ r.2 ++ b!"\n" ++ rulesString source rest

/-- `strings.Join`. -/
def joinWith (sep : Str) : List Str → Str
  | [] => []
  | [s] => s
  | s :: s' :: rest => s ++ sep ++ joinWith sep (s' :: rest)

/-- `Strings.String` (internal/commandline/cli.go:53-55). -/
def stringsString (s : List Str) : Str := joinWith b!"," s

end GoXml.Gen

namespace GoXml.Wsdl

/-- `Message.String` (wsdl/wsdl.go:56-62). -/
def messageString (m : Message) : Str := Gen.joinWith b!", " (m.parts.map fun p => p.type.loc)

/-- The text of one operation (wsdl/wsdl.go:40-43). A message that is not in the map is an empty one. -/
def operationString (def_ : Definition) (op : Operation) : Str :=
  b!"\t" ++ op.name.loc ++ b!"(" ++ messageString ((def_.message.get op.input).getD ⟨⟨[], []⟩, []⟩) ++ b!") -> " ++
    messageString ((def_.message.get op.output).getD ⟨⟨[], []⟩, []⟩) ++ b!"\n"

/-- The text of one port (wsdl/wsdl.go:38-44). -/
def portString (def_ : Definition) (port : Port) : Str :=
  b!"Port " ++ port.name ++ b!" " ++ port.address ++ b!"\n" ++ (port.operations.map (operationString def_)).flatten

/-- `Definition.String` (wsdl/wsdl.go:34-47). `fmt.Fprintln` puts a space between its arguments. -/
def definitionString (def_ : Definition) : Str :=
  b!"Namespace:  " ++ def_.targetNS ++ b!"\n" ++ (def_.ports.map (portString def_)).flatten

end GoXml.Wsdl
