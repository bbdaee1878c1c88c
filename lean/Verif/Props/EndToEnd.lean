import Verif.Props.XsdHeapRef
import Verif.Props.XsdSchema
import Verif.Props.XmlSource
import Verif.Props.XsdgenSpec
import Verif.Model.XsdPipeline
import Verif.Model.XsdAnnotation
import Verif.Model.XsdgenCli
import Verif.Model.XsdgenSoap
set_option autoImplicit false

/-! The model run from the bytes of schema documents to types and to the declarations of the generated file, with simple
stand-ins for the parts of the Go libraries that are parameters. It is used to compare the model with the
results that the tests and examples of the repository expect (`Props/RepoTests.lean`), and for witnesses.
Simplification: the bundled schemas (`StandardSchema`) are left out unless they are given. -/

namespace GoXml.Xsdgen
open Xsd

/-- All patterns compile, numbers consist of digits and dates are told by their length. -/
def testEnv : ParseEnv where
  annotation el := parseAnnotation asciiTables el
  compileError _ := none
  isFloat s := s.all fun c => 48 ≤ c && c ≤ 57
  isDate s := s.length = 10
  isDateTime s := decide (10 < s.length)

/-- `xmltree.Parse` of all documents. -/
def parseDocs : List Str → Option (List Element)
  | [] => some []
  | d :: ds => match GoXml.parse asciiTables nsSorter d, parseDocs ds with
    | .ok t, some ts => some (t :: ts)
    | _, _ => none

/-- `xsd.Parse` (xsd/parse.go:135-176) of documents. -/
def readSchemas (docs : List Str) : Option (List Schema × THeap) :=
  (parseDocs docs).bind fun ts => match Xsd.parse doubling 40 testEnv inOrder ts with
    | .ok r => some r
    | _ => none

/-- The option `Replace` for the patterns in use: `[._ \s-]`, the default, `ArrayOf(.*)` and `Type$`. -/
def testRegexp (pat : Str) : Option Regexp :=
  if pat = b!"[._ \\s-]" then some ⟨fun s _ => s.filter fun c => decide (c ∉ ([46, 95, 32, 9, 10, 45] : Str)), fun _ => true⟩
  else if pat = b!"ArrayOf(.*)" then
    some ⟨fun s _ => if s.take 7 = b!"ArrayOf" then s.drop 7 ++ b!"Array" else s, fun _ => true⟩
  else if pat = b!"Type$" then
    some ⟨fun s t => if s.drop (s.length - 4) = b!"Type" then s.take (s.length - 4) ++ t else s, fun _ => true⟩
  else none

/-- The parameters of xsdgen. Postprocessing gets the memory `H`. -/
def genEnv (H : THeap) : Env where
  compile := testRegexp
  title := asciiEnv.title
  soapArray s t H := match parseSOAPArrayType 20 s t H with
    | .ok r => r
    | _ => (t, H)
  arraySlice s := match soapArrayToSlice H s with
    | .ok r => r.1
    | _ => s

/-- `Config.GenSource` (xsdgen/cli.go) for one document with the given options, up to the printing of declarations: the
name of the package and the declarations. Other documents are only imported. -/
def generated (opts : List Opt) (doc : Str) (imported : List Str := []) : Option (Str × List GoDecl) :=
  let run := fun (H : THeap) =>
    match GoXml.parse asciiTables nsSorter doc with
    | .error _ => none
    | .ok t => match genCode (genEnv H) (Sorter.byKey fun s => s) 40
        (fun _ => match readSchemas (doc :: imported) with
          | some r => .ok r
          | none => .error)
        (applyOpts (genEnv H) opts none {}).1 [some t] with
      | (_, .done (.ok r)) => some r
      | _ => none
  -- the second run postprocesses with the memory of the first
  (run []).bind fun r => (run r.1).map fun q => genAST (Sorter.byKey fun s => s) q.2

end GoXml.Xsdgen
