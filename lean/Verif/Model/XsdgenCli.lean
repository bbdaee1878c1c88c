import Verif.Model.XsdgenSpec
import Verif.Model.XsdTree
set_option autoImplicit false

/-! Model of `xsdgen/cli.go` and of `lookupTargetNS` (xsdgen/xsdgen.go:42-61). A document is what
`xmltree.Parse` makes of it, `none` if it returns an error. Simplification: `xsd.Parse` is a parameter where
it is called (it is modelled in `Model/XsdParse.lean` for normalized schemas), and error messages are
reduced to what they name. -/

namespace GoXml.Xsdgen
open Xsd

abbrev Doc := Option Element

/-- `lookupTargetNS` (xsdgen/xsdgen.go:42-61). -/
def lookupTargetNS : List Doc → List Str
  | [] => []
  | none :: docs => lookupTargetNS docs
  | some tree :: docs =>
    let outer := Element.mk ⟨[], []⟩ [] [] [] [tree]
    (((outer.search schemaNS b!"schema").map fun el => el.2.attr [] b!"targetNamespace").filter fun ns => decide (ns ≠ [])) ++
      lookupTargetNS docs

/-- The schemas of the namespaces, or the namespaces in the error message (xsdgen/cli.go:28-49). -/
def selectSchemas (namespaces : List Str) (deps : List Schema) : Except (List Str) (List Schema) :=
  let primaries := deps.filter fun s => namespaces.any fun ns => decide (s.targetNS = ns)
  if primaries.length < namespaces.length then
    .error (namespaces.filter fun ns => decide (ns ∉ primaries.map (·.targetNS)))
  else .ok primaries

/-- How `GenCode` ends. -/
inductive CodeResult where
  | parseFailed
  | missing (ns : List Str)
  | done (r : Run (THeap × Code))

/-- `GenCode` (xsdgen/cli.go:19-52), with the configuration after the call. -/
def genCode (env : Env) (srt : Sorter strLt) (n : Nat) (parse : List Doc → Outcome (List Schema × THeap)) (cfg : Config) (docs : List Doc) :
    Config × CodeResult :=
  let cfg := if cfg.namespaces = [] then { cfg with namespaces := lookupTargetNS docs } else cfg
  match parse docs with
  | .error => (cfg, .parseFailed)
  | .panic => (cfg, .done .panic)
  | .ok (deps, H) => match selectSchemas cfg.namespaces deps with
    | .error ns => (cfg, .missing ns)
    | .ok primaries =>
      let cfg := addStandardHelpers cfg
      match gen env srt cfg n primaries deps H with
      | .ok r => (r.2.2, .done (.ok (r.1, r.2.1)))
      | .error => (cfg, .done .error)
      | .panic => (cfg, .done .panic)
      | .running => (cfg, .done .running)

/-- The loop of `readFiles` (xsdgen/cli.go:67-92); `recur` is the recursive call. A file that cannot be read
is `none`. -/
def readLoop (files : Str → Option Doc) (follow : Bool) (recur : List Str → Run (List Doc)) : List Str → Run (List Doc)
  | [] => .ok []
  | name :: names => match files name with
    | none => .error
    | some doc =>
      if follow then
        match doc with
        | none => .error
        | some root => (recur ((imports root).map (·.location))).bind fun deps =>
          (readLoop files follow recur names).bind fun rest => .ok (deps ++ doc :: rest)
      else (readLoop files follow recur names).bind fun rest => .ok (doc :: rest)

/-- `readFiles` (xsdgen/cli.go:65-94) with calls nested at most `n` deep. -/
def readFiles (files : Str → Option Doc) (follow : Bool) : Nat → List Str → Run (List Doc)
  | 0 => fun _ => .running
  | n + 1 => readLoop files follow (readFiles files follow n)

/-- `Config.GenAST` (xsdgen/cli.go:56-63): the error of `readFiles` is overwritten, and the slice is then
nil. -/
def genASTFiles (env : Env) (srt : Sorter strLt) (n : Nat) (parse : List Doc → Outcome (List Schema × THeap)) (files : Str → Option Doc)
    (cfg : Config) (names : List Str) : Run (Str × List GoDecl) :=
  let run := fun docs => match (genCode env srt n parse cfg docs).2 with
    | .parseFailed => .error
    | .missing _ => .error
    | .done r => r.bind fun c => .ok (genAST srt c.2)
  match readFiles files cfg.followImports n names with
  | .ok docs => run docs
  | .error => run []
  | .panic => .panic
  | .running => .running

end GoXml.Xsdgen
