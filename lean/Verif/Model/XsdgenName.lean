import Verif.Model.XsdgenSpec
set_option autoImplicit false

/-! Model of the questions that can be asked about generated code: `Code.NameOf` and `Code.DocType`
(xsdgen/xsdgen.go:82-132). `NameOf` changes the types (through `flatten1` and `genTypeSpec`) and the map of
names, so it takes and returns both. `c.cfg` is the configuration that `gen` leaves. -/

namespace GoXml.Xsdgen
open Xsd

/-- `Code.DocType` (xsdgen/xsdgen.go:84-88): a failed assertion gives nil and false. -/
def docType (H : THeap) (code : Code) (targetNS : Str) : Option ComplexT :=
  match code.types.get ⟨targetNS, b!"_self"⟩ with
  | some (.obj id) => match H[id]? with
    | some (.complex c) => some c
    | _ => none
  | _ => none

/-- What `genTypeSpec` has done to the types when it fails: after the text of a complex type, `genComplexType`
merges the attributes of the base (xsdgen/xsdgen.go:601-674). -/
def specHeap (env : Env) (cfg : Config) (n : Nat) (H : THeap) : Ty → THeap
  | .obj id => match H[id]? with
    | some (.complex c) => match charData env cfg n H c with
      | .ok _ => H.set id (.complex (takeOver H c))
      | _ => H
    | _ => H
  | _ => H

/-- `Code.NameOf` (xsdgen/xsdgen.go:92-132), where the first number bounds the depth of the recursive calls
and `n` the steps of each loop over bases. `gen.ToString` fails for a nil expression. -/
def nameOf (env : Env) (cfg : Config) (n : Nat) : Nat → THeap → Code → XName → Run (THeap × Code × Str)
  | 0, _, _, _ => .running
  | k + 1, H, code, name => match code.names.get name with
    | some id => .ok (H, code, id)
    | none => match parseBuiltin name with
      | some b => (builtinExpr b).bind fun e => match e with
        | none => .ok (H, code, b!"ERROR" ++ name.loc)
        | some e => .ok (H, { code with names := code.names.set name (exprText e) }, exprText e)
      | none => match code.types.get name with
        | none => .ok (H, code, b!"NOTFOUND" ++ name.loc)
        | some t => (flatten1 cfg n 1001 H (some t)).bind fun r => match r.2.2 with
          | some (.builtin b) => nameOf env cfg n k r.1 code (builtinName b)
          | _ => match genTypeSpec env cfg n r.1 t with
            | .error => .ok (specHeap env cfg n r.1 t, code, b!"ERROR" ++ name.loc)
            | .ok s =>
              let names := nameAll s.1 s.2 code.names
              .ok (s.1, { code with names := names }, (names.get name).getD (b!"NOTFOUND" ++ name.loc))
            | .panic => .panic
            | .running => .running

end GoXml.Xsdgen
