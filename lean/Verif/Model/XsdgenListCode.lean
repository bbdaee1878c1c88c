import Verif.Model.XsdgenList
import Verif.Spec.GoCheck
set_option autoImplicit false

/-! The bodies of the methods that xsdgen generates for list types, as syntax trees
(xsdgen/xsdgen.go:962-1121). -/

namespace GoXml.Xsdgen
open Xsd

/-- The loops of `MarshalText` that append one text per item (xsdgen/xsdgen.go:964-970, 999-1005, 1017-1024,
1036-1042, 1054-1060 and 1073-1079). -/
def marshalCode (item : GoTerm) : GoStmt :=
  .seq (.declare b!"result" (.array goBytes))
    (.seq (.range b!"v" (.var b!"*x") (.push b!"result" item)) (.ret [.call b!"bytes.Join" (.var b!"result")] 1))

/-- The loops of `UnmarshalText` that parse one word per item (xsdgen/xsdgen.go:1006-1015, 1025-1034, 1043-1052,
1061-1070 and 1080-1089). -/
def unmarshalCode (parse : Str) (item : GoTerm) : GoStmt :=
  .seq (.range b!"v" (.call b!"strings.Fields" (.conv goString (.var b!"text")))
    (.attempt b!"i" (.call parse (.var b!"v")) [] (.push b!"*x" item))) (.ret [] 1)

/-- The bodies of both methods (xsdgen/xsdgen.go:962-1121). The one of `MarshalText` for booleans does not parse. The name
of the list type stands for the slice itself. -/
def listCode (item : GoExpr) : ListCodec → Option (GoStmt × GoStmt)
  | .strings => some (marshalCode (.conv goBytes (.var b!"v")),
      .seq (.range b!"v" (.call b!"bytes.Fields" (.var b!"text")) (.push b!"*x" (.conv goString (.var b!"v")))) (.ret [] 1))
  | .times => some (
      .seq (.declare b!"result" (.array goBytes))
        (.seq (.range b!"v" (.var b!"*x") (.attempt b!"b" (.call b!"Time.MarshalText" (.var b!"v")) [.var b!"result"]
          (.push b!"result" (.var b!"b")))) (.ret [.call b!"bytes.Join" (.var b!"result")] 0)),
      .range b!"v" (.call b!"bytes.Fields" (.var b!"text"))
        (.seq (.declare b!"t" item) (.seq (.attemptOnly (.call b!"Time.UnmarshalText" (.var b!"v"))) (.push b!"*x" (.var b!"t")))))
  | .int64s => some (marshalCode (.conv goBytes (.call b!"strconv.FormatInt" (.var b!"v"))), unmarshalCode b!"strconv.ParseInt" (.var b!"i"))
  | .floats => some (marshalCode (.conv goBytes (.call b!"strconv.FormatFloat" (.var b!"v"))), unmarshalCode b!"strconv.ParseFloat" (.var b!"i"))
  | .ints => some (marshalCode (.conv goBytes (.call b!"strconv.Itoa" (.var b!"v"))), unmarshalCode b!"strconv.Atoi" (.var b!"i"))
  | .uints => some (marshalCode (.conv goBytes (.call b!"strconv.FormatUint" (.conv (.ident b!"uint64") (.var b!"v")))),
      unmarshalCode b!"strconv.ParseUint" (.conv (.ident b!"uint") (.var b!"i")))
  | .uint64s => some (marshalCode (.conv goBytes (.call b!"strconv.FormatUInt" (.var b!"v"))), unmarshalCode b!"strconv.ParseInt" (.var b!"i"))
  | .bytes => some (.ret [.conv goBytes (.var b!"*x")] 1, .seq (.assign b!"*x" (.conv (.array item) (.var b!"text"))) (.ret [] 1))
  | .bools => none

end GoXml.Xsdgen
