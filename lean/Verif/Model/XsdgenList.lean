import Verif.Model.XsdgenSpec
set_option autoImplicit false

/-! Model of the methods that xsdgen generates for list types (xsdgen/xsdgen.go:961-1121). White space is
ASCII. A Go `int` and `uint` has 64 bits. The methods for lists of `QName`, of times and of `UnsignedLong` are
not modelled: they do not compile (`[]byte(v)` of an `xml.Name`; `return result, err` with a `[][]byte`;
`strconv.FormatUInt` does not exist). -/

namespace GoXml.Xsdgen
open Xsd

/-- `MarshalText` for all kinds but bytes: `bytes.Join` of the items' texts with a blank
(xsdgen/xsdgen.go:963-969, 995-1001, 1013-1020, 1032-1038 and 1050-1056). -/
def listMarshal {α : Type} (fmt : α → Str) (x : List α) : Str := joinStr b!" " (x.map fmt)

/-- `UnmarshalText`: the loop over the words, which appends to what is there (xsdgen/xsdgen.go:970-975,
1002-1011, 1021-1030, 1039-1048 and 1057-1066); `none` is an error. -/
def listAppend {α : Type} (parse : Str → Option α) : List α → List Str → Option (List α)
  | x, [] => some x
  | x, v :: vs => match parse v with
    | some a => listAppend parse (x ++ [a]) vs
    | none => none

def listUnmarshal {α : Type} (parse : Str → Option α) (x : List α) (text : Str) : Option (List α) :=
  listAppend parse x (fields text)

/-- `strconv.ParseUint(v, 10, 32)`. -/
def parseUint32 (s : Str) : Option Nat :=
  if s = [] then none
  else match digitsVal 0 s with
    | some n => if n < 2 ^ 32 then some n else none
    | none => none

/-- `FormatFloat(v, 'g', -1, 64)` and `ParseFloat(v, 64)`. -/
structure FloatCodec where
  Float : Type
  format : Float → Str
  parse : Str → Option Float

/-- The methods for lists of bytes (xsdgen/xsdgen.go:1077-1083). -/
def bytesMarshal (x : Str) : Str := x
def bytesUnmarshal (_ : Str) (text : Str) : Option Str := some text

end GoXml.Xsdgen
