import Verif.Model.XmlTree
set_option autoImplicit false

/-! Model of `xsd/builtin.go`, `xsd/builtin_string.go` and `builtinSchema`. -/

namespace GoXml.Xsd

/-- xsd/xsd.go:28 -/
def schemaNS : Str := b!"http://www.w3.org/2001/XMLSchema"

/-- The namespace that `Builtin.Name` gives to the xml: attributes (xsd/builtin.go:83). -/
def xmlXsdNS : Str := b!"http://www.w3.org/2009/01/xml.xsd"

/-- `type Builtin int` (xsd/builtin.go:18). -/
abbrev Builtin := Int

/-- `_Builtin_name` (xsd/builtin_string.go:63). -/
def builtinNames : Str := b!"AnyTypeENTITIESENTITYIDIDREFIDREFSNCNameNMTOKENNMTOKENSNOTATIONNameQNameAnyURIBase64BinaryBooleanByteDateDateTimeDecimalDoubleDurationFloatGDayGMonthGMonthDayGYearGYearMonthHexBinaryIntIntegerLanguageLongNegativeIntegerNonNegativeIntegerNonPositiveIntegerNormalizedStringPositiveIntegerShortStringTimeTokenUnsignedByteUnsignedIntUnsignedLongUnsignedShortXMLLangXMLSpaceXMLBaseXMLIdAnySimpleType"

/-- `_Builtin_index` (xsd/builtin_string.go:65). -/
def builtinIndex : List Nat :=
  [0, 7, 15, 21, 23, 28, 34, 40, 47, 55, 63, 67, 72, 78, 90, 97, 101, 105, 113, 120, 126, 134, 139,
   143, 149, 158, 163, 173, 182, 185, 192, 200, 204, 219, 237, 255, 271, 286, 291, 297, 301, 306,
   318, 329, 341, 354, 361, 369, 376, 381, 394]

/-- The constants used by name in the code (xsd/builtin.go:22-73). -/
def AnyType : Builtin := 0
def ENTITIES : Builtin := 1
def ENTITY : Builtin := 2
def ID : Builtin := 3
def IDREF : Builtin := 4
def IDREFS : Builtin := 5
def NCName : Builtin := 6
def NMTOKEN : Builtin := 7
def NMTOKENS : Builtin := 8
def NOTATION : Builtin := 9
def Name : Builtin := 10
def QName : Builtin := 11
def UnsignedShort : Builtin := 44
def XMLLang : Builtin := 45
def XMLSpace : Builtin := 46
def XMLBase : Builtin := 47
def XMLId : Builtin := 48
def AnySimpleType : Builtin := 49

/-- Decimal digits of a number, least significant first; the first argument bounds their number. -/
def digitsRev : Nat → Nat → Str
  | 0, _ => []
  | f + 1, n => UInt8.ofNat (48 + n % 10) :: (if n < 10 then [] else digitsRev f (n / 10))

/-- `strconv.Itoa` for non-negative numbers. -/
def natStr (n : Nat) : Str := (digitsRev (n + 1) n).reverse

/-- `strconv.FormatInt(i, 10)`. -/
def intStr (i : Int) : Str := if i < 0 then b!"-" ++ natStr i.natAbs else natStr i.natAbs

/-- `Builtin.String` (xsd/builtin_string.go:67-72). -/
def builtinString (i : Builtin) : Str :=
  if i < 0 ∨ i ≥ (builtinIndex.length : Int) - 1 then b!"Builtin(" ++ intStr i ++ b!")"
  else slice builtinNames (builtinIndex.getD i.toNat 0) (builtinIndex.getD (i.toNat + 1) 0)

/-- `string(unicode.ToLower(r)) + name[sz:]` for a name that begins with an ASCII character. -/
def lowerFirst : Str → Str
  | [] => []
  | c :: cs => (if 65 ≤ c && c ≤ 90 then c + 32 else c) :: cs

/-- `Builtin.Name` (xsd/builtin.go:78-91). -/
def builtinName (b : Builtin) : XName :=
  let name := builtinString b
  if b ∈ [ENTITIES, ENTITY, ID, IDREF, IDREFS, NCName, NMTOKEN, NMTOKENS, NOTATION, QName, Name] then
    ⟨schemaNS, name⟩
  else if b ∈ [XMLLang, XMLSpace, XMLBase, XMLId] then ⟨xmlXsdNS, lowerFirst name⟩
  else ⟨schemaNS, lowerFirst name⟩

/-- The loop of `ParseBuiltin` (xsd/builtin.go:97-101): `n` steps from `i`. -/
def parseBuiltinLoop (q : XName) : Nat → Builtin → Option Builtin
  | 0, _ => none
  | n + 1, i => if builtinName i = q then some i else parseBuiltinLoop q n (i + 1)

/-- `ParseBuiltin` (xsd/builtin.go:96-103): `i` runs from `AnyType` to `AnySimpleType`. -/
def parseBuiltin (q : XName) : Option Builtin :=
  parseBuiltinLoop q (AnySimpleType - AnyType + 1).toNat AnyType

/-- The loop that fills `builtinSchema.Types` (xsd/standard-schema.go:1418-1423), as the list of
its map entries: `n` steps from `i`. -/
def builtinSchemaLoop : Nat → Builtin → List (XName × Builtin)
  | 0, _ => []
  | n + 1, i => (builtinName i, i) :: builtinSchemaLoop n (i + 1)

/-- `builtinSchema.Types`: `i` runs from `AnyType` up to but not including `UnsignedShort`. -/
def builtinSchemaTypes : List (XName × Builtin) :=
  builtinSchemaLoop (UnsignedShort - AnyType).toNat AnyType

end GoXml.Xsd
