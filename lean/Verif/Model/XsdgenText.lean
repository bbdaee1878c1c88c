import Verif.Model.XsdgenSpec
set_option autoImplicit false

/-! Model of the methods of the helper types for binary data and times (xsdgen/config.go:594-733), and of
the text that `genComplexTypeMethods` makes of a default value (xsdgen/xsdgen.go:824-829). -/

namespace GoXml.Xsdgen

/-! ### hexBinary -/

def hexDigit (n : Nat) : UInt8 := if n < 10 then UInt8.ofNat (48 + n) else UInt8.ofNat (87 + n)

/-- `MarshalText` of `xsdHexBinary` (xsdgen/config.go:702-709): `hex.Encode`. -/
def hexEncode : Str → Str
  | [] => []
  | b :: bs => hexDigit (b.toNat / 16) :: hexDigit (b.toNat % 16) :: hexEncode bs

def fromHex (c : UInt8) : Option Nat :=
  if 48 ≤ c ∧ c ≤ 57 then some (c.toNat - 48)
  else if 97 ≤ c ∧ c ≤ 102 then some (c.toNat - 87)
  else if 65 ≤ c ∧ c ≤ 70 then some (c.toNat - 55)
  else none

/-- `UnmarshalText` of `xsdHexBinary` (xsdgen/config.go:694-701): `hex.DecodeString`. -/
def hexDecode : Str → Option Str
  | [] => some []
  | [_] => none
  | a :: b :: cs => match fromHex a, fromHex b, hexDecode cs with
    | some x, some y, some r => some (UInt8.ofNat (16 * x + y) :: r)
    | _, _, _ => none

/-! ### base64Binary -/

/-- The digit for a number below 64 of `base64.StdEncoding`. -/
def digit64 (n : Nat) : UInt8 :=
  if n < 26 then UInt8.ofNat (65 + n) else if n < 52 then UInt8.ofNat (71 + n) else if n < 62 then UInt8.ofNat (n - 4)
  else if n = 62 then 43 else 47

/-- `MarshalText` of `xsdBase64Binary` (xsdgen/config.go:722-730): the bytes written to a `base64.NewEncoder` that is then
closed. -/
def encode64 : Str → Str
  | [] => []
  | [a] => [digit64 (a.toNat / 4), digit64 (a.toNat % 4 * 16), 61, 61]
  | [a, b] => [digit64 (a.toNat / 4), digit64 (a.toNat % 4 * 16 + b.toNat / 16), digit64 (b.toNat % 16 * 4), 61]
  | a :: b :: c :: rest =>
    digit64 (a.toNat / 4) :: digit64 (a.toNat % 4 * 16 + b.toNat / 16) :: digit64 (b.toNat % 16 * 4 + c.toNat / 64) ::
      digit64 (c.toNat % 64) :: encode64 rest

def from64 (c : UInt8) : Option Nat :=
  if 65 ≤ c ∧ c ≤ 90 then some (c.toNat - 65)
  else if 97 ≤ c ∧ c ≤ 122 then some (c.toNat - 71)
  else if 48 ≤ c ∧ c ≤ 57 then some (c.toNat + 4)
  else if c = 43 then some 62
  else if c = 47 then some 63
  else none

/-- The bytes of four digits. -/
def bytes64 (x y z w : Nat) : Str :=
  [UInt8.ofNat (x * 4 + y / 16), UInt8.ofNat (y % 16 * 16 + z / 4), UInt8.ofNat (z % 4 * 64 + w)]

/-- Decoding after line breaks have been removed. -/
def decodeQuads : Str → Option Str
  | [] => some []
  | a :: b :: c :: d :: rest => match from64 a, from64 b, from64 c, from64 d with
    | some x, some y, some z, some w => (decodeQuads rest).map (bytes64 x y z w ++ ·)
    | some x, some y, some z, none => if d = 61 ∧ rest = [] then some ((bytes64 x y z 0).take 2) else none
    | some x, some y, none, none => if c = 61 ∧ d = 61 ∧ rest = [] then some ((bytes64 x y 0 0).take 1) else none
    | _, _, _, _ => none
  | _ => none

/-- `UnmarshalText` of `xsdBase64Binary` (xsdgen/config.go:714-721): `base64.StdEncoding.DecodeString`, which skips line
breaks. -/
def decode64 (s : Str) : Option Str := decodeQuads (s.filter fun c => decide (c ≠ 10 ∧ c ≠ 13))

/-! ### Times -/

/-- `_unmarshalTime` (xsdgen/config.go:597-607); `parse` is `time.Parse`. Simplification: every error of `time.Parse`
is a `*time.ParseError`, as its documentation says. -/
def unmarshalTime {T : Type} (parse : Str → Str → Option T) (format text : Str) : Option T :=
  match parse format (trimSpace text) with
  | some t => some t
  | none => parse (format ++ b!"Z07:00") (trimSpace text)

/-- `_marshalTime` (xsdgen/config.go:608-613); `fmt` is `Time.Format`. -/
def marshalTime {T : Type} (fmt : Str → T → Str) (format : Str) (t : T) : Str := fmt (format ++ b!"Z07:00") t

/-! ### Defaults -/

/-- The text for an override with a default value (xsdgen/xsdgen.go:826-829). -/
def defaultComment (o : Override) : Str :=
  if o.dflt = [] then [] else b!"// overlay." ++ o.fieldName ++ b!" = " ++ o.dflt ++ b!"\n"

end GoXml.Xsdgen
