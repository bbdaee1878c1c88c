import Verif.Basic
set_option autoImplicit false

/-! Specification vocabulary: Go keywords, UTF-8, and what Go string literals denote (from the Go
language specification). -/

namespace GoXml.Gen

/-- The keywords of Go. -/
def goKeywords : List Str :=
  [b!"break", b!"case", b!"chan", b!"const", b!"continue", b!"default", b!"defer", b!"else",
   b!"fallthrough", b!"for", b!"func", b!"go", b!"goto", b!"if", b!"import", b!"interface", b!"map",
   b!"package", b!"range", b!"return", b!"select", b!"struct", b!"switch", b!"type", b!"var"]

/-- Unicode scalar values. -/
def Scalar (r : Nat) : Prop := r < 0xD800 ∨ (0xE000 ≤ r ∧ r < 0x110000)

/-- The UTF-8 encoding of a code point. -/
def enc (r : Nat) : Str :=
  if r < 0x80 then [UInt8.ofNat r]
  else if r < 0x800 then [UInt8.ofNat (0xC0 + r / 64), UInt8.ofNat (0x80 + r % 64)]
  else if r < 0x10000 then
    [UInt8.ofNat (0xE0 + r / 4096), UInt8.ofNat (0x80 + r / 64 % 64), UInt8.ofNat (0x80 + r % 64)]
  else
    [UInt8.ofNat (0xF0 + r / 262144), UInt8.ofNat (0x80 + r / 4096 % 64), UInt8.ofNat (0x80 + r / 64 % 64),
     UInt8.ofNat (0x80 + r % 64)]

/-- The value of a hexadecimal digit. -/
def HexVal (c : UInt8) (v : Nat) : Prop :=
  (48 ≤ c.toNat ∧ c.toNat ≤ 57 ∧ v = c.toNat - 48) ∨ (97 ≤ c.toNat ∧ c.toNat ≤ 102 ∧ v = c.toNat - 87) ∨
  (65 ≤ c.toNat ∧ c.toNat ≤ 70 ∧ v = c.toNat - 55)

/-- The value of a sequence of hexadecimal digits. -/
inductive HexNum : Str → Nat → Prop
  | nil : HexNum [] 0
  | snoc (ds : Str) (n : Nat) (c : UInt8) (v : Nat) : HexNum ds n → HexVal c v → HexNum (ds ++ [c]) (16 * n + v)

/-- A code point that may stand in source text. -/
def SourceChar (r : Nat) : Prop := Scalar r ∧ r ≠ 0 ∧ r ≠ 0xFEFF

/-- The byte denoted by a single-character escape. -/
def simpleEscapes : List (UInt8 × UInt8) :=
  [(97, 7), (98, 8), (102, 12), (110, 10), (114, 13), (116, 9), (118, 11), (92, 92), (34, 34)]

/-- The text between the quotes of an interpreted string literal, and the string it denotes. -/
inductive Interp : Str → Str → Prop
  | nil : Interp [] []
  | char (r : Nat) (t v : Str) : SourceChar r → r ≠ 10 → r ≠ 34 → r ≠ 92 → Interp t v →
      Interp (enc r ++ t) (enc r ++ v)
  | simple (c b : UInt8) (t v : Str) : (c, b) ∈ simpleEscapes → Interp t v → Interp (92 :: c :: t) (b :: v)
  | byte (ds : Str) (n : Nat) (t v : Str) : ds.length = 2 → HexNum ds n → Interp t v →
      Interp (b!"\\x" ++ ds ++ t) (UInt8.ofNat n :: v)
  | littleU (ds : Str) (r : Nat) (t v : Str) : ds.length = 4 → HexNum ds r → Scalar r → Interp t v →
      Interp (b!"\\u" ++ ds ++ t) (enc r ++ v)
  | bigU (ds : Str) (r : Nat) (t v : Str) : ds.length = 8 → HexNum ds r → Scalar r → Interp t v →
      Interp (b!"\\U" ++ ds ++ t) (enc r ++ v)

/-- String literals and what they denote. In raw literals carriage returns are discarded. -/
inductive GoLiteral : Str → Str → Prop
  | interp (t v : Str) : Interp t v → GoLiteral (b!"\"" ++ t ++ b!"\"") v
  | raw (rs : List Nat) : (∀ r ∈ rs, SourceChar r ∧ r ≠ 96) →
      GoLiteral (b!"`" ++ rs.flatMap enc ++ b!"`") ((rs.filter (· ≠ 13)).flatMap enc)

/-- `s` with white space removed at both ends is `t`. -/
def TrimmedTo (s t : Str) : Prop :=
  ∃ a b, s = a ++ t ++ b ∧ (∀ c ∈ a, isSpace c = true) ∧ (∀ c ∈ b, isSpace c = true) ∧
    (∀ c, t.head? = some c → isSpace c = false) ∧ (∀ c, t.getLast? = some c → isSpace c = false)

/-- The text before the first `->` is `a`, the text after it is `b`. -/
def FirstArrow (s a b : Str) : Prop :=
  s = a ++ b!"->" ++ b ∧ ∀ a' b', s = a' ++ b!"->" ++ b' → a.length ≤ a'.length

end GoXml.Gen
