/-!
Common vocabulary of the model: Go strings are byte strings.
-/

namespace GoXml

/-- A Go `string` or `[]byte` value: a sequence of bytes. -/
abbrev Str := List UInt8

open Lean in
/-- `b!"text"` is the byte string of the UTF-8 encoding of the literal, as an explicit list. -/
macro:max "b!" s:str : term => do
  let bytes := s.getString.toUTF8.toList
  let mut acc : TSyntax `term ← `(([] : List UInt8))
  for b in bytes.reverse do
    acc ← `(List.cons ($(Syntax.mkNumLit (toString b.toNat)) : UInt8) $acc)
  return acc

/-- Go's `<` on strings: bytewise lexicographic order. -/
def strLt : Str → Str → Bool
  | [], [] => false
  | [], _ :: _ => true
  | _ :: _, [] => false
  | a :: as, b :: bs => if a < b then true else if a = b then strLt as bs else false

/-- `strings.SplitN(s, sep, 2)` for a one-byte separator: the part before the first `c` and the
part after it, or `none` if `c` does not occur. -/
def cut (c : UInt8) : Str → Option (Str × Str)
  | [] => none
  | x :: xs => if x = c then some ([], xs) else
    match cut c xs with
    | none => none
    | some (a, r) => some (x :: a, r)

/-- ASCII space as `unicode.IsSpace` sees it on bytes below 0x80: `\t \n \v \f \r` and space.
(The two Latin-1 and the other multi-byte Unicode spaces are left out of the model.) -/
def isSpace (c : UInt8) : Bool :=
  c == 9 || c == 10 || c == 11 || c == 12 || c == 13 || c == 32

/-- `strings.TrimLeft(s, spaces)`. -/
def trimLeft : Str → Str
  | [] => []
  | c :: cs => if isSpace c then trimLeft cs else c :: cs

/-- `strings.TrimSpace` / `bytes.TrimSpace` (ASCII spaces). -/
def trimSpace (s : Str) : Str := (trimLeft (trimLeft s).reverse).reverse

end GoXml
