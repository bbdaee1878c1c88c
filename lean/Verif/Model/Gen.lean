import Verif.Basic
set_option autoImplicit false

/-! Model of the string functions of `internal/gen/gen.go` and of `internal/commandline/cli.go`. -/

namespace GoXml.Gen

/-! ### Sanitize -/

/-- The cases of the switch in `Sanitize` (internal/gen/gen.go:51-55). -/
def sanitizeCases : List Str :=
  [b!"break", b!"default", b!"func", b!"interface", b!"select",
   b!"case", b!"defer", b!"go", b!"map", b!"struct",
   b!"chan", b!"else", b!"goto", b!"package", b!"switch",
   b!"const", b!"fallthrough", b!"if", b!"range", b!"type",
   b!"continue", b!"for", b!"import", b!"return", b!"var"]

/-- `Sanitize` (internal/gen/gen.go:49-59). -/
def sanitize (name : Str) : Str := if name ∈ sanitizeCases then name ++ b!"_" else name

/-! ### String literals -/

/-- The bounds on the second byte (table `acceptRanges` of package utf8). -/
def secondLo (b0 : Nat) : Nat := if b0 = 0xE0 then 0xA0 else if b0 = 0xF0 then 0x90 else 0x80
def secondHi (b0 : Nat) : Nat := if b0 = 0xED then 0xA0 else if b0 = 0xF4 then 0x90 else 0xC0

/-- `utf8.DecodeRuneInString` on a non-empty string: the rune and its width, or `none` for an
invalid sequence, which has width 1. -/
def decodeRune : Str → Option (Nat × Nat)
  | [] => none
  | b0 :: rest =>
    if b0.toNat < 0x80 then some (b0.toNat, 1)
    else if b0.toNat < 0xC2 then none
    else if b0.toNat < 0xE0 then
      match rest with
      | b1 :: _ =>
        if 0x80 ≤ b1.toNat ∧ b1.toNat < 0xC0 then some ((b0.toNat - 0xC0) * 64 + (b1.toNat - 0x80), 2) else none
      | _ => none
    else if b0.toNat < 0xF0 then
      match rest with
      | b1 :: b2 :: _ =>
        if secondLo b0.toNat ≤ b1.toNat ∧ b1.toNat < secondHi b0.toNat ∧ 0x80 ≤ b2.toNat ∧ b2.toNat < 0xC0 then
          some ((b0.toNat - 0xE0) * 4096 + (b1.toNat - 0x80) * 64 + (b2.toNat - 0x80), 3)
        else none
      | _ => none
    else if b0.toNat < 0xF5 then
      match rest with
      | b1 :: b2 :: b3 :: _ =>
        if secondLo b0.toNat ≤ b1.toNat ∧ b1.toNat < secondHi b0.toNat ∧ 0x80 ≤ b2.toNat ∧ b2.toNat < 0xC0 ∧
            0x80 ≤ b3.toNat ∧ b3.toNat < 0xC0 then
          some ((b0.toNat - 0xF0) * 262144 + (b1.toNat - 0x80) * 4096 + (b2.toNat - 0x80) * 64 + (b3.toNat - 0x80), 4)
        else none
      | _ => none
    else none

/-- One of the digits `0123456789abcdef`. -/
def hexDigit (n : Nat) : UInt8 := UInt8.ofNat (if n < 10 then 48 + n else 87 + n)

/-- The `k` low hexadecimal digits of `n`. -/
def hexDigits : Nat → Nat → Str
  | 0, _ => []
  | k + 1, n => hexDigit (n / 16 ^ k % 16) :: hexDigits k n

/-- `appendEscapedRune` of package strconv for the quote `"`; `src` is the encoding of the rune as
it stands in the string. -/
def escapeRune (isPrint : Nat → Bool) (r : Nat) (src : Str) : Str :=
  if r = 34 ∨ r = 92 then 92 :: src
  else if isPrint r then src
  else if r = 7 then b!"\\a"
  else if r = 8 then b!"\\b"
  else if r = 12 then b!"\\f"
  else if r = 10 then b!"\\n"
  else if r = 13 then b!"\\r"
  else if r = 9 then b!"\\t"
  else if r = 11 then b!"\\v"
  else if r < 32 ∨ r = 127 then b!"\\x" ++ hexDigits 2 r
  else if r < 0x10000 then b!"\\u" ++ hexDigits 4 r
  else b!"\\U" ++ hexDigits 8 r

/-- The loop of `strconv.Quote`; the first argument bounds the number of rounds. `strconv.IsPrint`
is a parameter. -/
def quoteLoop (isPrint : Nat → Bool) : Nat → Str → Str
  | 0, _ => []
  | _ + 1, [] => []
  | f + 1, b :: bs =>
    match decodeRune (b :: bs) with
    | none => b!"\\x" ++ hexDigits 2 b.toNat ++ quoteLoop isPrint f bs
    | some (r, w) =>
      escapeRune isPrint r ((b :: bs).take w) ++ quoteLoop isPrint f ((b :: bs).drop w)

/-- `strconv.Quote`. -/
def quote (isPrint : Nat → Bool) (s : Str) : Str := b!"\"" ++ quoteLoop isPrint s.length s ++ b!"\""

/-- The value of the literal built by `String` (internal/gen/gen.go:119-124). -/
def genString (isPrint : Nat → Bool) (s : Str) : Str :=
  if (34 : UInt8) ∈ s ∧ (96 : UInt8) ∉ s then b!"`" ++ s ++ b!"`" else quote isPrint s

/-! ### Comments -/

/-- `strings.Split(s, "\n")`. -/
def splitLines : Str → List Str
  | [] => [[]]
  | c :: cs =>
    if c = 10 then [] :: splitLines cs
    else match splitLines cs with
      | [] => [[c]]
      | l :: ls => (c :: l) :: ls

/-- `dropCR` of `bufio.ScanLines`. -/
def dropCR (l : Str) : Str := if l.getLast? = some 13 then l.dropLast else l

/-- The tokens of a `bufio.Scanner` with `ScanLines`: lines without the newline and one trailing
carriage return; an empty last line is no token; a line longer than the buffer ends the scan. -/
def scanLoop (limit : Nat) : List Str → List Str
  | [] => []
  | [l] => if l = [] ∨ l.length > limit then [] else [dropCR l]
  | l :: l' :: ls => if l.length > limit then [] else dropCR l :: scanLoop limit (l' :: ls)

/-- The longest line that fits into the buffer of a `bufio.Scanner` (`MaxScanTokenSize - 1`). -/
def maxLine : Nat := 65535

/-- `CommentGroup` (internal/gen/gen.go:215-226): the texts of the comments. -/
def commentGroup (comments : List Str) : List Str :=
  comments.flatMap fun v => (scanLoop maxLine (splitLines v)).map fun l => b!"// " ++ trimSpace l

/-- The comments of a generated function (internal/gen/gen.go:257-264). -/
def funcComments (godoc : Str) : List Str :=
  if godoc = [] then [] else (splitLines godoc).map fun line => b!"// " ++ line ++ b!"\n"

/-! ### Command line -/

/-- `strings.SplitN(s, "->", 2)`, if it yields two parts. -/
def cutArrow : Str → Option (Str × Str)
  | [] => none
  | [_] => none
  | a :: b :: rest =>
    if a = 45 ∧ b = 62 then some ([], rest)
    else match cutArrow (b :: rest) with
      | none => none
      | some (x, y) => some (a :: x, y)

/-- `ReplaceRuleList.Set` (internal/commandline/cli.go:34-47). `compile` is `regexp.Compile`. The
list is returned also on error. -/
def replaceSet {R : Type} (compile : Str → Option R) (list : List (R × Str)) (s : Str) : List (R × Str) × Bool :=
  match cutArrow s with
  | none => (list, false)
  | some (from_, to) =>
    match compile (trimSpace from_) with
    | none => (list, false)
    | some reg => (list ++ [(reg, trimSpace to)], true)

/-- `Strings.Set` (internal/commandline/cli.go:57-60). -/
def stringsSet (s : List Str) (val : Str) : List Str := s ++ [val]

end GoXml.Gen
