import Verif.Model.XmlTree
set_option autoImplicit false

/-!
Model of the part of the standard library's `encoding/xml` tokenizer (`Decoder.Token` in strict
mode) that `xmltree.Parse` relies on. This is an environment model, written from the documented
behaviour of the library; it is part of the trusted base of the theorems that use it.

Not modelled: the contents of the XML declaration. Entities other than the five predefined ones are an
error here, as they are for a decoder without a table of entities, whatever a document type declares.
Unicode tables are parameters.
-/

namespace GoXml.Lex

/-- The Unicode tables used by the tokenizer: which byte strings are names, and which are valid
UTF-8 within the XML character range. -/
structure Unicode where
  okName : Str → Bool
  okText : Str → Bool

/-- A byte that may occur in a name: `isNameByte`, or part of a multi-byte character. -/
def isNameByte (c : UInt8) : Bool :=
  (65 ≤ c && c ≤ 90) || (97 ≤ c && c ≤ 122) || (48 ≤ c && c ≤ 57) ||
  c == 95 || c == 58 || c == 46 || c == 45 || 128 ≤ c

/-- `Decoder.readName`: the longest run of name bytes. -/
def readName : Str → Str × Str
  | [] => ([], [])
  | c :: cs => if isNameByte c then let (a, r) := readName cs; (c :: a, r) else ([], c :: cs)

/-- `Decoder.space`: skips blank, newline, return and tab. -/
def skipSpace : Str → Str
  | [] => []
  | c :: cs => if c = 32 || c = 13 || c = 10 || c = 9 then skipSpace cs else c :: cs

/-- `Decoder.nsname`: prefix (in `space`) and local part. More than one colon is an error. -/
def nsname (u : Unicode) (inp : Str) : Option (XName × Str) :=
  let (s, rest) := readName inp
  if s.isEmpty || !u.okName s then none
  else match cut 58 s with
    | none => some (⟨[], s⟩, rest)
    | some (p, l) =>
      if 58 ∈ l then none
      else if p.isEmpty || l.isEmpty then some (⟨[], s⟩, rest)
      else some (⟨p, l⟩, rest)

/-- `utf8.EncodeRune`: a number that is no character is replaced by U+FFFD. -/
def encodeRune (r : Nat) : Str :=
  if r < 128 then [UInt8.ofNat r]
  else if r < 2048 then [UInt8.ofNat (192 + r / 64), UInt8.ofNat (128 + r % 64)]
  else if (55296 ≤ r ∧ r < 57344) ∨ 1114112 ≤ r then [239, 191, 189]
  else if r < 65536 then [UInt8.ofNat (224 + r / 4096), UInt8.ofNat (128 + r / 64 % 64), UInt8.ofNat (128 + r % 64)]
  else [UInt8.ofNat (240 + r / 262144), UInt8.ofNat (128 + r / 4096 % 64), UInt8.ofNat (128 + r / 64 % 64), UInt8.ofNat (128 + r % 64)]

/-- The value of a digit of a character reference. -/
def refDigit (hex : Bool) (c : UInt8) : Option Nat :=
  if 48 ≤ c ∧ c ≤ 57 then some (c.toNat - 48)
  else if hex ∧ 97 ≤ c ∧ c ≤ 102 then some (c.toNat - 87)
  else if hex ∧ 65 ≤ c ∧ c ≤ 70 then some (c.toNat - 55)
  else none

/-- The digits of a character reference: their value, if there are any, and the rest. -/
def refDigits (hex : Bool) : Option Nat → Str → Option Nat × Str
  | acc, [] => (acc, [])
  | acc, c :: cs => match refDigit hex c with
    | some v => refDigits hex (some (acc.getD 0 * (if hex then 16 else 10) + v)) cs
    | none => (acc, c :: cs)

/-- A character reference, after `&#`. The limit of `strconv.ParseUint` is beyond `unicode.MaxRune`. -/
def charRef (inp : Str) : Option (Str × Str) :=
  match (match inp with
    | 120 :: r => refDigits true none r
    | r => refDigits false none r) with
  | (some n, 59 :: r) => if n ≤ 1114111 then some (encodeRune n, r) else none
  | _ => none

/-- Character references and the five predefined entities: the text they stand for and the rest of the input,
after `&`. -/
def entity (inp : Str) : Option (Str × Str) :=
  match inp with
  | 35 :: r => charRef r
  | 108 :: 116 :: 59 :: r => some ([60], r)
  | 103 :: 116 :: 59 :: r => some ([62], r)
  | 97 :: 109 :: 112 :: 59 :: r => some ([38], r)
  | 97 :: 112 :: 111 :: 115 :: 59 :: r => some ([39], r)
  | 113 :: 117 :: 111 :: 116 :: 59 :: r => some ([34], r)
  | _ => none

/-- The loop of `Decoder.text` outside CDATA sections: decoded data and the remaining input.
`b0` and `b1` are the two bytes read before. The number bounds the number of steps. -/
def textLoop (quote : Option UInt8) : Nat → UInt8 → UInt8 → Str → Option (Str × Str)
  | 0, _, _, inp => some ([], inp)
  | _ + 1, _, _, [] => some ([], [])
  | n + 1, b0, b1, b :: rest =>
    if quote = none && b0 = 93 && b1 = 93 && b = 62 then none
    else if b = 60 then (if quote = none then some ([], b :: rest) else none)
    else if quote = some b then some ([], rest)
    else if b = 38 then
      match entity rest with
      | none => none
      | some (t, rest') => (textLoop quote n 0 0 rest').map fun (d, r) => (t ++ d, r)
    else if b = 13 then (textLoop quote n b1 b rest).map fun (d, r) => (10 :: d, r)
    else if b1 = 13 && b = 10 then textLoop quote n b1 b rest
    else (textLoop quote n b1 b rest).map fun (d, r) => (b :: d, r)

/-- `Decoder.text(quote, false)`. -/
def text (u : Unicode) (quote : Option UInt8) (inp : Str) : Option (Str × Str) :=
  match textLoop quote (inp.length + 1) 0 0 inp with
  | none => none
  | some (d, r) => if u.okText d then some (d, r) else none

/-- `Decoder.attrval` in strict mode. -/
def attrval (u : Unicode) (inp : Str) : Option (Str × Str) :=
  match inp with
  | 34 :: r => text u (some 34) r
  | 39 :: r => text u (some 39) r
  | _ => none

/-- The attribute loop of a start tag: attributes, whether the tag is self-closing, rest. -/
def attrLoop (u : Unicode) : Nat → Str → Option (List Attr × Bool × Str)
  | 0, _ => none
  | n + 1, inp =>
    match skipSpace inp with
    | [] => none
    | 47 :: 62 :: r => some ([], true, r)
    | 47 :: _ => none
    | 62 :: r => some ([], false, r)
    | inp' =>
      match nsname u inp' with
      | none => none
      | some (name, r1) =>
        match skipSpace r1 with
        | 61 :: r2 =>
          match attrval u (skipSpace r2) with
          | none => none
          | some (v, r3) =>
            (attrLoop u n r3).map fun (as, e, r) => (⟨name, v⟩ :: as, e, r)
        | _ => none

/-- State of the tokenizer: remaining input, open elements (their names as written, each with the
prefix bindings to restore), current prefix bindings (innermost last), pending end of a
self-closing element. -/
structure St where
  inp : Str
  stack : List (XName × Scope)
  ns : Scope
  pending : Option XName

/-- The prefix bindings added by the attributes of a start tag. -/
def nsPush : Scope → List Attr → Scope
  | ns, [] => ns
  | ns, a :: as =>
    let ns1 := if a.name.space = b!"xmlns" then ns ++ [⟨a.value, a.name.loc⟩] else ns
    let ns2 := if a.name.space = [] ∧ a.name.loc = b!"xmlns" then ns1 ++ [⟨a.value, []⟩] else ns1
    nsPush ns2 as

/-- Looks a prefix up in the bindings. -/
def nsLookup (p : Str) : List XName → Option Str
  | [] => none
  | d :: ds => if d.loc = p then some d.space else nsLookup p ds

/-- `Decoder.translate`. -/
def translate (ns : Scope) (n : XName) (isElement : Bool) : XName :=
  if n.space = b!"xmlns" then n
  else if n.space = [] ∧ !isElement then n
  else if n.space = b!"xml" then ⟨xmlLangURI, n.loc⟩
  else if n.space = [] ∧ n.loc = b!"xmlns" then n
  else match nsLookup n.space ns.reverse with
    | some v => ⟨v, n.loc⟩
    | none => n

/-- `Decoder.popElement` for an end tag named `n`, after which `rest` remains. -/
def popElement (st : St) (n : XName) (rest : Str) : Option (Tok × St) :=
  match st.stack with
  | [] => none
  | (m, saved) :: stack =>
    if n ≠ m then none
    else some (.stop (translate st.ns n true), ⟨rest, stack, saved, none⟩)

/-- Scans a comment after `<!--`. -/
def commentLoop : UInt8 → UInt8 → Str → Option Str
  | _, _, [] => none
  | b0, b1, b :: rest =>
    if b0 = 45 && b1 = 45 then (if b = 62 then some rest else none)
    else commentLoop b1 b rest

/-- Scans to the end of a CDATA section after `<![CDATA[`; returns the text too. -/
def cdataLoop : UInt8 → UInt8 → Str → Option (Str × Str)
  | _, _, [] => none
  | b0, b1, b :: rest =>
    if b0 = 93 && b1 = 93 && b = 62 then some ([b], rest)
    else (cdataLoop b1 b rest).map fun (d, r) => (b :: d, r)

/-- Scans a processing instruction to `?>`. -/
def piLoop : UInt8 → Str → Option Str
  | _, [] => none
  | b0, b :: rest => if b0 = 63 && b = 62 then some rest else piLoop b rest

/-- Scans a comment inside a directive, after `<!--`. -/
def directiveComment : UInt8 → UInt8 → Str → Option Str
  | _, _, [] => none
  | b0, b1, b :: rest => if b0 = 45 && b1 = 45 && b = 62 then some rest else directiveComment b1 b rest

/-- What follows the start of a comment, after `<`. -/
def commentStart : Str → Option Str
  | 33 :: 45 :: 45 :: r => some r
  | _ => none

/-- Scans a directive to its `>`: quotes (`q` is the one that is open, or 0) and angle brackets are matched (`d` are
open), comments are skipped. The first number bounds the number of steps. -/
def directiveLoop : Nat → UInt8 → Nat → Str → Option Str
  | 0, _, _, _ => none
  | _ + 1, _, _, [] => none
  | n + 1, q, d, b :: rest =>
    if q ≠ 0 then directiveLoop n (if b = q then 0 else q) d rest
    else if b = 62 then
      if d = 0 then some rest else directiveLoop n 0 (d - 1) rest
    else if b = 39 ∨ b = 34 then directiveLoop n b d rest
    else if b = 60 then
      match commentStart rest with
      | some r => (directiveComment 0 0 r).bind (directiveLoop n 0 d)
      | none => directiveLoop n 0 (d + 1) rest
    else directiveLoop n 0 d rest

/-- Scans a directive, after `<!`; what begins like a comment or a CDATA section must be one. The first byte is not looked at. -/
def directive : Str → Option Str
  | [] => none
  | c :: r => if c = 45 ∨ c = 91 then none else directiveLoop (r.length + 1) 0 0 r

/-- One call of `Decoder.Token`; `none` is an error or the end of the input. -/
def token (u : Unicode) (st : St) : Option (Tok × St) :=
  match st.pending with
  | some n => popElement st n st.inp
  | none =>
    match st.inp with
    | [] => none
    | 60 :: 47 :: r =>
      match nsname u r with
      | none => none
      | some (n, r1) =>
        match skipSpace r1 with
        | 62 :: r2 => popElement st n r2
        | _ => none
    | 60 :: 63 :: r =>
      let (target, r1) := readName r
      if target.isEmpty || !u.okName target then none
      else (piLoop 0 r1).map fun rest => (.other, { st with inp := rest })
    | 60 :: 33 :: 45 :: 45 :: r => (commentLoop 0 0 r).map fun rest => (.other, { st with inp := rest })
    | 60 :: 33 :: 91 :: 67 :: 68 :: 65 :: 84 :: 65 :: 91 :: r =>
      match cdataLoop 0 0 r with
      | none => none
      | some (d, rest) => if u.okText (d.take (d.length - 3)) then some (.other, { st with inp := rest }) else none
    | 60 :: 33 :: r => (directive r).map fun rest => (.other, { st with inp := rest })
    | 60 :: r =>
      match nsname u r with
      | none => none
      | some (n, r1) =>
        match attrLoop u (r1.length + 1) r1 with
        | none => none
        | some (as, empty, rest) =>
          let ns' := nsPush st.ns as
          some (.start (translate ns' n true) (as.map fun a => { a with name := translate ns' a.name false }),
            ⟨rest, (n, st.ns) :: st.stack, ns', if empty then some n else none⟩)
    | inp =>
      match text u none inp with
      | none => none
      | some (_, rest) => some (.other, { st with inp := rest })

/-- All tokens up to the first error, each with `InputOffset` after it. -/
def tokens (u : Unicode) (total : Nat) : Nat → St → List (Tok × Nat)
  | 0, _ => []
  | n + 1, st =>
    match token u st with
    | none => []
    | some (t, st') => (t, total - st'.inp.length) :: tokens u total n st'

/-- The tokens of a document. Every token consumes input or clears `pending`, so twice the length
is enough. -/
def lex (u : Unicode) (doc : Str) : List (Tok × Nat) :=
  tokens u doc.length (2 * doc.length + 1) ⟨doc, [], [], none⟩

end GoXml.Lex

namespace GoXml

/-- `Parse` (xmltree/xmltree.go:208-251) on the bytes of a UTF-8 document. -/
def parse (u : Lex.Unicode) (srt : Sorter nsLess) (doc : Str) : Except ParseErr Element :=
  parseDoc srt doc (Lex.lex u doc)

end GoXml
