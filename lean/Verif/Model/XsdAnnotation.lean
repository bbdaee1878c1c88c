import Verif.Model.Lexer
import Verif.Model.Marshal
import Verif.Model.Gen
import Verif.Model.XsdTree
set_option autoImplicit false

/-! Model of the decoding of annotations (`xsd/xsd.go:252-290`) with what it uses of `encoding/xml`. -/

namespace GoXml.Xsd

/-- The tokens of a document, each with its bytes; the first starts at offset `b`. -/
def tokenBytes (data : Str) : Nat → List (Tok × Nat) → List (Tok × Str)
  | _, [] => []
  | b, (t, off) :: rest => (t, slice data b off) :: tokenBytes data off rest

/-- The newlines of a CDATA section: CR and CR LF become LF. -/
def newlines (b1 : UInt8) : Str → Str
  | [] => []
  | b :: rest =>
    if b = 13 then 10 :: newlines b rest
    else if b1 = 13 && b = 10 then newlines b rest
    else b :: newlines b rest

/-- The text of a token that is neither a start nor an end tag: empty for comments and processing
instructions (encoding/xml). -/
def tokenText (t : Str) : Str :=
  match t with
  | 60 :: 33 :: 91 :: 67 :: 68 :: 65 :: 84 :: 65 :: 91 :: r => newlines 0 (r.take (r.length - 3))
  | 60 :: _ => []
  | t => match Lex.textLoop none (t.length + 1) 0 0 t with
    | some (d, _) => d
    | none => []

/-- `Decoder.Skip` (encoding/xml), inside `d` more elements; `none` is an error. -/
def skipToks : Nat → List (Tok × Str) → Option (List (Tok × Str))
  | _, [] => none
  | d, (.start _ _, _) :: r => skipToks (d + 1) r
  | 0, (.stop _, _) :: r => some r
  | d + 1, (.stop _, _) :: r => skipToks d r
  | d, (.other, _) :: r => skipToks d r

/-- `Decoder.DecodeElement` (encoding/xml) into a slice of bytes, after the start tag: the character
data before the next end tag, where elements are skipped; `d` counts the elements being skipped. -/
def decodeBytes : Nat → List (Tok × Str) → Option (Str × List (Tok × Str))
  | _, [] => none
  | d, (.start _ _, _) :: r => decodeBytes (d + 1) r
  | 0, (.stop _, _) :: r => some ([], r)
  | d + 1, (.stop _, _) :: r => decodeBytes d r
  | 0, (.other, t) :: r => (decodeBytes 0 r).map fun x => (tokenText t ++ x.1, x.2)
  | d + 1, (.other, _) :: r => decodeBytes (d + 1) r

/-- The loop of `annotation.UnmarshalXML` (xsd/xsd.go:262-283): the fragments in `buf`. An element
other than `documentation` is skipped, and then decoded from the tokens that follow it, up to the end
tag of the annotation; after that end tag the decoder reports the end of the input. The first number
bounds the number of steps. -/
def annotationLoop : Nat → List (Tok × Str) → Option (List Str)
  | 0, _ => none
  | _ + 1, [] => none
  | _ + 1, (.stop _, _) :: _ => some []
  | n + 1, (.start name _, _) :: r =>
    if name ≠ ⟨schemaNS, b!"documentation"⟩ then
      match skipToks 0 r with
      | none => none
      | some r => (decodeBytes 0 r).map fun x => [trimSpace x.1]
    else match decodeBytes 0 r with
      | none => none
      | some (frag, r) => (annotationLoop n r).map fun buf => trimSpace frag :: buf
  | n + 1, (.other, _) :: r => annotationLoop n r

/-- `bytes.Join(buf, "\n\n")`. -/
def joinFrags : List Str → Str
  | [] => []
  | [s] => s
  | s :: t :: ss => s ++ b!"\n\n" ++ joinFrags (t :: ss)

/-- The first start tag is skipped: what follows it. -/
def afterRoot : List (Tok × Str) → Option (List (Tok × Str))
  | [] => none
  | (.start _ _, _) :: r => some r
  | _ :: r => afterRoot r

/-- `annotation.UnmarshalXML` (xsd/xsd.go:254-290) on the tokens of a document. `buf` starts with
one empty fragment. -/
def unmarshalAnnotation (toks : List (Tok × Str)) : Option Str :=
  match afterRoot toks with
  | none => none
  | some r => (annotationLoop (r.length + 1) r).map fun buf => trimSpace (joinFrags ([] :: buf))

/-- `parseAnnotation` (xsd/parse.go:905-910) with `xmltree.Unmarshal` (xmltree/xmltree.go:81-83), which
decodes what `Marshal` writes. `none` is a call of `stop`. -/
def parseAnnotation (u : Lex.Unicode) (el : Element) : Option Str :=
  unmarshalAnnotation (tokenBytes (marshal el) 0 (Lex.lex u (marshal el)))

end GoXml.Xsd
