import Verif.Model.Lexer
set_option autoImplicit false

/-! Model of `Parse` on documents in another encoding than UTF-8 (xmltree/xmltree.go:217-234). -/

namespace GoXml

/-- The buffer `utf8buf` after the call of `CharsetReader` (xmltree/xmltree.go:226-229): `off` is
`d.InputOffset()`, the length of the XML declaration, and `text` the rest of the document converted
to UTF-8. That the buffer shares the memory of `doc` (217) is not modelled: the conversion is taken
to be finished before anything is overwritten, which is so for short documents. -/
def utf8buf (off : Nat) (text : Str) : Str := List.replicate off 0 ++ text

/-- What the decoder reads from then on: `utf8buf.Bytes()[len(padding)+1:]`
(xmltree/xmltree.go:233). Slicing beyond the end (an empty rest) panics; here it gives nothing. -/
def charsetInput (off : Nat) (text : Str) : Str := (utf8buf off text).drop (off + 1)

/-- `Parse` (xmltree/xmltree.go:208-251) when the charset reader is used. The decoder goes on
counting from `off`; the declaration itself is one token. -/
def parseCharset (u : Lex.Unicode) (srt : Sorter nsLess) (off : Nat) (text : Str) : Except ParseErr Element :=
  parseDoc srt (utf8buf off text)
    ((.other, off) :: (Lex.lex u (charsetInput off text)).map fun t => (t.1, off + t.2))

end GoXml
