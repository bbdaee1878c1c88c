import Verif.Model.XsdAnnotation
import Verif.Model.XsdgenValues
set_option autoImplicit false

/-! Model of `Unmarshal` (`xmltree/xmltree.go:77-83`) with what `encoding/xml` sees of a document. -/

namespace GoXml.Values

/-- Character data is added to what an element contains, the last first. Comments and processing instructions
leave the text around them in one piece. -/
def addText (t : Str) (ks : List XNode) : List XNode :=
  if t = [] then ks
  else match ks with
    | .text s :: r => .text (s ++ t) :: r
    | ks => .text t :: ks

/-- `Decoder.unmarshal` (encoding/xml) on the tokens of a document: the first element, as it is given to the fields
of a struct. Declarations of namespaces are left out, which no field of the types here asks for. What comes before
the first start tag is skipped, what follows the element is not read. The first argument are the elements that are
not closed yet, the innermost first. The decoder has a limit of 10000 nested elements, which `Marshal` does not
reach; it is left out. -/
def buildNode : List (XName × List Attr × List XNode) → List (Tok × Str) → Option XNode
  | _, [] => none
  | st, (.start n as, _) :: r => buildNode ((n, as.filter (fun a => !(a.name.space = b!"xmlns" || a.name.loc = b!"xmlns")), []) :: st) r
  | [], (.other, _) :: r => buildNode [] r
  | (n, as, ks) :: st, (.other, t) :: r => buildNode ((n, as, addText (Xsd.tokenText t) ks) :: st) r
  | [], (.stop _, _) :: _ => none
  | [(n, as, ks)], (.stop _, _) :: _ => some (.elem n as ks.reverse)
  | (n, as, ks) :: (m, bs, ls) :: st, (.stop _, _) :: r => buildNode ((m, bs, .elem n as ks.reverse :: ls) :: st) r

/-- What `xml.Unmarshal` sees of a document. -/
def decoderSees (u : Lex.Unicode) (data : Str) : Option XNode :=
  buildNode [] (Xsd.tokenBytes data 0 (Lex.lex u data))

/-- `Unmarshal` (xmltree/xmltree.go:81-83): the element is written, and `xml.Unmarshal` reads what was written. -/
def unmarshalSees (u : Lex.Unicode) (el : Element) : Option XNode := decoderSees u (marshal el)

end GoXml.Values
