import Verif.Spec.Xsd
import Verif.Spec.Gen
import Verif.Spec.Wf
import Verif.Spec.Source
set_option autoImplicit false

/-! What an annotation says. -/

namespace GoXml.Xsd

/-- A `documentation` element of XML Schema. -/
def IsDoc (e : Element) : Prop := e.name = ⟨w3cSchemaNS, b!"documentation"⟩

/-- The line ends of `raw` normalised; the flag says that the byte before was a carriage return. -/
inductive LineEnds : Bool → Str → Str → Prop
  | nil {cr : Bool} : LineEnds cr [] []
  | cr {cr : Bool} {raw v : Str} : LineEnds true raw v → LineEnds cr (13 :: raw) (10 :: v)
  | crlf {raw v : Str} : LineEnds false raw v → LineEnds true (10 :: raw) v
  | char {cr : Bool} {c : UInt8} {raw v : Str} : c ≠ 13 → (c = 10 → cr = false) → LineEnds false raw v → LineEnds cr (c :: raw) (c :: v)

/-- The character data in a piece of a document that is no element: text with its references replaced, CDATA sections as they are, and
nothing in comments and processing instructions. -/
inductive PieceText : Src → Str → Prop
  | text {raw v : Str} : Decodes none false raw v → PieceText (.text raw) v
  | cdata {body v : Str} : LineEnds false body v → PieceText (.cdata body) v
  | comment {body : Str} : PieceText (.comment body) []
  | pi {target body : Str} : PieceText (.pi target body) []

/-- The element contains no elements, and `t` is the character data in it. -/
def HasText (u : Lex.Unicode) (e : Element) (t : Str) : Prop :=
  e.children = [] ∧ ∃ (ss : List Src) (ts : List Str), SrcsWf u [] ss ∧ e.content = srcBytes ss ∧ List.Forall₂ PieceText ss ts ∧ t = ts.flatten

/-- `doc` consists of `texts`, each without surrounding space, separated by blank lines. -/
def JoinedDocs (texts : List Str) (doc : Str) : Prop :=
  ∃ trimmed : List Str, List.Forall₂ Gen.TrimmedTo texts trimmed ∧ Gen.TrimmedTo (List.intercalate b!"\n\n" trimmed) doc

end GoXml.Xsd
