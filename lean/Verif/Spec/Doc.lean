import Verif.Spec.Tree
import Verif.Spec.XmlTree

/-!
Source documents, independent of the parser: a well-nested document is a tree of tags and other
tokens, each with its bytes.
-/

namespace GoXml

/-- A piece of a document. `text` is any token that is neither a start nor an end tag (character
data, comment, processing instruction, directive) with its bytes. `elem` is an element with the
bytes of its start tag and of its end tag (for a self-closing tag the latter is empty) and the name
and attributes that the tokenizer delivers for it. -/
inductive Node where
  | text (bytes : Str)
  | elem (openTag : Str) (name : XName) (attrs : List Attr) (kids : List Node) (closeTag : Str)

mutual
/-- The bytes of a piece. -/
def Node.bytes : Node → Str
  | .text b => b
  | .elem o _ _ ks c => o ++ bytesL ks ++ c
def bytesL : List Node → Str
  | [] => []
  | n :: ns => n.bytes ++ bytesL ns
end

mutual
/-- The tokens of a piece that starts at offset `off`, each with the offset after it. -/
def Node.events (off : Nat) : Node → List (Tok × Nat)
  | .text b => [(.other, off + b.length)]
  | .elem o n as ks c =>
    (.start n as, off + o.length) :: (eventsL (off + o.length) ks ++
      [(.stop n, off + o.length + (bytesL ks).length + c.length)])
def eventsL (off : Nat) : List Node → List (Tok × Nat)
  | [] => []
  | n :: ns => n.events off ++ eventsL (off + n.bytes.length) ns
end

mutual
/-- Nesting depth of elements. -/
def Node.height : Node → Nat
  | .text _ => 0
  | .elem _ _ _ ks _ => heightL ks + 1
def heightL : List Node → Nat
  | [] => 0
  | n :: ns => max n.height (heightL ns)
end

/-- A document: other tokens, then the root element. -/
structure Doc where
  prolog : List Str
  openTag : Str
  name : XName
  attrs : List Attr
  kids : List Node
  closeTag : Str

def Doc.root (d : Doc) : Node := .elem d.openTag d.name d.attrs d.kids d.closeTag
def Doc.nodes (d : Doc) : List Node := d.prolog.map .text ++ [d.root]
def Doc.bytes (d : Doc) : Str := bytesL d.nodes
def Doc.events (d : Doc) : List (Tok × Nat) := eventsL 0 d.nodes

/-- A source element found at a position: the offset of its start tag, the element, and the
attribute lists of the start tags on the way, from the outermost to its own. -/
structure Found where
  off : Nat
  node : Node
  chain : List (List Attr)

mutual
/-- The source element at a position below a piece that starts at offset `off`. -/
def Node.find? (off : Nat) : Node → List Nat → Option Found
  | .text _, _ => none
  | .elem o n as ks c, [] => some ⟨off, .elem o n as ks c, [as]⟩
  | .elem o _ as ks _, i :: p => (findL? (off + o.length) ks i p).map fun f => { f with chain := as :: f.chain }
/-- The same below the `i`-th element of a list of pieces. -/
def findL? (off : Nat) : List Node → Nat → List Nat → Option Found
  | [], _, _ => none
  | .text b :: ns, i, p => findL? (off + b.length) ns i p
  | .elem o n as ks c :: _, 0, p => (Node.elem o n as ks c).find? off p
  | .elem o _ _ ks c :: ns, i + 1, p => findL? (off + (o ++ bytesL ks ++ c).length) ns i p
end

/-- The source element at a position of the document's root. -/
def Doc.find? (d : Doc) (p : List Nat) : Option Found :=
  d.root.find? (bytesL (d.prolog.map .text)).length p

/-- The attribute is treated as a namespace declaration. -/
def isNsAttr (a : Attr) : Bool := a.name.space == b!"xmlns" || a.name.loc == b!"xmlns"

/-- The declaration it stands for. -/
def declOf (a : Attr) : XName :=
  ⟨a.value, if a.name.space == b!"xmlns" then a.name.loc else []⟩

mutual
/-- `Mirrors sc node el`: the element `el` is what the source element `node`, placed in scope `sc`,
should become. -/
inductive Mirrors : Scope → Node → Element → Prop
  | elem {sc own : Scope} {o : Str} {n : XName} {as : List Attr} {ks : List Node} {c : Str} {cs : List Element} :
      own.Perm ((as.filter isNsAttr).map declOf) →
      MirrorsL (sc ++ own) ks cs →
      Mirrors sc (.elem o n as ks c)
        (.mk n (as.filter (fun a => !isNsAttr a)) (sc ++ own) (bytesL ks) cs)
/-- The same for the content of an element: exactly the elements in it, in order. -/
inductive MirrorsL : Scope → List Node → List Element → Prop
  | nil {sc : Scope} : MirrorsL sc [] []
  | text {sc : Scope} {b : Str} {ns : List Node} {cs : List Element} :
      MirrorsL sc ns cs → MirrorsL sc (.text b :: ns) cs
  | elem {sc : Scope} {o : Str} {n : XName} {as : List Attr} {ks : List Node} {c : Str} {ns : List Node}
      {e : Element} {cs : List Element} :
      Mirrors sc (.elem o n as ks c) e → MirrorsL sc ns cs →
      MirrorsL sc (.elem o n as ks c :: ns) (e :: cs)
end

/-- The attribute declares a namespace according to Namespaces in XML: `xmlns:p="ns"`, or
`xmlns="ns"` for the default namespace (`p` empty). -/
def DeclAttr (a : Attr) (p ns : Str) : Prop :=
  a.value = ns ∧ (a.name = ⟨b!"xmlns", p⟩ ∨ (a.name = ⟨[], b!"xmlns"⟩ ∧ p = []))

/-- Going outwards (the list starts at the innermost tag), the first tag that declares `p` binds it
to `ns`. -/
def Nearest (p ns : Str) : List (List Attr) → Prop
  | [] => False
  | as :: rest => (∃ a ∈ as, DeclAttr a p ns) ∨ ((∀ a ∈ as, ∀ ns', ¬ DeclAttr a p ns') ∧ Nearest p ns rest)

/-- Attribute lists as XML namespaces allow them: no prefix declared twice in a tag, no attribute
with local name `xmlns` in a namespace, no declaration of the empty prefix by `xmlns:`. -/
def TagOk (as : List Attr) : Prop :=
  (∀ a ∈ as, ∀ b ∈ as, ∀ p n m, DeclAttr a p n → DeclAttr b p m → n = m) ∧
  (∀ a ∈ as, a.name.loc = b!"xmlns" → a.name.space = [] ∨ a.name.space = b!"xmlns") ∧
  (∀ a ∈ as, a.name ≠ ⟨b!"xmlns", []⟩)

end GoXml
