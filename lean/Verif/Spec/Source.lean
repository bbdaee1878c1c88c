import Verif.Spec.Doc
import Verif.Model.Lexer
import Verif.Spec.Gen
import Mathlib.Data.List.Forall2
set_option autoImplicit false

/-!
XML documents as they are written, and what they mean according to XML 1.0 and Namespaces in XML 1.0. Document type
declarations only say where they end: entities they declare are not covered, nor are processing instructions inside them, defaults of attributes
and the normalisation of white space in values of attributes. The tables of characters in names and text are those of the tokenizer (`Lex.Unicode`).
-/

namespace GoXml

/-- The value of a sequence of decimal digits. -/
inductive DecNum : Str → Nat → Prop
  | nil : DecNum [] 0
  | snoc (ds : Str) (n : Nat) (c : UInt8) : DecNum ds n → 48 ≤ c.toNat → c.toNat ≤ 57 → DecNum (ds ++ [c]) (10 * n + (c.toNat - 48))

/-- A reference, without `&` and `;`, and the text it stands for: a predefined entity or the number of a character. -/
inductive Reference : Str → Str → Prop
  | lt : Reference b!"lt" b!"<"
  | gt : Reference b!"gt" b!">"
  | amp : Reference b!"amp" b!"&"
  | apos : Reference b!"apos" b!"'"
  | quot : Reference b!"quot" b!"\""
  | dec {ds : Str} {n : Nat} : ds ≠ [] → DecNum ds n → Gen.Scalar n → Reference (b!"#" ++ ds) (Gen.enc n)
  | hex {ds : Str} {n : Nat} : ds ≠ [] → Gen.HexNum ds n → Gen.Scalar n → Reference (b!"#x" ++ ds) (Gen.enc n)

/-- `Decodes quote cr raw v`: the text `raw` means `v`. It contains no `<`, and not the quote if it is between quotes. Line ends are
normalised; `cr` says that the byte before was a carriage return. -/
inductive Decodes (quote : Option UInt8) : Bool → Str → Str → Prop
  | nil {cr : Bool} : Decodes quote cr [] []
  | entity {cr : Bool} {name raw t v : Str} : Reference name t → Decodes quote false raw v →
      Decodes quote cr (b!"&" ++ name ++ b!";" ++ raw) (t ++ v)
  | cr {cr : Bool} {raw v : Str} : Decodes quote true raw v → Decodes quote cr (13 :: raw) (10 :: v)
  | crlf {raw v : Str} : Decodes quote false raw v → Decodes quote true (10 :: raw) v
  | char {cr : Bool} {c : UInt8} {raw v : Str} : c ≠ 38 → c ≠ 60 → c ≠ 13 → quote ≠ some c → (c = 10 → cr = false) →
      Decodes quote false raw v → Decodes quote cr (c :: raw) (c :: v)

/-- White space. -/
def White (s : Str) : Prop := ∀ c ∈ s, c = 32 ∨ c = 9 ∨ c = 10 ∨ c = 13

/-- A name without a colon: letters, digits, `_`, `.`, `-` and anything that is not ASCII. -/
def NcName (s : Str) : Prop :=
  s ≠ [] ∧ ∀ c ∈ s, c ∈ b!"ABCDEFGHIJKLMNOPQRSTUVWXYZabcdefghijklmnopqrstuvwxyz0123456789_.-" ∨ 128 ≤ c.toNat

/-- A name as it is written. -/
def written (pre loc : Str) : Str := if pre = [] then loc else pre ++ b!":" ++ loc

/-- A name with a prefix or without one. -/
def QualName (u : Lex.Unicode) (pre loc : Str) : Prop :=
  (pre = [] ∨ NcName pre) ∧ NcName loc ∧ u.okName (written pre loc) = true

/-- An attribute as it is written: white space, the name, white space, `=`, white space, and the value between quotes; and its value. -/
structure SrcAttr where
  lead : Str
  pre : Str
  loc : Str
  before : Str
  after : Str
  quote : UInt8
  raw : Str
  value : Str

def SrcAttr.bytes (a : SrcAttr) : Str :=
  a.lead ++ written a.pre a.loc ++ a.before ++ b!"=" ++ a.after ++ [a.quote] ++ a.raw ++ [a.quote]

/-- The attribute with the prefix in place of the namespace. -/
def SrcAttr.toAttr (a : SrcAttr) : Attr := ⟨⟨a.pre, a.loc⟩, a.value⟩

structure SrcAttr.Ok (u : Lex.Unicode) (a : SrcAttr) : Prop where
  lead : White a.lead ∧ a.lead ≠ []
  name : QualName u a.pre a.loc
  before : White a.before
  after : White a.after
  quote : a.quote = 34 ∨ a.quote = 39
  value : Decodes (some a.quote) false a.raw a.value
  chars : u.okText a.value = true

/-- What a document type declaration may contain: literals between quotes, declarations between angle brackets, comments, and anything but
quotes and angle brackets. -/
inductive DoctypeBody : Str → Prop
  | nil : DoctypeBody []
  | char {c : UInt8} {s : Str} : c ∉ b!"<>'\"" → DoctypeBody s → DoctypeBody (c :: s)
  | literal {q : UInt8} {t s : Str} : q ∈ b!"'\"" → q ∉ t → DoctypeBody s → DoctypeBody (q :: t ++ q :: s)
  | declaration {t s : Str} : DoctypeBody t → ¬ b!"!--" <+: t → DoctypeBody s → DoctypeBody (b!"<" ++ t ++ b!">" ++ s)
  | comment {t s : Str} : ¬ b!"--" <:+: t ++ b!"-" → DoctypeBody s → DoctypeBody (b!"<!--" ++ t ++ b!"-->" ++ s)

/-- A piece of a document. -/
inductive Src where
  | text (raw : Str)
  | comment (body : Str)
  | cdata (body : Str)
  | pi (target body : Str)
  | doctype (body : Str)
  | empty (pre loc : Str) (attrs : List SrcAttr) (space : Str)
  | elem (pre loc : Str) (attrs : List SrcAttr) (space : Str) (kids : List Src) (endSpace : Str)

def attrsBytes (as : List SrcAttr) : Str := (as.map SrcAttr.bytes).flatten

mutual
/-- The bytes of a piece. -/
def Src.bytes : Src → Str
  | .text raw => raw
  | .comment body => b!"<!--" ++ body ++ b!"-->"
  | .cdata body => b!"<![CDATA[" ++ body ++ b!"]]>"
  | .pi target body => b!"<?" ++ target ++ body ++ b!"?>"
  | .doctype body => b!"<!DOCTYPE" ++ body ++ b!">"
  | .empty pre loc attrs space => b!"<" ++ written pre loc ++ attrsBytes attrs ++ space ++ b!"/>"
  | .elem pre loc attrs space kids endSpace =>
    b!"<" ++ written pre loc ++ attrsBytes attrs ++ space ++ b!">" ++ srcBytes kids ++ b!"</" ++ written pre loc ++ endSpace ++ b!">"
def srcBytes : List Src → Str
  | [] => []
  | s :: ss => s.bytes ++ srcBytes ss
end

mutual
/-- Nesting depth of elements. -/
def Src.depth : Src → Nat
  | .empty _ _ _ _ => 1
  | .elem _ _ _ _ kids _ => srcDepth kids + 1
  | _ => 0
def srcDepth : List Src → Nat
  | [] => 0
  | s :: ss => max s.depth (srcDepth ss)
end

def Src.isText : Src → Bool
  | .text _ => true
  | _ => false

def Src.isMisc : Src → Bool
  | .empty _ _ _ _ => false
  | .elem _ _ _ _ _ _ => false
  | _ => true

/-- The prefix is bound to the namespace; `chain` are the attributes of the enclosing tags, innermost first. -/
def Binds (chain : List (List Attr)) (p ns : Str) : Prop :=
  (p = b!"xml" ∧ ns = b!"http://www.w3.org/XML/1998/namespace") ∨ (p ≠ b!"xml" ∧ Nearest p ns chain)

/-- The namespace of an element with this prefix. -/
def ElemSpace (chain : List (List Attr)) (p ns : Str) : Prop :=
  Binds chain p ns ∨ (p = [] ∧ ns = [] ∧ ∀ ns', ¬ Nearest [] ns' chain)

/-- The namespace of an attribute with this prefix. -/
def AttrSpace (chain : List (List Attr)) (p ns : Str) : Prop :=
  (p = [] ∧ ns = []) ∨ (p ≠ [] ∧ Binds chain p ns)

/-- The attribute is a namespace declaration. -/
def SrcAttr.declares (a : SrcAttr) : Bool := a.pre == b!"xmlns" || (a.pre == [] && a.loc == b!"xmlns")

/-- The tag has well-formed attributes and obeys Namespaces in XML: all prefixes are declared, `xmlns` is not used for anything else. Beyond what
these ask for, no namespace is called `xmlns`. -/
structure TagWf (u : Lex.Unicode) (chain : List (List Attr)) (pre loc : Str) (attrs : List SrcAttr) (space : Str) : Prop where
  name : QualName u pre loc
  element : pre ≠ b!"xmlns" ∧ (pre = [] → loc ≠ b!"xmlns") ∧ ∃ ns, ElemSpace (attrs.map SrcAttr.toAttr :: chain) pre ns
  each : ∀ a ∈ attrs, a.Ok u
  spaces : ∀ a ∈ attrs, a.declares = false → ∃ ns, AttrSpace (attrs.map SrcAttr.toAttr :: chain) a.pre ns
  declarations : TagOk (attrs.map SrcAttr.toAttr)
  reserved : ∀ a ∈ attrs, a.declares = true → a.value ≠ b!"xmlns"
  trailing : White space

/-- What XML declarations say here. -/
def xmlDecls : List Str :=
  [b!" version=\"1.0\"", b!" version='1.0'", b!" version=\"1.0\" encoding=\"UTF-8\"", b!" version=\"1.0\" encoding=\"utf-8\"",
    b!" version='1.0' encoding='UTF-8'", b!" version=\"1.0\" encoding=\"UTF-8\" standalone=\"yes\""]

mutual
/-- The piece is well-formed inside elements whose tags have the attributes `chain`. -/
inductive SrcWf (u : Lex.Unicode) : List (List Attr) → Src → Prop
  | text {chain : List (List Attr)} {raw v : Str} : raw ≠ [] → Decodes none false raw v → u.okText v = true → ¬ b!"]]>" <:+: raw →
      SrcWf u chain (.text raw)
  | comment {chain : List (List Attr)} {body : Str} : ¬ b!"--" <:+: body ++ b!"-" → SrcWf u chain (.comment body)
  | cdata {chain : List (List Attr)} {body : Str} : ¬ b!"]]>" <:+: body ++ b!"]]" → u.okText body = true → SrcWf u chain (.cdata body)
  | pi {chain : List (List Attr)} {target body : Str} : NcName target → u.okName target = true → (body = [] ∨ ∃ c r, body = c :: r ∧ White [c]) →
      ¬ b!"?>" <:+: body ++ b!"?" → (target = b!"xml" → body ∈ xmlDecls) → SrcWf u chain (.pi target body)
  | doctype {w : UInt8} {body : Str} : White [w] → DoctypeBody body → SrcWf u [] (.doctype (w :: body))
  | empty {chain : List (List Attr)} {pre loc : Str} {attrs : List SrcAttr} {space : Str} : TagWf u chain pre loc attrs space →
      SrcWf u chain (.empty pre loc attrs space)
  | elem {chain : List (List Attr)} {pre loc : Str} {attrs : List SrcAttr} {space : Str} {kids : List Src} {endSpace : Str} :
      TagWf u chain pre loc attrs space → SrcsWf u (attrs.map SrcAttr.toAttr :: chain) kids → White endSpace →
      SrcWf u chain (.elem pre loc attrs space kids endSpace)
/-- The same for the content of an element; adjacent texts are one. -/
inductive SrcsWf (u : Lex.Unicode) : List (List Attr) → List Src → Prop
  | nil {chain : List (List Attr)} : SrcsWf u chain []
  | cons {chain : List (List Attr)} {s : Src} {ss : List Src} : SrcWf u chain s → SrcsWf u chain ss →
      (s.isText = true → ∀ t ∈ ss.head?, t.isText = false) → SrcsWf u chain (s :: ss)
end

/-- What the attributes of a tag are, without declarations. -/
def MeansAttrs (chain : List (List Attr)) (attrs : List SrcAttr) (as : List Attr) : Prop :=
  List.Forall₂ (fun s a => a.name.loc = s.loc ∧ a.value = s.value ∧ AttrSpace chain s.pre a.name.space)
    (attrs.filter fun a => !a.declares) as

mutual
/-- `Means chain s e`: the element `e` is what the source `s` describes. -/
inductive Means : List (List Attr) → Src → Element → Prop
  | empty {chain : List (List Attr)} {pre loc ns : Str} {attrs : List SrcAttr} {space : Str} {as : List Attr} {scope : Scope} :
      ElemSpace (attrs.map SrcAttr.toAttr :: chain) pre ns → MeansAttrs (attrs.map SrcAttr.toAttr :: chain) attrs as →
      (∀ p v, Innermost scope p v ↔ Nearest p v (attrs.map SrcAttr.toAttr :: chain)) →
      Means chain (.empty pre loc attrs space) (.mk ⟨ns, loc⟩ as scope [] [])
  | elem {chain : List (List Attr)} {pre loc ns : Str} {attrs : List SrcAttr} {space : Str} {kids : List Src} {endSpace : Str} {as : List Attr}
      {scope : Scope} {es : List Element} :
      ElemSpace (attrs.map SrcAttr.toAttr :: chain) pre ns → MeansAttrs (attrs.map SrcAttr.toAttr :: chain) attrs as →
      (∀ p v, Innermost scope p v ↔ Nearest p v (attrs.map SrcAttr.toAttr :: chain)) →
      MeansL (attrs.map SrcAttr.toAttr :: chain) kids es →
      Means chain (.elem pre loc attrs space kids endSpace) (.mk ⟨ns, loc⟩ as scope (srcBytes kids) es)
/-- The same for the content of an element. -/
inductive MeansL : List (List Attr) → List Src → List Element → Prop
  | nil {chain : List (List Attr)} : MeansL chain [] []
  | misc {chain : List (List Attr)} {s : Src} {ss : List Src} {es : List Element} : s.isMisc = true → MeansL chain ss es →
      MeansL chain (s :: ss) es
  | elem {chain : List (List Attr)} {s : Src} {ss : List Src} {e : Element} {es : List Element} : Means chain s e → MeansL chain ss es →
      MeansL chain (s :: ss) (e :: es)
end

/-- A document: anything but elements, then an element. -/
structure SrcDoc where
  prolog : List Src
  root : Src

def SrcDoc.bytes (d : SrcDoc) : Str := srcBytes d.prolog ++ d.root.bytes

structure SrcDoc.Wf (u : Lex.Unicode) (d : SrcDoc) : Prop where
  prolog : SrcsWf u [] d.prolog
  misc : ∀ s ∈ d.prolog, s.isMisc = true
  root : SrcWf u [] d.root
  element : d.root.isMisc = false

end GoXml
