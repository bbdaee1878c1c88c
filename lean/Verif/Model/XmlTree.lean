import Verif.Basic

/-!
Model of `xmltree/xmltree.go`: names, attributes, scopes, searching, parsing.
-/

namespace GoXml

/-- `xml.Name` (encoding/xml). `loc` is the Go field `Local`. -/
structure XName where
  space : Str
  loc : Str
deriving DecidableEq, Repr

/-- `xml.Attr` (encoding/xml). -/
structure Attr where
  name : XName
  value : Str
deriving DecidableEq, Repr

/-- `Scope` (xmltree/xmltree.go:87-89): the `ns` slice; index 0 is the outermost declaration.
`space` is the namespace and `loc` the prefix (empty for the default namespace). -/
abbrev Scope := List XName

/-- xmltree/xmltree.go:22 -/
def xmlNamespaceURI : Str := b!"http://www.w3.org/2000/xmlns/"
/-- xmltree/xmltree.go:23 -/
def xmlLangURI : Str := b!"http://www.w3.org/XML/1998/namespace"
/-- xmltree/xmltree.go:24 -/
def recursionLimit : Nat := 3000

/-- `Element` (xmltree/xmltree.go:42-52) as a value: the embedded StartElement's name and
attributes, the scope, the content and the children. -/
inductive Element where
  | mk (name : XName) (attrs : List Attr) (scope : Scope) (content : Str) (children : List Element)

namespace Element
def name : Element → XName | mk n _ _ _ _ => n
def attrs : Element → List Attr | mk _ a _ _ _ => a
def scope : Element → Scope | mk _ _ s _ _ => s
def content : Element → Str | mk _ _ _ c _ => c
def children : Element → List Element | mk _ _ _ _ cs => cs
end Element

/-! ### Attributes -/

/-- `Element.Attr` (xmltree/xmltree.go:58-68), on the attribute list. -/
def attrGet (space loc : Str) : List Attr → Str
  | [] => []
  | v :: vs =>
    if v.name.loc ≠ loc then attrGet space loc vs
    else if space = [] ∨ space = v.name.space then v.value
    else attrGet space loc vs

def Element.attr (el : Element) (space loc : Str) : Str := attrGet space loc el.attrs

/-- `Element.SetAttr` (xmltree/xmltree.go:300-314), on the attribute list. -/
def attrSet (space loc value : Str) : List Attr → List Attr
  | [] => [⟨⟨space, loc⟩, value⟩]
  | a :: as =>
    if a.name.loc ≠ loc then a :: attrSet space loc value as
    else if space = [] ∨ a.name.space = space then { a with value := value } :: as
    else a :: attrSet space loc value as

def Element.setAttr (el : Element) (space loc value : Str) : Element :=
  .mk el.name (attrSet space loc value el.attrs) el.scope el.content el.children

/-! ### Scopes -/

/-- The byte `:`. -/
def colon : UInt8 := 58

/-- The prefix and local part of a QName (xmltree/xmltree.go:106-112). -/
def splitQName (q : Str) : Str × Str :=
  match cut colon q with
  | some (p, l) => (p, l)
  | none => ([], q)

/-- The backward loop of `ResolveNS` (xmltree/xmltree.go:119-123), on the reversed slice. -/
def resolveLoop (pre loc : Str) : List XName → Option XName
  | [] => none
  | d :: ds => if d.loc = pre then some ⟨d.space, loc⟩ else resolveLoop pre loc ds

/-- `Scope.ResolveNS` (xmltree/xmltree.go:105-125). -/
def resolveNS (sc : Scope) (qname : Str) : XName × Bool :=
  let (pre, loc) := splitQName qname
  if pre = b!"xml" then (⟨xmlLangURI, loc⟩, true)
  else if pre = b!"xmlns" then (⟨xmlNamespaceURI, loc⟩, true)
  else match resolveLoop pre loc sc.reverse with
    | some n => (n, true)
    | none => (⟨pre, loc⟩, false)

/-- `Scope.Resolve` (xmltree/xmltree.go:98-101). -/
def resolve (sc : Scope) (qname : Str) : XName := (resolveNS sc qname).1

/-- `Scope.ResolveDefault` (xmltree/xmltree.go:130-135). -/
def resolveDefault (sc : Scope) (qname defaultns : Str) : XName :=
  if defaultns = [] ∨ colon ∈ qname then resolve sc qname else ⟨defaultns, qname⟩

/-- `Scope.JoinScope` (xmltree/xmltree.go:73-75). Here `append` copies; the aliasing it can cause
is modelled in `Model/Alias.lean`. -/
def joinScope (outer inner : Scope) : Scope := outer ++ inner

/-- The loop of `Scope.Prefix` (xmltree/xmltree.go:150-160), on the reversed slice; `qname` is the
named result. -/
def prefixLoop (space loc : Str) : List XName → Str → Str
  | [], qname => qname
  | d :: ds, qname =>
    if d.space = space then
      if d.loc = [] then prefixLoop space loc ds loc
      else if qname.length = 0 then prefixLoop space loc ds (d.loc ++ b!":" ++ loc)
      else prefixLoop space loc ds qname
    else prefixLoop space loc ds qname

/-- `Scope.Prefix` (xmltree/xmltree.go:141-162). -/
def prefixOf (sc : Scope) (name : XName) : Str :=
  if name.space = [] then name.loc
  else if name.space = xmlLangURI then b!"xml:" ++ name.loc
  else if name.space = xmlNamespaceURI then b!"xmlns:" ++ name.loc
  else prefixLoop name.space name.loc sc.reverse []

/-- `byXMLName.Less` (xmltree/xmltree.go:30-32). -/
def nsLess (a b : XName) : Bool := strLt (a.space ++ a.loc) (b.space ++ b.loc)

/-- What is assumed of `sort.Sort`: it permutes its argument and leaves no inversion. -/
structure Sorter {α : Type} (less : α → α → Bool) where
  sort : List α → List α
  perm : ∀ l, (sort l).Perm l
  sorted : ∀ l, (sort l).Pairwise (fun a b => less b a = false)

/-- The declarations collected by `pushNS` (xmltree/xmltree.go:167-171). -/
def nsDecls : List Attr → List XName
  | [] => []
  | a :: as =>
    if a.name.space = b!"xmlns" then ⟨a.value, a.name.loc⟩ :: nsDecls as
    else if a.name.loc = b!"xmlns" then ⟨a.value, []⟩ :: nsDecls as
    else nsDecls as

/-- The attributes kept by `pushNS` (xmltree/xmltree.go:172-174). -/
def nonNsAttrs : List Attr → List Attr
  | [] => []
  | a :: as =>
    if a.name.space = b!"xmlns" then nonNsAttrs as
    else if a.name.loc = b!"xmlns" then nonNsAttrs as
    else a :: nonNsAttrs as

/-- `Scope.pushNS` (xmltree/xmltree.go:164-188): the new scope and the remaining attributes. -/
def pushNS (srt : Sorter nsLess) (sc : Scope) (attrs : List Attr) : Scope × List Attr :=
  let ns := srt.sort (nsDecls attrs)
  (if ns.length > 0 then sc ++ ns else sc, nonNsAttrs attrs)

/-! ### Searching -/

mutual
/-- The closure `search` in `SearchFunc` (xmltree/xmltree.go:326-331). Pointers are modelled by
positions: the list of child indices from the root. `fn` may look at both. -/
def searchAt (fn : List Nat → Element → Bool) (path : List Nat) : Element → List (List Nat × Element)
  | .mk n a s c cs =>
    (if fn path (.mk n a s c cs) then [(path, .mk n a s c cs)] else []) ++ walkAt fn path 0 cs
/-- `Element.walk` (xmltree/xmltree.go:285-290) with `search` as callback. -/
def walkAt (fn : List Nat → Element → Bool) (path : List Nat) (i : Nat) :
    List Element → List (List Nat × Element)
  | [] => []
  | c :: cs => searchAt fn (path ++ [i]) c ++ walkAt fn path (i + 1) cs
end

/-- `Element.SearchFunc` (xmltree/xmltree.go:322-334). -/
def Element.searchFunc (root : Element) (fn : List Nat → Element → Bool) : List (List Nat × Element) :=
  walkAt fn [] 0 root.children

/-- `Element.Flatten` (xmltree/xmltree.go:294-296). -/
def Element.flatten (root : Element) : List (List Nat × Element) :=
  root.searchFunc (fun _ _ => true)

/-- The predicate in `Element.Search` (xmltree/xmltree.go:340-345). -/
def nameMatches (space loc : Str) (el : Element) : Bool :=
  if loc ≠ el.name.loc then false else decide (space = [] ∨ space = el.name.space)

/-- `Element.Search` (xmltree/xmltree.go:339-346). -/
def Element.search (root : Element) (space loc : Str) : List (List Nat × Element) :=
  root.searchFunc (fun _ el => nameMatches space loc el)

/-! ### Parsing -/

/-- A token of `xml.Decoder.Token`. `other` stands for CharData, Comment, ProcInst and Directive. -/
inductive Tok where
  | start (name : XName) (attrs : List Attr)
  | stop (name : XName)
  | other
deriving DecidableEq

/-- Errors of `Parse`. `fuel` is an artefact of the model (theorem `C08_parse_mirrors` shows that it
does not occur). -/
inductive ParseErr where
  | decoder   -- error of the decoder (end of input included)
  | deep      -- errDeepXML
  | mismatch  -- "Expecting </a>, got </b>"
  | fuel
deriving DecidableEq

/-- `data[begin:end]`. -/
def slice (data : Str) (b e : Nat) : Str := (data.drop b).take (e - b)

/-- The loop of `Element.parse` (xmltree/xmltree.go:261-279) together with the part of `parse`
before it for children (254-260). The decoder is the list of tokens it will still deliver, each
with the value of `InputOffset` after it; the end of the list is a decoder error. Result: the
element, the remaining tokens, and the offset after the end tag. The first argument bounds the
number of steps. -/
def parseLoop (srt : Sorter nsLess) (data : Str) : Nat → Nat → XName → List Attr → Scope →
    List Element → Nat → Nat → List (Tok × Nat) → Except ParseErr (Element × List (Tok × Nat) × Nat)
  | 0, _, _, _, _, _, _, _, _ => .error .fuel
  | _ + 1, _, _, _, _, _, _, _, [] => .error .decoder
  | f + 1, depth, name, attrs, sc, kids, b, e, (t, off) :: rest =>
    match t with
    | .start n as =>
      if depth + 1 > recursionLimit then .error .deep
      else
        let (sc', as') := pushNS srt sc as
        match parseLoop srt data f (depth + 1) n as' sc' [] off off rest with
        | .error err => .error err
        | .ok (child, rest', off') =>
          parseLoop srt data f depth name attrs sc (kids ++ [child]) b off' rest'
    | .stop n =>
      if n ≠ name then .error .mismatch
      else .ok (.mk name attrs sc (slice data b e) kids, rest, off)
    | .other => parseLoop srt data f depth name attrs sc kids b off rest

/-- The loop of `Parse` that looks for the root (xmltree/xmltree.go:238-243). -/
def findRoot : List (Tok × Nat) → Option (XName × List Attr × Nat × List (Tok × Nat))
  | [] => none
  | (.start n as, off) :: rest => some (n, as, off, rest)
  | (_, _) :: rest => findRoot rest

/-- `Parse` (xmltree/xmltree.go:208-251) for UTF-8 input, over the decoder's tokens. -/
def parseDoc (srt : Sorter nsLess) (data : Str) (toks : List (Tok × Nat)) : Except ParseErr Element :=
  match findRoot toks with
  | none => .error .decoder
  | some (n, as, off, rest) =>
    let (sc, as') := pushNS srt [] as
    match parseLoop srt data (rest.length + 1) 0 n as' sc [] off off rest with
    | .error err => .error err
    | .ok (el, _, _) => .ok el

end GoXml
