import Verif.Model.XmlTree
set_option autoImplicit false

/-! Model of `xmltree/marshal.go`. -/

namespace GoXml

/-- The loop of `diffScope` (xmltree/marshal.go:125-132). -/
def dropCommon : Scope → Scope → Scope
  | _, [] => []
  | [], c => c
  | p :: ps, c :: cs => if c = p then dropCommon ps cs else c :: cs

/-- `diffScope` (xmltree/marshal.go:119-134); `none` is the nil parent. -/
def diffScope (parent : Option Scope) (child : Scope) : Scope :=
  match parent with
  | none => child
  | some p => dropCommon p child

/-- `{{range .StartElement.Attr}} {{$.Scope.Prefix .Name -}}="{{.Value}}"{{end -}}`
(xmltree/marshal.go:17). -/
def attrsText (sc : Scope) : List Attr → Str
  | [] => []
  | a :: as => b!" " ++ prefixOf sc a.name ++ b!"=\"" ++ a.value ++ b!"\"" ++ attrsText sc as

/-- `{{range .NS }} xmlns{{ if .Local }}:{{ .Local }}{{end}}="{{ .Space }}"{{end -}}`
(xmltree/marshal.go:18). -/
def nsText : List XName → Str
  | [] => []
  | d :: ds =>
    b!" xmlns" ++ (if d.loc = [] then [] else b!":" ++ d.loc) ++ b!"=\"" ++ d.space ++ b!"\"" ++ nsText ds

/-- Template "start" (xmltree/marshal.go:15-20). -/
def startText (name : XName) (attrs : List Attr) (sc : Scope) (content : Str) (kids : List Element)
    (ns : List XName) : Str :=
  b!"<" ++ prefixOf sc name ++ attrsText sc attrs ++ nsText ns ++
    (if kids.isEmpty && content.isEmpty then b!" />" else b!">")

/-- Template "end" (xmltree/marshal.go:22-23). -/
def endText (name : XName) (sc : Scope) : Str := b!"</" ++ prefixOf sc name ++ b!">"

/-- `n` copies of `s`. -/
def repeatStr (s : Str) : Nat → Str
  | 0 => []
  | n + 1 => s ++ repeatStr s n

/-- `encoder` (xmltree/marshal.go:72-76). The field `prefix` is never read. -/
structure Encoder where
  pre : Str
  indent : Str
  pretty : Bool

/-- `encoder.encodeOpenTag` (xmltree/marshal.go:136-155). -/
def encodeOpenTag (e : Encoder) (name : XName) (attrs : List Attr) (sc : Scope) (content : Str)
    (kids : List Element) (ns : Scope) (depth : Nat) : Str :=
  (if e.pretty then repeatStr e.indent depth else []) ++
  startText name attrs sc content kids ns ++
  (if e.pretty then (if !kids.isEmpty || content.isEmpty then b!"\n" else []) else [])

/-- `encoder.encodeCloseTag` (xmltree/marshal.go:157-172). -/
def encodeCloseTag (e : Encoder) (name : XName) (sc : Scope) (kids : List Element) (depth : Nat) : Str :=
  (if e.pretty then (if !kids.isEmpty then repeatStr e.indent depth else []) else []) ++
  endText name sc ++
  (if e.pretty then b!"\n" else [])

mutual
/-- `encoder.encode` (xmltree/marshal.go:83-115) on a tree value. In a tree no element contains
itself, so the number of entries in `visited` is the depth; cyclic structures are modelled in
`Model/Cycle.lean`. Writing cannot fail. -/
def encodeEl (e : Encoder) (parent : Option Scope) (depth : Nat) : Element → Str
  | .mk name attrs sc content kids =>
    if depth > recursionLimit then []
    else
      encodeOpenTag e name attrs sc content kids (diffScope parent sc) depth ++
      (if kids.isEmpty then
        (if content.isEmpty then [] else content ++ encodeCloseTag e name sc kids depth)
      else encodeKids e sc (depth + 1) kids ++ encodeCloseTag e name sc kids depth)
/-- The loop over the children (xmltree/marshal.go:104-110). -/
def encodeKids (e : Encoder) (parent : Scope) (depth : Nat) : List Element → Str
  | [] => []
  | c :: cs => encodeEl e (some parent) depth c ++ encodeKids e parent depth cs
end

/-- `Marshal` (xmltree/marshal.go:32-39), `Encode` (61-64) and `String` (68-70). -/
def marshal (el : Element) : Str := encodeEl ⟨[], [], false⟩ none 0 el

/-- `MarshalIndent` (xmltree/marshal.go:45-57). -/
def marshalIndent (el : Element) (pre indent : Str) : Str := encodeEl ⟨pre, indent, true⟩ none 0 el

end GoXml
