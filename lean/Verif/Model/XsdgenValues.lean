import Verif.Model.XsdgenSpec
set_option autoImplicit false

/-! Model of what generated types do when a program uses them: how encoding/xml reads and writes their values, given the declarations and the
methods `UnmarshalXML` and `MarshalXML` of `genComplexTypeMethods` (xsdgen/xsdgen.go:798-866).

Simplifications: documents are trees, so namespace declarations are not modelled. How text is turned into a value of a Go type and back is a
parameter (`Codec`); it covers types with text methods of their own. Tags are as xsdgen makes them: one key, no escapes, no `>`. That a value of
type `xml.Name` cannot be written as an attribute is not modelled: the attribute is left out. -/

namespace GoXml.Values
open Xsdgen

/-- The content of an XML document. -/
inductive XNode where
  | text (s : Str)
  | elem (name : XName) (attrs : List Attr) (kids : List XNode)

/-- What a field is for: the flags of `fieldInfo` (encoding/xml). -/
inductive Mode where
  | element | attr | chardata | any
deriving DecidableEq, Repr

/-- `fieldInfo` (encoding/xml). -/
structure Info where
  mode : Mode
  name : XName
  optional : Bool
deriving DecidableEq, Repr

/-- `strings.Cut` at a byte. -/
def cutAt (c : UInt8) : Str → Option (Str × Str)
  | [] => none
  | x :: xs => if x = c then some ([], xs) else (cutAt c xs).map fun r => (x :: r.1, r.2)

/-- The value of the key `xml` in a tag (`reflect.StructTag.Get`); values with a backslash are not modelled. -/
def tagValue (tag : Str) : Option Str :=
  if tag.take 5 = b!"xml:\"" then
    match cutAt 34 (tag.drop 5) with
    | some (v, _) => if (92 : UInt8) ∈ v then none else some v
    | none => none
  else none

/-- `strings.Split(s, ",")`. -/
def splitComma : Str → List Str
  | [] => [[]]
  | x :: xs => if x = 44 then [] :: splitComma xs
    else match splitComma xs with
      | y :: ys => (x :: y) :: ys
      | [] => [[x]]

/-- The mode that the flags of a tag ask for. -/
def modeOf (flags : List Str) : Option Mode :=
  let f := flags.filter fun s => s ∈ [b!"attr", b!"chardata", b!"any"]
  if f = [] then some .element
  else if f = [b!"attr"] then some .attr
  else if f = [b!"chardata"] then some .chardata
  else if f = [b!"any"] then some .any
  else none

/-- `structFieldInfo` (encoding/xml) for a field with this name and tag; `none` is an error. -/
def tagInfo (field tag : Str) : Option Info :=
  match tagValue tag with
  | none => none
  | some v =>
    let ns := (cutAt 32 v).getD ([], v)
    match splitComma ns.2 with
    | [] => none
    | name :: flags =>
      match modeOf flags with
      | none => none
      | some mode =>
        let optional := decide (b!"omitempty" ∈ flags)
        if (mode = .chardata ∨ mode = .any) ∧ name ≠ [] then none
        else if mode = .chardata ∧ optional then none
        else if ns.1 ≠ [] ∧ name = [] then none
        else some ⟨mode, ⟨ns.1, if name = [] then field else name⟩, optional⟩

/-- A field as encoding/xml sees it: the index of the field of the generated struct, the Go type used, how deep it is embedded, and whether it is a
pointer. -/
structure Entry where
  idx : Nat
  type : GoExpr
  info : Info
  depth : Nat
  ptr : Bool
deriving DecidableEq, Repr

def Entry.conflicts (a b : Entry) : Bool := decide (a.info.mode = b.info.mode ∧ a.info.name = b.info.name)

/-- `addFieldInfo` (encoding/xml); `none` is an error. -/
def addField (old : List Entry) (e : Entry) : Option (List Entry) :=
  let conf := old.filter e.conflicts
  if conf = [] then some (old ++ [e])
  else if conf.any (fun o => decide (o.depth < e.depth)) then some old
  else if conf.any (fun o => decide (o.depth = e.depth)) then none
  else some (old.filter (fun o => !e.conflicts o) ++ [e])

def addFields : List Entry → List Entry → Option (List Entry)
  | old, [] => some old
  | old, e :: es => (addField old e).bind fun old => addFields old es

/-- The entries for the fields of a struct from number `i` on. Fields that are not exported are skipped. Structs with a field called XMLName, which
has a meaning of its own, are not modelled. -/
def entries (exported : Str → Bool) : Nat → List Field → Option (List Entry)
  | _, [] => some []
  | i, f :: fs =>
    if f.name = b!"XMLName" then none
    else if exported f.name then
      match tagInfo f.name f.tag, entries exported (i + 1) fs with
      | some info, some es => some (⟨i, f.type, info, 1, false⟩ :: es)
      | _, _ => none
    else entries exported (i + 1) fs

/-- `getTypeInfo` (encoding/xml) for a generated struct. -/
def layout (exported : Str → Bool) (fs : List Field) : Option (List Entry) := (entries exported 0 fs).bind (addFields [])

/-- The entry for a field of `overlay` or `layout` in the generated methods (xsdgen/xsdgen.go:812-822 and 848-857), a pointer to the field of the
struct, converted. `none` if it does not compile: a pointer converts only if the types it points to are alike, and the struct that is embedded is
called T. A type without special encoding is the type of the field itself. -/
def overrideEntry (fs : List Field) (o : Override) : Option Entry :=
  match fs.findIdx? (fun f => decide (f.name = o.fieldName)), tagInfo o.fieldName o.tag with
  | some i, some info => match fs[i]? with
    | some f =>
      if exprText f.type = o.fromType ∧ o.fieldName ≠ b!"T" then
        some ⟨i, if nonTrivialBuiltin (some o.type) then .ident o.toType else f.type, info, 1, true⟩
      else none
    | none => none
  | _, _ => none

/-- `getTypeInfo` for the local struct of a generated method, in which the generated struct is embedded. -/
def overlay (exported : Str → Bool) (fs : List Field) (os : List Override) : Option (List Entry) :=
  match layout exported fs, os.mapM (overrideEntry fs) with
  | some es, some ps => (addFields [] (es.map fun e => { e with depth := e.depth + 1 })).bind fun old => addFields old ps
  | _, _ => none

/-- How a Go type is read and written. -/
inductive Base where
  | text (type : GoExpr)
  | name
  | struct (name : Str) (fields : List Field)
deriving DecidableEq

/-- Whether the kind of a type is uint8. -/
def isByte (decls : GoMap Str Spec) : GoExpr → Bool
  | .ident s => decide (s = b!"byte") || match decls.get s with
    | some sp => decide (sp.expr = .plain (.ident b!"byte"))
    | none => false
  | .array _ => false

/-- The number of slices around a type, and what is inside. Slices of bytes are text. A named type that is not a struct is text, unless it is a
slice without methods. -/
def shape (decls : GoMap Str Spec) : GoExpr → Nat × Base
  | .ident s => match decls.get s with
    | some sp => match sp.expr with
      | .struct fs => (0, .struct s fs)
      | .plain (.array e) => if sp.methods = [] ∧ isByte decls e = false then (1, .text e) else (0, .text (.ident s))
      | .plain (.ident _) => (0, .text (.ident s))
    | none => (0, if s = b!"xml.Name" then .name else .text (.ident s))
  | .array e => if isByte decls e then (0, .text (.array e)) else ((shape decls e).1 + 1, (shape decls e).2)

/-- A Go value. -/
inductive GoVal (V : Type) where
  | leaf (v : V)
  | name (n : XName)
  | slice (xs : List (GoVal V))
  | struct (vs : List (GoVal V))

/-- Text of the simple Go types: reading it, writing it (`none` if nothing is written, as for zero times, xsdgen/config.go:646-649), which values are
empty (`isEmptyValue` in encoding/xml), and the zero values. -/
structure Codec (V : Type) where
  read : GoExpr → Str → Option V
  write : GoExpr → V → Option Str
  empty : V → Bool
  zero : GoExpr → V

/-- A program with generated code: its declarations, the overrides of each struct, and the standard library. -/
structure Program (V : Type) where
  decls : GoMap Str Spec
  overrides : GoMap Str (List Override)
  exported : Str → Bool
  codec : Codec V

variable {V : Type}

/-- What `UnmarshalXML`, if there is one, or encoding/xml itself reads a struct with. The method does not compile if the struct is called T, as it
declares a type of this name with itself as the definition (xsdgen/xsdgen.go:811). -/
def Program.reading (p : Program V) (name : Str) (fs : List Field) : Option (List Entry) :=
  match (p.overrides.get name).getD [] with
  | [] => layout p.exported fs
  | o :: os => if name = b!"T" then none else overlay p.exported fs (o :: os)

/-- What `MarshalXML`, if there is one and the value is addressable, or encoding/xml itself writes a struct with. The receiver of the method is a
pointer. -/
def Program.writing (p : Program V) (addressable : Bool) (name : Str) (fs : List Field) : Option (List Entry) :=
  match ((p.overrides.get name).getD []).filter fun o => nonTrivialBuiltin (some o.type) with
  | [] => layout p.exported fs
  | o :: os => if name = b!"T" then none else if addressable then overlay p.exported fs (o :: os) else layout p.exported fs

/-- The zero value of a type, for structs nested at most `n` deep. -/
def Program.zero (p : Program V) : Nat → GoExpr → Option (GoVal V)
  | 0, _ => none
  | n + 1, e => match shape p.decls e with
    | (_ + 1, _) => some (.slice [])
    | (0, .text t) => some (.leaf (p.codec.zero t))
    | (0, .name) => some (.name ⟨[], []⟩)
    | (0, .struct _ fs) => (fs.mapM fun f => p.zero n f.type).map .struct

/-- `n` slices around a value. -/
def nest : Nat → GoVal V → GoVal V
  | 0, v => v
  | n + 1, v => .slice [nest n v]

/-- What becomes of a field when a value is read for it: it is replaced, or appended to a slice. -/
def store : Nat → GoVal V → GoVal V → Option (GoVal V)
  | 0, _, v => some v
  | n + 1, .slice xs, v => some (.slice (xs ++ [nest n v]))
  | _ + 1, _, _ => none

/-- The text in an element, without that of elements inside it. -/
def textIn : List XNode → Str
  | [] => []
  | .text s :: ks => s ++ textIn ks
  | .elem _ _ _ :: ks => textIn ks

def nameMatches (field n : XName) : Bool := decide (field.loc = n.loc) && (decide (field.space = []) || decide (field.space = n.space))

/-- The field for an element: the first with this name (`unmarshalPath` in encoding/xml), or else the one for any. -/
def entryFor (es : List Entry) (n : XName) : Option Entry :=
  match es.find? fun e => (decide (e.info.mode = .element) || decide (e.info.mode = .any)) && nameMatches e.info.name n with
  | some e => some e
  | none => es.find? fun e => decide (e.info.mode = .any)

/-- Reading of text into a field (`unmarshalAttr` and the end of `unmarshal` in encoding/xml). -/
def Program.readText (p : Program V) (e : GoExpr) (old : GoVal V) (s : Str) : Option (GoVal V) :=
  match shape p.decls e with
  | (n, .text t) => (p.codec.read t s).bind fun v => store n old (.leaf v)
  | _ => none

/-- The loop over the fields for one attribute. -/
def Program.readAttr (p : Program V) (a : Attr) : List Entry → List (GoVal V) → Option (List (GoVal V))
  | [], vs => some vs
  | e :: es, vs =>
    if e.info.mode = .attr ∧ nameMatches e.info.name a.name then
      match vs[e.idx]? with
      | some old => (p.readText e.type old a.value).bind fun v => p.readAttr a es (vs.set e.idx v)
      | none => none
    else p.readAttr a es vs

def Program.readAttrs (p : Program V) (es : List Entry) : List Attr → List (GoVal V) → Option (List (GoVal V))
  | [], vs => some vs
  | a :: as, vs => (p.readAttr a es vs).bind (p.readAttrs es as)

/-- The text of the element goes to the first field for it, which cannot be a slice other than of bytes. -/
def Program.readData (p : Program V) (es : List Entry) (s : Str) (vs : List (GoVal V)) : Option (List (GoVal V)) :=
  match es.find? fun e => decide (e.info.mode = .chardata) with
  | none => some vs
  | some e => match vs[e.idx]? with
    | some old => if (shape p.decls e.type).1 = 0 then (p.readText e.type old s).map fun v => vs.set e.idx v else none
    | none => none

mutual
/-- `Decoder.unmarshal` (encoding/xml) into a value of the type `e`, which is `old` so far; `n` is for zero values. -/
def Program.decode (p : Program V) (n : Nat) (e : GoExpr) (old : GoVal V) : XNode → Option (GoVal V)
  | .text _ => none
  | .elem name attrs kids => match shape p.decls e with
    | (k, .text t) => (p.codec.read t (textIn kids)).bind fun v => store k old (.leaf v)
    | (k, .name) => store k old (.name name)
    | (k, .struct s fs) =>
      match p.reading s fs, if k = 0 then some old else p.zero n (.ident s) with
      | some es, some (.struct vs) => ((p.readAttrs es attrs vs).bind fun vs => (p.decodeKids n es vs kids).bind fun vs =>
          p.readData es (textIn kids) vs).bind fun vs => store k old (.struct vs)
      | _, _ => none
def Program.decodeKids (p : Program V) (n : Nat) (es : List Entry) (vs : List (GoVal V)) : List XNode → Option (List (GoVal V))
  | [] => some vs
  | .text _ :: ks => p.decodeKids n es vs ks
  | .elem name attrs kids :: ks => match entryFor es name with
    | none => p.decodeKids n es vs ks
    | some e => match vs[e.idx]? with
      | none => none
      | some old => match p.decode n e.type old (.elem name attrs kids) with
        | none => none
        | some v => p.decodeKids n es (vs.set e.idx v) ks
end

/-- `isEmptyValue` (encoding/xml). -/
def Program.isEmpty (p : Program V) : GoVal V → Bool
  | .leaf v => p.codec.empty v
  | .name _ => false
  | .slice xs => xs.isEmpty
  | .struct _ => false

/-- Text as the content of an element. -/
def textKids (s : Str) : List XNode := if s = [] then [] else [.text s]

/-- What is inside slices. -/
def GoVal.leaves : GoVal V → List V
  | .leaf v => [v]
  | .name _ => []
  | .slice xs => go xs
  | .struct _ => []
where go : List (GoVal V) → List V
  | [] => []
  | x :: xs => x.leaves ++ go xs

/-- The type inside slices, for text. -/
def textType (decls : GoMap Str Spec) (e : GoExpr) : GoExpr :=
  match shape decls e with
  | (_, .text t) => t
  | _ => e

/-- The attributes for a field (`marshalAttr` in encoding/xml). -/
def Program.writeAttrs (p : Program V) (vs : List (GoVal V)) (e : Entry) : List Attr :=
  if e.info.mode = .attr then
    match vs[e.idx]? with
    | none => []
    | some v => if e.info.optional && !e.ptr && p.isEmpty v then []
      else v.leaves.filterMap fun l => (p.codec.write (textType p.decls e.type) l).map fun s => ⟨e.info.name, s⟩
  else []

mutual
/-- `printer.marshalValue` (encoding/xml) for a field; `skip` is whether empty values are left out. -/
def Program.encode (p : Program V) (addressable : Bool) (name : XName) (skip : Bool) (e : GoExpr) : GoVal V → List XNode
  | .leaf v => if skip && p.codec.empty v then []
    else match p.codec.write (textType p.decls e) v with
      | some s => [.elem name [] (textKids s)]
      | none => []
  | .name n => [.elem name [] [.elem ⟨[], b!"Space"⟩ [] (textKids n.space), .elem ⟨[], b!"Local"⟩ [] (textKids n.loc)]]
  | .slice xs => p.encodeSlice name skip e xs
  | .struct vs => match shape p.decls e with
    | (_, .struct s fs) => match p.writing addressable s fs with
      | some es =>
        let outs := p.encodeFields addressable es 0 vs
        [.elem name (es.flatMap (p.writeAttrs vs)) (es.flatMap fun e => (outs[e.idx]?).getD [])]
      | none => []
    | _ => []
/-- The items of a slice, which are addressable. Each is left out if it is empty and the tag says omitempty. -/
def Program.encodeSlice (p : Program V) (name : XName) (skip : Bool) (e : GoExpr) : List (GoVal V) → List XNode
  | [] => []
  | x :: xs => p.encode true name skip e x ++ p.encodeSlice name skip e xs
/-- What is written for each field of a struct (`marshalStruct` in encoding/xml), from number `i` on. -/
def Program.encodeFields (p : Program V) (addressable : Bool) (es : List Entry) (i : Nat) : List (GoVal V) → List (List XNode)
  | [] => []
  | v :: vs =>
    (match es.find? fun e => decide (e.idx = i) with
    | none => []
    | some e => match e.info.mode with
      | .attr => []
      | .chardata => match v.leaves with
        | l :: _ => ((p.codec.write (textType p.decls e.type) l).map textKids).getD []
        | [] => []
      | _ => p.encode (addressable || e.ptr) e.info.name (e.info.optional && !e.ptr) e.type v) :: p.encodeFields addressable es (i + 1) vs
end

end GoXml.Values
