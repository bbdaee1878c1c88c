import Verif.Model.XsdgenSpec
set_option autoImplicit false

/-! Model of the options for SOAP arrays (`xsdgen/config.go:500-592` and `738-866`). -/

namespace GoXml.Xsdgen
open Xsd

/-- xsdgen/config.go:502 -/
def wsdlNS : Str := b!"http://schemas.xmlsoap.org/wsdl/"

/-- The inner loop of `parseSOAPArrayType` (xsdgen/config.go:515-521): the name of the item type, empty if
there is no `wsdl:arrayType`. -/
def itemTypeName (sc : Scope) : List Attr → XName
  | [] => ⟨[], []⟩
  | a :: as => if a.name ≠ ⟨wsdlNS, b!"arrayType"⟩ then itemTypeName sc as else resolve sc a.value

/-- The outer loop (xsdgen/config.go:510-523): the attributes collected in `attr`, and the item type. -/
def arrayAttrs : List XAttr → List XAttr × XName
  | [] => ([], ⟨[], []⟩)
  | v :: vs =>
    if v.name.loc ≠ b!"arrayType" then (v :: (arrayAttrs vs).1, (arrayAttrs vs).2)
    else ([], itemTypeName v.scope v.attr)

/-- `strings.TrimSuffix(s, "[]")`. -/
def trimBrackets (s : Str) : Str :=
  match s.reverse with
  | 93 :: 91 :: r => r.reverse
  | _ => s

/-- The loop of `overrideWildcardType` (xsdgen/config.go:559-573): the first wildcard element of the type
or of the types it is derived from; `none` if there is none or a type is not complex. -/
def findWildcard (H : THeap) : Nat → Ty → Run (Option XElem)
  | 0, _ => .running
  | n + 1, x => match baseOf H x with
    | none => .ok none
    | some b => match x with
      | .obj id => match H[id]? with
        | some (.complex c) => match c.elements.find? (·.wildcard) with
          | some v => .ok (some v)
          | none => findWildcard H n b
        | _ => .ok none
      | _ => .ok none

/-- `overrideWildcardType` (xsdgen/config.go:555-592) for the type `c` at `id`. -/
def overrideWildcardType (n : Nat) (H : THeap) (id : Nat) (c : ComplexT) (base : Ty) : Run THeap :=
  (findWildcard H n (.obj id)).bind fun found => match found with
    | none => .ok H
    | some v =>
      let elem := { v with type := base }
      let elements := if c.elements.any (·.wildcard) then c.elements.map fun e => if e.wildcard then elem else e
        else c.elements ++ [elem]
      .ok (H.set id (.complex { c with elements := elements }))

/-- `parseSOAPArrayType` (xsdgen/config.go:500-553). `make` panics for a negative capacity (line 545), and
`XMLName` for a nil base (line 541). The types are visited in the order in which they are listed.
Simplification: in Go the copied base shares its array of elements with the original, so that a
later change of a wildcard element of the original also changes the copy. -/
def parseSOAPArrayType (n : Nat) (s : Schema) (t : Option Ty) (H : THeap) : Run (Option Ty × THeap) :=
  match t with
  | some (.obj id) => match H[id]? with
    | some (.complex c) =>
      let r := arrayAttrs c.attributes
      if r.2.loc = [] then .ok (t, H)
      else
        let name : XName := ⟨r.2.space, trimBrackets (trimSpace r.2.loc)⟩
        (match findTypeIn H name n s.types with
          | none => Run.running
          | some none => .ok H
          | some (some b) => overrideWildcardType n H id c b).bind fun H1 =>
        match H1[id]? with
        | some (.complex c) => match c.base with
          | none => .panic
          | some (.obj bid) => match H1[bid]? with
            | some (.complex basep) =>
              if basep.attributes = [] then .panic
              else
                let base : ComplexT := { basep with attributes := basep.attributes.filter fun v => decide (v.name.loc ≠ b!"arrayType") }
                .ok (t, (H1 ++ [TObj.complex base]).set id (.complex { c with base := some (.obj H1.length), attributes := r.1 }))
            | _ => .ok (t, H1)
          | some _ => .ok (t, H1)
        | _ => .ok (t, H1)
    | _ => .ok (t, H)
  | t => .ok (t, H)

/-- `gen.TagKey` (internal/gen/gen.go:420-425) for a field with or without a tag. -/
def tagKey : Option Str → Str → Run Str
  | some _, _ => .ok []
  | none, _ => .panic

/-- What the methods generated by `soapArrayToSlice` contain: the tag of the items that `UnmarshalXML`
reads (`,any` for any), the tag of those that `MarshalXML` writes, their Go type, and the XML type. -/
structure ArrayCodec where
  readTag : XName
  writeTag : XName
  item : GoExpr
  xmlType : XName
deriving DecidableEq, Repr

/-- `strings.Split(tag, ",")[0]`. -/
def beforeComma : Str → Str
  | [] => []
  | c :: cs => if c = 44 then [] else c :: beforeComma cs

/-- The item tag (xsdgen/config.go:772-786). -/
def itemTag (tag : Str) : XName :=
  match (fieldsLoop [] (beforeComma tag)).reverse with
  | [] => ⟨[], b!",any"⟩
  | [l] => ⟨[], l⟩
  | l :: r => ⟨r.getLastD [], l⟩

/-- `soapArrayToSlice` (xsdgen/config.go:738-866): the declaration and what its new methods contain, if
there are any. The fields of generated structs always have a tag (internal/gen/gen.go:75-95).
Simplification: the generated methods always parse. -/
def soapArrayToSlice (H : THeap) (s : Spec) : Run (Spec × Option ArrayCodec) :=
  match s.expr with
  | .struct [f] => match f.type with
    | .array elt => match s.xsdType with
      | .obj id => match H[id]? with
        | some (.complex c) => match c.elements.find? (·.wildcard) with
          | none => .ok (s, none)
          | some el =>
            let baseType := xmlName H el.type
            if baseType.space = [] ∧ baseType.loc = [] then .ok (s, none)
            else (tagKey (some f.tag) b!"xml").bind fun tag =>
              let t := itemTag tag
              .ok ({ s with expr := .plain (.array elt)
                            methods := s.methods ++ [⟨b!"a " ++ s.name, b!"MarshalXML"⟩, ⟨b!"a *" ++ s.name, b!"UnmarshalXML"⟩] },
                some { readTag := t, writeTag := if t.loc = b!",any" then ⟨t.space, b!"item"⟩ else t, item := elt, xmlType := baseType })
        | _ => .ok (s, none)
      | _ => .ok (s, none)
    | _ => .ok (s, none)
  | _ => .ok (s, none)

/-! ### The generated method -/

/-- What `Decoder.Token` delivers inside an array, where an item comes with the result of decoding it
(`none` is an error) and is read to its end by `Skip` and by `DecodeElement`. Simplification: items that are
made of text are read to their end also if they cannot be decoded; of other items `DecodeElement` may
leave the rest to be read as if it belonged to the array. -/
inductive Event (α : Type) where
  | item (name : XName) (value : Option α)
  | other
  | stop

/-- The generated `UnmarshalXML` (xsdgen/config.go:794-831): the items read, and whether it reports an
error. An error of `DecodeElement` in `err` is overwritten by the next call of `Token`. The end of the
list is an error of `Token`. -/
def unmarshalArray {α : Type} (tag : XName) : List α → List (Event α) → List α × Bool
  | a, [] => (a, true)
  | a, .stop :: _ => (a, false)
  | a, .other :: es => unmarshalArray tag a es
  | a, .item name v :: es =>
    if tag.loc ≠ b!",any" ∧ tag ≠ name then unmarshalArray tag a es
    else match v with
      | some x => unmarshalArray tag (a ++ [x]) es
      | none => unmarshalArray tag a es

end GoXml.Xsdgen
