import Verif.Model.XsdTypes
import Verif.Model.XsdTree
import Verif.Model.Wsdl
set_option autoImplicit false

/-! Model of the second half of `xsd/parse.go`: from normalized trees to types. A call of `stop`, which
ends in an error from `Parse`, is `none`. -/

namespace GoXml.Xsd
open Wsdl (searchEl)

/-- What is left open: decoding of annotations (xsd/xsd.go:252-290, modelled in `Model/XsdAnnotation.lean`), `regexp.Compile` (an error
message if it fails), `strconv.ParseFloat` and `time.Parse` in the two formats used. -/
structure ParseEnv where
  annotation : Element → Option Str
  compileError : Str → Option Str
  isFloat : Str → Bool
  isDate : Str → Bool
  isDateTime : Str → Bool

/-- `annotation.append` (xsd/xsd.go:244-249). -/
def docAppend (a extra : Str) : Str := if a ≠ [] then a ++ b!"\n\n" ++ extra else extra

/-- `walk` (xsd/walk.go:34-53), for a function that updates variables outside. -/
def walkFold {σ : Type} (f : σ → Element → Option σ) : σ → List Element → Option σ
  | s, [] => some s
  | s, e :: es =>
    if e.name.space ≠ schemaNS then walkFold f s es
    else match f s e with
      | none => none
      | some s' => walkFold f s' es

/-- Applies a function that may call `stop` to each element of a list. -/
def mapOpt {α β : Type} (f : α → Option β) : List α → Option (List β)
  | [] => some []
  | x :: xs => match f x, mapOpt f xs with
    | some y, some ys => some (y :: ys)
    | _, _ => none

/-! ### Numbers and booleans -/

/-- The value of a string of digits, or `none` if there is another byte. -/
def digitsVal : Nat → Str → Option Nat
  | acc, [] => some acc
  | acc, c :: cs => if 48 ≤ c ∧ c ≤ 57 then digitsVal (acc * 10 + (c.toNat - 48)) cs else none

/-- `strconv.Atoi` for a 64 bit `int`. -/
def atoi (s : Str) : Option Int :=
  let neg := decide (s.head? = some 45)
  let ds := if s.head? = some 45 ∨ s.head? = some 43 then s.tail else s
  if ds = [] then none
  else match digitsVal 0 ds with
    | none => none
    | some n =>
      if neg then (if n ≤ 9223372036854775808 then some (-(n : Int)) else none)
      else if n ≤ 9223372036854775807 then some (n : Int) else none

/-- `parseInt` (xsd/parse.go:755-768). -/
def parseInt (s : Str) : Option Int :=
  if trimSpace s = [] then some 0
  else if trimSpace s = b!"unbounded" then some (-1)
  else atoi (trimSpace s)

/-- `parseBool` (xsd/parse.go:784-793). -/
def parseBool (s : Str) : Option Bool :=
  if s = [] ∨ s = b!"0" ∨ s = b!"false" then some false
  else if s = b!"1" ∨ s = b!"true" then some true
  else none

/-- `parseDecimal` (xsd/parse.go:771-782); the number is kept as its text. -/
def parseDecimal (env : ParseEnv) (s : Str) : Option Str :=
  if trimSpace s = [] then some []
  else if env.isFloat (trimSpace s) then some (trimSpace s) else none

/-- `parsePlural` (xsd/parse.go:795-802). -/
def parsePlural (el : Element) : Option Bool :=
  match parseInt (el.attr [] b!"minOccurs") with
  | none => none
  | some min =>
    if min > 1 then some true
    else match parseInt (el.attr [] b!"maxOccurs") with
      | none => none
      | some max => some (decide (max < 0 ∨ max > 1))

/-! ### Elements and attributes -/

/-- `parseType` (xsd/parse.go:178-184). -/
def parseType (n : XName) : Ty :=
  match parseBuiltin n with
  | some b => .builtin b
  | none => .link n

/-- The loop that collects annotations (xsd/parse.go:837-841 and 865-869). -/
def childDocs (env : ParseEnv) (el : Element) : Option Str :=
  walkFold (fun doc c =>
    if c.name.loc = b!"annotation" then (env.annotation c).map (docAppend doc) else some doc) [] el.children

/-- `parseAnyElement` (xsd/parse.go:804-815). -/
def parseAnyElement (el : Element) : Option XElem :=
  match parsePlural el with
  | none => none
  | some p => some
      { plural := p, wildcard := true
        type := if el.attr [] b!"type" ≠ [] then parseType (resolve el.scope (el.attr [] b!"type")) else .builtin AnyType }

/-- The field `Optional` of an element (xsd/parse.go:831-836). -/
def parseOptional (el : Element) : Option Bool :=
  if el.attr [] b!"minOccurs" ≠ [] then
    match parseInt (el.attr [] b!"minOccurs") with
    | none => none
    | some n => some (decide (n = 0) || decide (el.attr [] b!"default" ≠ []))
  else some (decide (el.attr [] b!"default" ≠ []))

/-- `parseElement` (xsd/parse.go:817-848). -/
def parseElement (env : ParseEnv) (ns : Str) (el : Element) : Option XElem :=
  match parseBool (el.attr [] b!"abstract"), parseBool (el.attr [] b!"nillable"), parsePlural el, parseOptional el,
      childDocs env el with
  | some abs, some nil, some pl, some opt, some doc =>
    let type := if el.attr [] b!"type" = [] then Ty.builtin AnyType else parseType (resolve el.scope (el.attr [] b!"type"))
    let name := resolveDefault el.scope (el.attr [] b!"name") ns
    some
      { doc := doc
        name := match type with
          | .link n => ⟨n.space, name.loc⟩
          | _ => name
        type := type, abstract := abs, plural := pl, optional := opt, nillable := nil
        dflt := el.attr [] b!"default", attr := el.attrs, scope := el.scope }
  | _, _, _, _, _ => none

/-- `parseAttribute` (xsd/parse.go:850-875). -/
def parseAttribute (env : ParseEnv) (ns : Str) (el : Element) : Option XAttr :=
  match childDocs env el with
  | none => none
  | some doc =>
    let name := el.attr [] b!"name"
    some
      { name := ⟨ns, if colon ∈ name then (resolve el.scope name).loc else name⟩
        doc := doc
        type := parseType (resolve el.scope (el.attr [] b!"type"))
        dflt := el.attr [] b!"default"
        optional := decide (el.attr [] b!"use" ≠ b!"required")
        attr := el.attrs, scope := el.scope }

/-- `joinElem` (xsd/parse.go:738-753). -/
def joinElem (a b : XElem) : XElem :=
  { a with
    doc := (if a.doc ≠ [] then a.doc ++ b!"\n" else a.doc) ++ b.doc
    abstract := a.abstract && b.abstract
    plural := a.plural || b.plural
    optional := a.optional || b.optional
    nillable := a.nillable || b.nillable
    dflt := if a.dflt ≠ b.dflt then [] else a.dflt }

/-! ### Complex types -/

/-- The loop over element declarations (xsd/parse.go:714-722); `used` is `usedElt`. -/
def elementLoop (env : ParseEnv) (ns : Str) (used : GoMap XName Nat) (elements : List XElem) :
    List Element → Option (List XElem)
  | [] => some elements
  | v :: vs => match parseElement env ns v with
    | none => none
    | some elt => match used.get elt.name with
      | none => elementLoop env ns (used.set elt.name elements.length) (elements ++ [elt]) vs
      | some i => elementLoop env ns used (elements.modify i (joinElem · elt)) vs

/-- The first wildcard (xsd/parse.go:708-711). -/
def parseAny : List Element → Option (List XElem)
  | [] => some []
  | v :: _ => (parseAnyElement v).map fun e => [e]

/-- The case of an extension or restriction in `parseComplexContent` (xsd/parse.go:703-726). -/
def complexDerivation (env : ParseEnv) (ns : Str) (ext : Bool) (t : ComplexT) (el : Element) : Option ComplexT :=
  match parseAny (searchEl el schemaNS b!"any") with
  | none => none
  | some any => match elementLoop env ns [] (t.elements ++ any) (searchEl el schemaNS b!"element") with
    | none => none
    | some elements => match mapOpt (parseAttribute env ns) (searchEl el schemaNS b!"attribute") with
      | none => none
      | some attrs => some
          { t with
            extends_ := t.extends_ || ext
            base := some (parseType (resolve el.scope (el.attr [] b!"base")))
            elements := elements, attributes := t.attributes ++ attrs }

/-- `parseComplexContent` (xsd/parse.go:697-736). -/
def parseComplexContent (env : ParseEnv) (ns : Str) (t : ComplexT) (root : Element) : Option ComplexT :=
  match (if root.attr [] b!"mixed" ≠ [] then parseBool (root.attr [] b!"mixed") else some t.mixed) with
  | none => none
  | some mixed =>
    (walkFold (fun (s : ComplexT × Str) el =>
        if el.name.loc = b!"extension" then (complexDerivation env ns true s.1 el).map (·, s.2)
        else if el.name.loc = b!"restriction" then (complexDerivation env ns false s.1 el).map (·, s.2)
        else if el.name.loc = b!"annotation" then (env.annotation el).map fun d => (s.1, docAppend s.2 d)
        else none) ({ t with mixed := mixed }, []) root.children).map
      fun s => { s.1 with doc := s.1.doc ++ s.2 }

/-- `parseSimpleContent` (xsd/parse.go:674-693). -/
def parseSimpleContent (env : ParseEnv) (ns : Str) (t : ComplexT) (root : Element) : Option ComplexT :=
  (walkFold (fun (s : ComplexT × Str) el =>
      if el.name.loc = b!"annotation" then (env.annotation el).map fun d => (s.1, docAppend s.2 d)
      else if el.name.loc = b!"restriction" then
        some ({ s.1 with base := some (parseType (resolve el.scope (el.attr [] b!"base"))) }, s.2)
      else if el.name.loc = b!"extension" then
        (mapOpt (parseAttribute env ns) (searchEl el schemaNS b!"attribute")).map fun as =>
          ({ s.1 with
             base := some (parseType (resolve el.scope (el.attr [] b!"base")))
             extends_ := true, attributes := s.1.attributes ++ as }, s.2)
      else some s) ({ t with mixed := true }, []) root.children).map
    fun s => { s.1 with doc := s.1.doc ++ s.2 }

/-- `parseComplexType` (xsd/parse.go:646-670). -/
def parseComplexType (env : ParseEnv) (ns : Str) (root : Element) : Option ComplexT :=
  match parseBool (root.attr [] b!"abstract"), parseBool (root.attr [] b!"mixed") with
  | some abs, some mixed =>
    (walkFold (fun (s : ComplexT × Str) el =>
        if el.name.loc = b!"annotation" then (env.annotation el).map fun d => (s.1, docAppend s.2 d)
        else if el.name.loc = b!"simpleContent" then (parseSimpleContent env ns s.1 el).map (·, s.2)
        else if el.name.loc = b!"complexContent" then (parseComplexContent env ns s.1 el).map (·, s.2)
        else none)
      ({ name := resolveDefault root.scope (root.attr [] b!"name") ns, abstract := abs, mixed := mixed
         anonymous := decide (root.attr [] b!"_isAnonymous" = b!"true") }, []) root.children).map
      fun s => { s.1 with doc := s.1.doc ++ s.2 }
  | _, _ => none

/-- The tree that `parseSelfType` (xsd/parse.go:628-643) parses: the top-level elements in a type
`_self` with its shorthand expanded. The root is a `<schema>` element. Simplification: the types nested
inside those elements are taken to be expanded already, as they are after `Normalize`. -/
def selfTree (root : Element) : Element :=
  let elems := root.children.filter fun el => decide (el.name = ⟨schemaNS, b!"element"⟩)
  .mk ⟨root.name.space, b!"complexType"⟩ (attrSet [] b!"name" b!"_self" root.attrs) root.scope []
    [.mk ⟨schemaNS, b!"complexContent"⟩ [] root.scope []
      [.mk ⟨schemaNS, b!"restriction"⟩ [⟨⟨[], b!"base"⟩, prefixOf root.scope (builtinName AnyType)⟩] root.scope [] elems]]

/-! ### Simple types -/

/-- `parseMinMaxRestriction` (xsd/parse.go:967-1005): the date and the number. -/
def parseMinMax (env : ParseEnv) (base : Ty) (el : Element) : Option (Str × Str) :=
  let v := el.attr [] b!"value"
  match base with
  | .builtin b =>
    if b = 16 then (if env.isDate v then some (v, []) else none)
    else if b = 17 then (if env.isDateTime v then some (v, []) else none)
    else (parseDecimal env v).map fun n => ([], n)
  | .link _ =>
    if env.isDate v then some (v, [])
    else if env.isDateTime v then some ([], [])
    else (parseDecimal env v).map fun n => ([], n)
  | .obj _ => (parseDecimal env v).map fun n => ([], n)

/-- The case of a pattern (xsd/parse.go:932-946): the new pattern and documentation. -/
def parsePatternFacet (env : ParseEnv) (old : Option Str) (doc value : Str) : Option Str × Str :=
  let pat := match old with
    | some p => p ++ b!"|" ++ value
    | none => value
  match env.compileError pat with
  | some msg => (none, docAppend doc msg)
  | none => (some pat, doc)

/-- The body of the loop of `parseSimpleRestriction` (xsd/parse.go:920-961). -/
def restrictionStep (env : ParseEnv) (base : Ty) (s : Restriction × Str) (el : Element) : Option (Restriction × Str) :=
  let v := el.attr [] b!"value"
  let k := el.name.loc
  if k = b!"enumeration" then some ({ s.1 with enum := s.1.enum ++ [v] }, s.2)
  else if k = b!"minExclusive" ∨ k = b!"minInclusive" then
    (parseMinMax env base el).map fun d => ({ s.1 with minDate := d.1, min := d.2 }, s.2)
  else if k = b!"maxExclusive" ∨ k = b!"maxInclusive" then
    (parseMinMax env base el).map fun d => ({ s.1 with maxDate := d.1, max := d.2 }, s.2)
  else if k = b!"length" then (parseInt v).map fun n => ({ s.1 with length := n }, s.2)
  else if k = b!"maxLength" then (parseInt v).map fun n => ({ s.1 with maxLength := n }, s.2)
  else if k = b!"minLength" then (parseInt v).map fun n => ({ s.1 with minLength := n }, s.2)
  else if k = b!"pattern" then
    some ({ s.1 with pattern := (parsePatternFacet env s.1.pattern s.2 v).1 }, (parsePatternFacet env s.1.pattern s.2 v).2)
  else if k = b!"fractionDigits" then
    match parseInt v with
    | none => none
    | some n => if n < 0 then none else some ({ s.1 with precision := n }, s.2)
  else if k = b!"annotation" then (env.annotation el).map fun d => (s.1, docAppend s.2 d)
  else if k = b!"totalDigits" then (parseInt v).map fun n => ({ s.1 with totalDigits := n }, s.2)
  else some s

/-- `parseSimpleRestriction` (xsd/parse.go:912-964). -/
def parseSimpleRestriction (env : ParseEnv) (base : Ty) (root : Element) : Option Restriction :=
  (walkFold (restrictionStep env base) ({}, []) root.children).map fun s => { s.1 with doc := s.2 }

/-- `strings.Fields` for ASCII white space; `cur` is the word being read, reversed. -/
def fieldsLoop (cur : Str) : Str → List Str
  | [] => if cur = [] then [] else [cur.reverse]
  | c :: cs =>
    if isSpace c then (if cur = [] then fieldsLoop [] cs else cur.reverse :: fieldsLoop [] cs)
    else fieldsLoop (c :: cur) cs

def fields (s : Str) : List Str := fieldsLoop [] s

/-- The body of the loop of `parseSimpleType` (xsd/parse.go:883-900). -/
def simpleStep (env : ParseEnv) (s : SimpleT × Str) (el : Element) : Option (SimpleT × Str) :=
  if el.name.loc = b!"restriction" then
    let base := parseType (resolve el.scope (el.attr [] b!"base"))
    (parseSimpleRestriction env base el).map fun r => ({ s.1 with base := some base, restriction := r }, s.2)
  else if el.name.loc = b!"list" then
    some ({ s.1 with base := some (parseType (resolve el.scope (el.attr [] b!"itemType"))), list := true }, s.2)
  else if el.name.loc = b!"union" then
    let ts := (fields (el.attr [] b!"memberTypes")).map fun n => parseType (resolve el.scope n)
    some ({ s.1 with
            union := s.1.union ++ ts
            base := if ts = [] then s.1.base else some (.builtin AnySimpleType) }, s.2)
  else if el.name.loc = b!"annotation" then (env.annotation el).map fun d => (s.1, docAppend s.2 d)
  else some s

/-- `parseSimpleType` (xsd/parse.go:877-903). -/
def parseSimpleType (env : ParseEnv) (ns : Str) (root : Element) : Option SimpleT :=
  (walkFold (simpleStep env)
    ({ name := resolveDefault root.scope (root.attr [] b!"name") ns
       anonymous := decide (root.attr [] b!"_isAnonymous" = b!"true") }, []) root.children).map
    fun s => { s.1 with doc := s.2 }

/-! ### Schemas -/

/-- One of the loops of `parseTypes` (xsd/parse.go:616-623): allocates the type of each element and
enters it under its name. -/
def allocLoop (f : Element → Option TObj) (m : GoMap XName Ty) (H : THeap) : List Element → Option (GoMap XName Ty × THeap)
  | [] => some (m, H)
  | el :: els => match f el with
    | none => none
    | some o => allocLoop f (m.set o.name (.obj H.length)) (H ++ [o]) els

/-- `parseTypes` (xsd/parse.go:612-626). -/
def parseTypes (env : ParseEnv) (root : Element) (H : THeap) : Option (Schema × THeap) :=
  let tns := root.attr [] b!"targetNamespace"
  match allocLoop (fun el => (parseComplexType env tns el).map .complex) [] H (searchEl root schemaNS b!"complexType") with
  | none => none
  | some (m, H) =>
    match allocLoop (fun el => (parseSimpleType env tns el).map .simple) m H (searchEl root schemaNS b!"simpleType") with
    | none => none
    | some (m, H) =>
      match parseComplexType env tns (selfTree root) with
      | none => none
      | some self => some (⟨tns, m.set ⟨tns, b!"_self"⟩ (.obj H.length)⟩, H ++ [.complex self])

/-- The first loop of `Parse` (xsd/parse.go:147-154). -/
def parseRoots (env : ParseEnv) (parsed : GoMap Str Schema) (H : THeap) : List Element → Option (GoMap Str Schema × THeap)
  | [] => some (parsed, H)
  | r :: rs => match parseTypes env r H with
    | none => none
    | some (s, H) => parseRoots env (parsed.set (r.attr [] b!"targetNamespace") s) H rs

/-! ### Resolving links -/

/-- `lookupType` (xsd/parse.go:1100-1109). -/
def lookupType (own ext : GoMap XName Ty) (n : XName) : Option Ty :=
  match parseBuiltin n with
  | some b => some (.builtin b)
  | none => match ext.get n with
    | some t => some t
    | none => own.get n

/-- What happens to one type: a link is looked up. -/
def resolveTy (lk : XName → Option Ty) : Ty → Option Ty
  | .link n => lk n
  | t => some t

def resolveBase (lk : XName → Option Ty) : Option Ty → Option (Option Ty)
  | none => some none
  | some t => (resolveTy lk t).map some

/-- The body of the loop of `resolvePartialTypes` (xsd/parse.go:1023-1096), for what the pointer points to. -/
def resolveObj (lk : XName → Option Ty) : TObj → Option TObj
  | .complex c =>
    match resolveBase lk c.base, mapOpt (fun e : XElem => (resolveTy lk e.type).map fun t => { e with type := t }) c.elements,
        mapOpt (fun a : XAttr => (resolveTy lk a.type).map fun t => { a with type := t }) c.attributes with
    | some b, some es, some as => some (.complex { c with base := b, elements := es, attributes := as })
    | _, _, _ => none
  | .simple s =>
    match resolveBase lk s.base, mapOpt (resolveTy lk) s.union with
    | some b, some us => some (.simple { s with base := b, union := us })
    | _, _ => none

/-- `resolvePartialTypes` (xsd/parse.go:1018-1098), for the types in the order in which the map is
visited. The lookups do not depend on what the pointers point to. A link among the values of the map,
which makes the code panic, cannot occur; here it is an error. -/
def resolveTypes (lk : XName → Option Ty) (H : THeap) : List Ty → Option THeap
  | [] => some H
  | .builtin _ :: ts => resolveTypes lk H ts
  | .link _ :: _ => none
  | .obj id :: ts => match H[id]? with
    | none => none
    | some o => match resolveObj lk o with
      | none => none
      | some o' => resolveTypes lk (H.set id o') ts

/-- `addElementTypeAliases` (xsd/parse.go:503-523), for the children of the root. -/
def addAliases (tns : Str) (ext : GoMap XName Ty) (types : GoMap XName Ty) : List Element → Option (GoMap XName Ty)
  | [] => some types
  | el :: els =>
    if el.name ≠ ⟨schemaNS, b!"element"⟩ then addAliases tns ext types els
    else
      let name := resolveDefault el.scope (el.attr [] b!"name") tns
      let ref := resolve el.scope (el.attr [] b!"type")
      if ref.loc = [] ∨ name.loc = [] then addAliases tns ext types els
      else match types.get name with
        | some _ => addAliases tns ext types els
        | none => match lookupType types ext ref with
          | none => none
          | some t => addAliases tns ext (types.set name t) els

/-! ### Mixed content -/

/-- What the switch of `propagateMixedAttr` (xsd/parse.go:556-573) does to a complex type that is not
mixed yet, given its base; `none` is the panic. -/
def mixStep (H : THeap) (c : ComplexT) (b : Ty) : Option ComplexT :=
  match b with
  | .builtin b => some (if b = AnyType then { c with mixed := c.mixed || c.extends_ } else c)
  | .obj id => match H[id]? with
    | some (.complex bc) => some (if c.extends_ then { c with mixed := bc.mixed } else c)
    | some (.simple _) => some { c with mixed := true }
    | none => none
  | .link _ => none

/-- `propagateMixedAttr(t, b, depth)` (xsd/parse.go:547-574) where `fuel` is `maxDepth + 1 - depth`.
`none` is a panic. -/
def propagateMixed : Nat → THeap → Ty → Option Ty → Option THeap
  | 0, H, _, _ => some H
  | _ + 1, H, _, none => some H
  | fuel + 1, H, t, some b =>
    match propagateMixed fuel H b (baseOf H b) with
    | none => none
    | some H => match t with
      | .obj id => match H[id]? with
        | some (.complex c) =>
          if c.mixed then some H else (mixStep H c b).map fun c' => H.set id (.complex c')
        | _ => some H
      | _ => some H

/-- The method `propagateMixedAttr` (xsd/parse.go:541-545), for the types in the order in which the
map is visited. -/
def propagateAll (H : THeap) : List Ty → Option THeap
  | [] => some H
  | t :: ts => match propagateMixed 1001 H t (baseOf H t) with
    | none => none
    | some H => propagateAll H ts

/-! ### Parse -/

/-- The orders in which maps are visited: `run i j` for the `j`th time at place `i`. -/
structure MapOrder where
  run : Nat → Nat → {α : Type} → List α → List α
  perm : ∀ (i j : Nat) {α : Type} (l : List α), (run i j l).Perm l

/-- The loop `for _, t := range s.Types` (xsd/parse.go:157-159). -/
def collectTypes (H : THeap) (m : GoMap XName Ty) : List Ty → GoMap XName Ty
  | [] => m
  | t :: ts => collectTypes H (m.set (xmlName H t) t) ts

/-- The loop over all schemas (xsd/parse.go:156-160). -/
def collectAll (ord : MapOrder) (H : THeap) (m : GoMap XName Ty) (j : Nat) : List Schema → GoMap XName Ty
  | [] => m
  | s :: ss => collectAll ord H (collectTypes H m (ord.run 1 j (s.types.map (·.2)))) (j + 1) ss

/-- How a call ends. -/
inductive Outcome (α : Type) where
  | ok (a : α)
  | error
  | panic

/-- The second loop of `Parse` (xsd/parse.go:162-173). Maps are references, so what is added to
`s.Types` is seen wherever the schema is used. -/
def finishRoots (ord : MapOrder) (ext : GoMap XName Ty) (parsed : GoMap Str Schema) (H : THeap) (j : Nat) :
    List Element → Outcome (GoMap Str Schema × THeap)
  | [] => .ok (parsed, H)
  | r :: rs =>
    let tns := r.attr [] b!"targetNamespace"
    let s := (parsed.get tns).getD {}
    match resolveTypes (lookupType s.types ext) H (ord.run 2 j (s.types.map (·.2))) with
    | none => .error
    | some H => match addAliases s.targetNS ext s.types r.children with
      | none => .error
      | some types => match propagateAll H (ord.run 3 j (types.map (·.2))) with
        | none => .panic
        | some H => finishRoots ord ext (parsed.set tns { s with types := types }) H (j + 1) rs

/-- The schema of the built-in types, which `Parse` appends (xsd/parse.go:174). -/
def builtinSchema : Schema := ⟨schemaNS, builtinSchemaTypes.map fun e => (e.1, .builtin e.2)⟩

/-- `Parse` (xsd/parse.go:135-176) after `Normalize` has returned the schema elements. -/
def parseSchemas (env : ParseEnv) (ord : MapOrder) (roots : List Element) : Outcome (List Schema × THeap) :=
  match parseRoots env [] [] roots with
  | none => .error
  | some (parsed, H) =>
    match finishRoots ord (collectAll ord H [] 0 (ord.run 0 0 (parsed.map (·.2)))) parsed H 0 roots with
    | .error => .error
    | .panic => .panic
    | .ok (parsed, H) =>
      .ok (roots.map (fun r => (parsed.get (r.attr [] b!"targetNamespace")).getD {}) ++ [builtinSchema], H)

end GoXml.Xsd
