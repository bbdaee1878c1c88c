import Verif.Model.XsdErrors
set_option autoImplicit false

/-! Model of the errors that `Parse` returns for types that are referred to and not defined (xsd/parse.go:503-523, 1018-1098).
`quote` is the verb `%q` of package fmt. -/

namespace GoXml.Xsd

/-- The first of some references that leads nowhere, with the text of its error. -/
def firstMissing {α : Type} (lk : XName → Option Ty) (type : α → Ty) (text : α → XName → Str) : List α → Option Str
  | [] => none
  | a :: as => match type a with
    | .link n => match lk n with
      | none => some (text a n)
      | some _ => firstMissing lk type text as
    | _ => firstMissing lk type text as

/-- The errors of the body of the loop of `resolvePartialTypes` (xsd/parse.go:1023-1096). The name is the one under which the type
was entered, which is its own. -/
def missingIn (quote : Str → Str) (lk : XName → Option Ty) : TObj → Option Str
  | .complex c =>
    (firstMissing lk id (fun _ n => b!"complexType " ++ c.name.loc ++ b!": could not find base type " ++ n.loc ++ b!" in namespace " ++ n.space)
      c.base.toList).or
    ((firstMissing lk XElem.type (fun e n => b!"complexType " ++ c.name.loc ++ b!": could not find type " ++ quote n.loc ++ b!" in namespace " ++
        n.space ++ b!" for element " ++ e.name.loc) c.elements).or
      (firstMissing lk XAttr.type (fun a n => b!"complexType " ++ c.name.loc ++ b!": could not find type " ++ n.loc ++ b!" in namespace " ++
        n.space ++ b!" for attribute " ++ a.name.loc) c.attributes))
  | .simple s =>
    (firstMissing lk id (fun _ n => b!"simpleType " ++ s.name.loc ++ b!": could not find base type " ++ n.loc ++ b!" in namespace " ++ n.space)
      s.base.toList).or
    (firstMissing lk id (fun _ n => b!"simpleType " ++ s.name.loc ++ b!": could not find union memberType " ++ n.loc ++ b!" in namespace " ++ n.space)
      s.union)

/-- The error of `resolvePartialTypes` (xsd/parse.go:1018-1098), for the types in the order in which the map is visited. -/
def resolveFault (quote : Str → Str) (lk : XName → Option Ty) (H : THeap) : List Ty → Option Str
  | [] => none
  | .builtin _ :: ts => resolveFault quote lk H ts
  | .link _ :: _ => none
  | .obj id :: ts => match H[id]? with
    | none => none
    | some o => match missingIn quote lk o with
      | some t => some t
      | none => match resolveObj lk o with
        | none => none
        | some o' => resolveFault quote lk (H.set id o') ts

/-- The error of `addElementTypeAliases` (xsd/parse.go:503-523), for the children of the root. -/
def aliasFault (tns : Str) (ext : GoMap XName Ty) (types : GoMap XName Ty) : List Element → Option Str
  | [] => none
  | el :: els =>
    if el.name ≠ ⟨schemaNS, b!"element"⟩ then aliasFault tns ext types els
    else
      let name := resolveDefault el.scope (el.attr [] b!"name") tns
      let ref := resolve el.scope (el.attr [] b!"type")
      if ref.loc = [] ∨ name.loc = [] then aliasFault tns ext types els
      else match types.get name with
        | some _ => aliasFault tns ext types els
        | none => match lookupType types ext ref with
          | none => some (b!"could not lookup type " ++ prefixOf el.scope ref ++ b!" for element " ++ prefixOf el.scope name)
          | some t => aliasFault tns ext (types.set name t) els

/-- The error of the second loop of `Parse` (xsd/parse.go:162-173). -/
def finishFault (quote : Str → Str) (ord : MapOrder) (ext : GoMap XName Ty) (parsed : GoMap Str Schema) (H : THeap) (j : Nat) :
    List Element → Option Str
  | [] => none
  | r :: rs =>
    let tns := r.attr [] b!"targetNamespace"
    let s := (parsed.get tns).getD {}
    let ts := ord.run 2 j (s.types.map (·.2))
    match resolveFault quote (lookupType s.types ext) H ts, resolveTypes (lookupType s.types ext) H ts with
    | some t, _ => some t
    | none, none => none
    | none, some H => match aliasFault s.targetNS ext s.types r.children, addAliases s.targetNS ext s.types r.children with
      | some t, _ => some t
      | none, none => none
      | none, some types => match propagateAll H (ord.run 3 j (types.map (·.2))) with
        | none => none
        | some H => finishFault quote ord ext (parsed.set tns { s with types := types }) H (j + 1) rs

/-- The text of the error that `Parse` (xsd/parse.go:135-176) returns, for documents that can be normalized. -/
def parseErrorText (quote : Str → Str) (grow : Nat → Nat → Nat) (n : Nat) (env : ParseEnv) (ee : ErrEnv) (ord : MapOrder) (docs : List Element) :
    Option Str :=
  match normalize grow n docs with
  | none => none
  | some roots => match firstFault (typesFault env ee) roots with
    | some f => some f.text
    | none => match parseRoots env [] [] roots with
      | none => none
      | some (parsed, H) => finishFault quote ord (collectAll ord H [] 0 (ord.run 0 0 (parsed.map (·.2)))) parsed H 0 roots

end GoXml.Xsd
