import Verif.Model.XsdHeap
import Verif.Model.XsdParse
set_option autoImplicit false

/-! Model of `Normalize` and `Parse` (xsd/parse.go) as wholes: all the passes, one after the other, on the same
memory. -/

namespace GoXml.Xsd

/-- `el.SetAttr("", loc, value)` on the element at `p`; the value may depend on the scope of `el`. -/
def setAttrAt (loc : Str) (value : Scope → Str) (h : EHeap) (p : Ptr) : EHeap :=
  match h.get p with
  | none => h
  | some e => h.put p (e.setAttr [] loc (value e.scope))

/-- `attributeDefaultType` (xsd/parse.go:581-590) and `elementDefaultType` (xsd/parse.go:597-606) in memory;
`Model/XsdTree.lean` has them on trees. -/
def defaultTypeH (kind type : Str) (n : Nat) (h : EHeap) (root : Ptr) : Option EHeap :=
  (searchPtr h n (fun e => isElem schemaNS kind e.tag && hasAttrValue [] b!"type" [] e.tag) root).map fun ps =>
    ps.foldl (setAttrAt b!"type" fun sc => prefixOf sc ⟨schemaNS, type⟩) h

/-- The body of the loop over the children of a choice (xsd/parse.go:247-259); the child is in array `arr`. -/
def optionalChild (arr : Nat) (h : EHeap) (i : Nat) : EHeap :=
  match h.get ⟨arr, i⟩ with
  | none => h
  | some t =>
    if t.name.space = schemaNS ∧ t.name.loc = b!"sequence" then
      (List.range (h.cells t.kids).length).foldl (fun h j => setAttrAt b!"minOccurs" (fun _ => b!"0") h ⟨t.kids.arr, j⟩) h
    else setAttrAt b!"minOccurs" (fun _ => b!"0") h ⟨arr, i⟩

/-- The loop over the children of the choice at `p` (xsd/parse.go:246-260). -/
def optionalAt (h : EHeap) (p : Ptr) : EHeap :=
  match h.get p with
  | none => h
  | some el => (List.range (h.cells el.kids).length).foldl (optionalChild el.kids.arr) h

/-- `setChoicesOptional` (xsd/parse.go:243-264) in memory. -/
def setChoicesOptionalH (n : Nat) (h : EHeap) (root : Ptr) : Option EHeap :=
  (searchPtr h n (fun e => isElem schemaNS b!"choice" e.tag) root).map fun ps => ps.foldl optionalAt h

/-- A loop over roots. -/
def eachRoot {σ : Type} (f : σ → Ptr → Option σ) : List Ptr → σ → Option σ
  | [], s => some s
  | r :: rs, s => (f s r).bind (eachRoot f rs)

/-- The documents in memory. -/
def loadDocs (grow : Nat → Nat → Nat) : List Element → EHeap → EHeap × List Ptr
  | [], h => (h, [])
  | d :: ds, h =>
    let r := loadDoc grow d h
    let q := loadDocs grow ds r.1
    (q.1, r.2 :: q.2)

/-- The schemas of the document at `p` (xsd/parse.go:101-105). -/
def schemaPtrs (n : Nat) (h : EHeap) (p : Ptr) : Option (List Ptr) :=
  (h.get p).bind fun e =>
    if e.name = ⟨schemaNS, b!"schema"⟩ then some [p] else searchPtr h n (fun e => nameMatches schemaNS b!"schema" e.tag) p

/-- The first loop of `Normalize` (xsd/parse.go:96-106), after the documents have been parsed. -/
def schemasOf (n : Nat) (h : EHeap) : List Ptr → Option (List Ptr)
  | [] => some []
  | p :: ps => match schemaPtrs n h p, schemasOf n h ps with
    | some a, some b => some (a ++ b)
    | _, _ => none

/-- The body of the second loop (xsd/parse.go:107-111). -/
def defaultsAndNames (grow : Nat → Nat → Nat) (n : Nat) (h : EHeap) (root : Ptr) : Option EHeap :=
  (defaultTypeH b!"attribute" b!"anySimpleType" n h root).bind fun h =>
    (defaultTypeH b!"element" b!"anyType" n h root).bind fun h => copyEltNamesToAnonTypes grow n h root

/-- The body of the third loop (xsd/parse.go:113-120), with the counter for names. -/
def namesAndChoices (grow : Nat → Nat → Nat) (n : Nat) (st : EHeap × Nat) (root : Ptr) : Option (EHeap × Nat) :=
  (nameAnonymousTypes grow n root st).bind fun st => (setChoicesOptionalH n st.1 root).map fun h => (h, st.2)

/-- `Normalize` (xsd/parse.go:92-128) on documents in memory. `none`: an error, a panic, or calls that nest deeper
than `n`. -/
def normalizeH (grow : Nat → Nat → Nat) (n : Nat) (h : EHeap) (docs : List Ptr) : Option (EHeap × List Ptr) :=
  (schemasOf n h docs).bind fun roots =>
    (eachRoot (defaultsAndNames grow n) roots h).bind fun h =>
      (eachRoot (namesAndChoices grow n) roots (h, 0)).bind fun st =>
        (eachRoot (expandComplexShorthand grow n) roots st.1).bind fun h =>
          match flattenRef n h roots with
          | .ok h => some (h, roots)
          | _ => none

/-- The trees that pointers lead to. -/
def readAll (h : EHeap) (n : Nat) : List Ptr → Option (List Element)
  | [] => some []
  | p :: ps => match readPtr h n p, readAll h n ps with
    | some t, some ts => some (t :: ts)
    | _, _ => none

/-- `Normalize` (xsd/parse.go:92-128) from the trees of the documents, the standard ones included, to the trees of
the schemas, read to a depth of `n`. -/
def normalize (grow : Nat → Nat → Nat) (n : Nat) (docs : List Element) : Option (List Element) :=
  let r := loadDocs grow docs []
  (normalizeH grow n r.1 r.2).bind fun q => readAll q.1 n q.2

/-- `Parse` (xsd/parse.go:135-176), from the trees of the documents, the standard ones included. -/
def parse (grow : Nat → Nat → Nat) (n : Nat) (env : ParseEnv) (ord : MapOrder) (docs : List Element) : Outcome (List Schema × THeap) :=
  match normalize grow n docs with
  | none => .error
  | some roots => parseSchemas env ord roots

end GoXml.Xsd
