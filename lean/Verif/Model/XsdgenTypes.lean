import Verif.Model.XsdgenConfig
import Verif.Model.Graph
set_option autoImplicit false

/-! Model of the passes of `xsdgen/xsdgen.go` over types: `flatten`, `expandComplexTypes` and
`mergeAttributes`. The fields `Elements` and `Attributes` of two types are taken to be different
slices. -/

namespace GoXml.Xsdgen
open Xsd

/-- How a call ends; `running` means that it has not ended after the number of steps allowed. -/
inductive Run (α : Type) where
  | ok (a : α)
  | error
  | panic
  | running

def Run.bind {α β : Type} (r : Run α) (f : α → Run β) : Run β :=
  match r with
  | .ok a => f a
  | .error => .error
  | .panic => .panic
  | .running => .running

def Run.toOption {α : Type} : Run α → Option α
  | .ok a => some a
  | _ => none

/-! ### dedup -/

/-- The loop of `dedup` (xsdgen/xsdgen.go:396-401); `seen` is the set of names seen. -/
def dedupLoop (H : THeap) (seen : List XName) : List Ty → List Ty
  | [] => []
  | v :: vs => if xmlName H v ∈ seen then dedupLoop H seen vs else v :: dedupLoop H (xmlName H v :: seen) vs

/-- `dedup` (xsdgen/xsdgen.go:394-403). -/
def dedup (H : THeap) (types : List Ty) : List Ty := dedupLoop H [] types

/-! ### flatten1 -/

/-- The first loop for a simple type (xsdgen/xsdgen.go:418-423) with at most `n` steps: the types passed,
and the final value of `builtin`. A failed assertion `base.(xsd.Builtin)` sets `builtin` to the zero
`Builtin`, which is `AnyType`; `b` is its value so far. -/
def baseChain (H : THeap) : Nat → Option Builtin → Option Ty → Run (List Ty × Option Builtin)
  | 0, _, _ => .running
  | _ + 1, b, none => .ok ([], b)
  | _ + 1, _, some (.builtin b) => .ok ([], some b)
  | n + 1, _, some t => (baseChain H n (some AnyType) (baseOf H t)).bind fun r => .ok (t :: r.1, r.2)

def isSimple (H : THeap) : Ty → Bool
  | .obj id => match H[id]? with
    | some (.simple _) => true
    | _ => false
  | _ => false

/-- `v.Base = builtin` for a simple type. -/
def setSimpleBase (b : Option Ty) (H : THeap) : Ty → THeap
  | .obj id => match H[id]? with
    | some (.simple s) => H.set id (.simple { s with base := b })
    | _ => H
  | _ => H

/-- `nonTrivialBuiltin` (xsdgen/builtin.go:18-30): Base64Binary, HexBinary, Date, Time, DateTime, GDay,
GMonth, GMonthDay, GYear, GYearMonth. -/
def nonTrivialBuiltin : Option Ty → Bool
  | some (.builtin b) => decide (b ∈ ([13, 27, 16, 39, 17, 22, 23, 24, 25, 26] : List Int))
  | _ => false

/-- The new documentation of a simple type that is kept for its restrictions, if it is
(xsdgen/xsdgen.go:452-467). -/
def keptDoc (r : Restriction) : Option Str :=
  if r.enum ≠ [] then some (b!"May be one of " ++ joinStr b!", " r.enum)
  else match r.pattern with
    | some p => some (b!"Must match the pattern " ++ p)
    | none =>
      if r.maxLength ≠ 0 then some (b!"May be no more than " ++ intStr r.maxLength ++ b!" items long")
      else if r.minLength ≠ 0 then some (b!"Must be at least " ++ intStr r.minLength ++ b!" items long")
      else none

/-- What `flatten1` returns: the heap, the types given to `push`, and the result. -/
abbrev Flat := THeap × List Ty × Option Ty

/-- `flatten1` for a simple type (xsdgen/xsdgen.go:411-468). -/
def flattenSimple (n : Nat) (H : THeap) (id : Nat) (s : SimpleT) : Run Flat :=
  (baseChain H n none s.base).bind fun r =>
    let b := r.2.map Ty.builtin
    let pushed := r.1.filter (isSimple H)
    let H := setSimpleBase b (pushed.foldl (setSimpleBase b) H) (.obj id)
    if s.list ∨ s.union ≠ [] ∨ nonTrivialBuiltin b then .ok (H, pushed, some (.obj id))
    else match keptDoc s.restriction with
      | some d => .ok (H.set id (.simple { s with base := b, doc := d }), pushed, some (.obj id))
      | none => .ok (H, pushed, b)

/-- The type of a field of a complex type, and its assignment. -/
def elemType (H : THeap) (id i : Nat) : Option Ty :=
  match H[id]? with
  | some (.complex c) => c.elements[i]?.map (·.type)
  | _ => none

def setElemType (H : THeap) (id i : Nat) (t : Ty) : THeap :=
  match H[id]? with
  | some (.complex c) => H.set id (.complex { c with elements := c.elements.modify i fun e => { e with type := t } })
  | _ => H

def attrType (H : THeap) (id i : Nat) : Option Ty :=
  match H[id]? with
  | some (.complex c) => c.attributes[i]?.map (·.type)
  | _ => none

def setAttrType (H : THeap) (id i : Nat) (t : Ty) : THeap :=
  match H[id]? with
  | some (.complex c) => H.set id (.complex { c with attributes := c.attributes.modify i fun e => { e with type := t } })
  | _ => H

def setComplexBase (H : THeap) (id : Nat) (t : Ty) : THeap :=
  match H[id]? with
  | some (.complex c) => H.set id (.complex { c with base := some t })
  | _ => H

/-- The loops over elements and attributes (xsdgen/xsdgen.go:489-502), for the indices that are left. A nil
type makes `xsd.XMLName` panic (xsdgen/xsdgen.go:493-494 and 500-501). -/
def fieldLoop (recur : THeap → Option Ty → Run Flat) (get : THeap → Nat → Option Ty) (set : THeap → Nat → Ty → THeap) :
    List Nat → THeap → Run (THeap × List Ty)
  | [], H => .ok (H, [])
  | i :: is, H => (recur H (get H i)).bind fun r => match r.2.2 with
    | none => .panic
    | some t => (fieldLoop recur get set is (set r.1 i t)).bind fun q => .ok (q.1, r.2.1 ++ t :: q.2)

/-- `flatten1` for a complex type that is not unpacked (xsdgen/xsdgen.go:487-517). -/
def flattenComplex (recur : THeap → Option Ty → Run Flat) (H : THeap) (id : Nat) (c : ComplexT) : Run Flat :=
  (fieldLoop recur (fun H i => elemType H id i) (fun H i t => setElemType H id i t) (List.range c.elements.length) H).bind fun e =>
    (fieldLoop recur (fun H i => attrType H id i) (fun H i t => setAttrType H id i t) (List.range c.attributes.length) e.1).bind
      fun a => (recur a.1 (baseOf a.1 (.obj id))).bind fun b => match b.2.2 with
        | none => .panic
        | some t => .ok (setComplexBase b.1 id t, e.2 ++ a.2 ++ b.2.1 ++ (if c.mixed then [t] else []), some (.obj id))

/-- `flatten1` (xsdgen/xsdgen.go:405-523) where the number is `maxDepth + 1 - depth`; `n` bounds the number
of steps of each loop over bases. -/
def flatten1 (cfg : Config) (n : Nat) : Nat → THeap → Option Ty → Run Flat
  | 0, H, t => .ok (H, [], t)
  | _ + 1, _, none => .panic
  | _ + 1, _, some (.link _) => .panic
  | _ + 1, H, some (.builtin b) => .ok (H, [], some (.builtin b))
  | d + 1, H, some (.obj id) => match H[id]? with
    | none => .panic
    | some (.simple s) => flattenSimple n H id s
    | some (.complex c) => match c.base with
      | some (.builtin b) =>
        if b ≠ AnyType ∧ (filterFields cfg c).1 = [] then .ok (H, [], some (.builtin b))
        else flattenComplex (flatten1 cfg n d) H id c
      | some (.obj bid) =>
        if isSimple H (.obj bid) ∧ (filterFields cfg c).1 = [] then flatten1 cfg n d H (some (.obj bid))
        else flattenComplex (flatten1 cfg n d) H id c
      | _ => flattenComplex (flatten1 cfg n d) H id c

/-- The conditions under which `flatten` skips a type (xsdgen/xsdgen.go:375-386). -/
def skipped (cfg : Config) (name : XName) : Bool :=
  decide (name.loc = b!"_self") ||
  (match cfg.filterTypes with
    | some f => f name
    | none => false) ||
  (match cfg.allowTypes with
    | some m => !((m.get name).getD false)
    | none => false)

/-- The loop of `flatten` (xsdgen/xsdgen.go:374-390), for the types in the order in which the map is
visited. -/
def flattenLoop (cfg : Config) (n : Nat) (H : THeap) : List Ty → Run (THeap × List Ty)
  | [] => .ok (H, [])
  | t :: ts =>
    if skipped cfg (xmlName H t) then flattenLoop cfg n H ts
    else (flatten1 cfg n 1001 H (some t)).bind fun r =>
      (flattenLoop cfg n r.1 ts).bind fun q => .ok (q.1, r.2.1 ++ r.2.2.toList ++ q.2)

/-- `flatten` (xsdgen/xsdgen.go:369-392). -/
def flatten (cfg : Config) (n : Nat) (H : THeap) (types : List Ty) : Run (THeap × List Ty) :=
  (flattenLoop cfg n H types).bind fun r => .ok (r.1, dedup r.1 r.2)

/-! ### expandComplexTypes -/

/-- The inner loop over bases (xsdgen/xsdgen.go:283-289) with at most `n` steps. -/
def extendBases (H : THeap) : Nat → GoMap XName Nat → List Ty → Option Ty → Run (GoMap XName Nat × List Ty)
  | 0, _, _, _ => .running
  | _ + 1, index, all, none => .ok (index, all)
  | n + 1, index, all, some b =>
    match index.get (xmlName H b) with
    | some _ => extendBases H n index all (baseOf H b)
    | none => extendBases H n (index.set (xmlName H b) all.length) (all ++ [b]) (baseOf H b)

/-- The loop around it (xsdgen/xsdgen.go:282-290). -/
def extendAll (H : THeap) (n : Nat) (index : GoMap XName Nat) (all : List Ty) : List Ty → Run (GoMap XName Nat × List Ty)
  | [] => .ok (index, all)
  | v :: vs => (extendBases H n index all (baseOf H v)).bind fun r => extendAll H n r.1 r.2 vs

/-- The first loop (xsdgen/xsdgen.go:278-280), from position `i`. -/
def indexFrom (H : THeap) (index : GoMap XName Nat) (i : Nat) : List Ty → GoMap XName Nat
  | [] => index
  | v :: vs => indexFrom H (index.set (xmlName H v) i) (i + 1) vs

/-- The complex type that a complex type is derived from, with its pointer. -/
def complexBase (H : THeap) (c : ComplexT) : Option (Nat × ComplexT) :=
  match c.base with
  | some (.obj bid) => match H[bid]? with
    | some (.complex b) => some (bid, b)
    | _ => none
  | _ => none

/-- The edges added to the graph (xsdgen/xsdgen.go:292-304), from position `i`; `none` is the panic. -/
def graphEdges (H : THeap) (index : GoMap XName Nat) (i : Nat) : List Ty → Option (List (Int × Int))
  | [] => some []
  | .obj id :: vs => match H[id]? with
    | some (.complex c) => match complexBase H c with
      | some b => match index.get b.2.name, graphEdges H index (i + 1) vs with
        | some j, some es => some (((i : Int), (j : Int)) :: es)
        | _, _ => none
      | none => graphEdges H index (i + 1) vs
    | _ => graphEdges H index (i + 1) vs
  | _ :: vs => graphEdges H index (i + 1) vs

/-- The function given to `Flatten` (xsdgen/xsdgen.go:306-353); `none` is a panic. -/
def expandOne (all : List Ty) (H : THeap) (i : Int) : Option THeap :=
  match all[i.toNat]? with
  | some (.obj id) => match H[id]? with
    | some (.complex c) => match complexBase H c with
      | some b => some (H.set id (.complex
          { c with
            elements := b.2.elements.filter (fun e => decide (e.name ∉ c.elements.map (·.name))) ++ c.elements
            attributes := c.attributes ++ b.2.attributes.filter (fun a => decide (a.name ∉ c.attributes.map (·.name)))
            extends_ := false }))
      | none => some H
    | _ => none
  | _ => none

def expandWalk (all : List Ty) : THeap → List Int → Option THeap
  | H, [] => some H
  | H, i :: is => match expandOne all H i with
    | none => none
    | some H => expandWalk all H is

/-- `expandComplexTypes` (xsdgen/xsdgen.go:274-355); the list of types is returned unchanged. -/
def expandComplexTypes (n : Nat) (H : THeap) (types : List Ty) : Run THeap :=
  (extendAll H n (indexFrom H [] 0 types) types types).bind fun r =>
    match graphEdges H r.1 0 r.2 with
    | none => .panic
    | some es => match (Dep.Graph.build es).flatten with
      | none => .running
      | some order => match expandWalk r.2 H order with
        | none => .panic
        | some H => .ok H

/-! ### mergeAttributes -/

/-- `mergeAttributes` (xsdgen/xsdgen.go:1140-1151): the attributes of the derived type after the loop. -/
def mergeAttributes (src : List XAttr) : List XAttr → List XAttr
  | [] => src
  | a :: as => if src.any (fun s => decide (s.name = a.name)) then mergeAttributes src as else mergeAttributes (src ++ [a]) as

end GoXml.Xsdgen
