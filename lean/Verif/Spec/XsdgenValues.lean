import Verif.Spec.XsdgenDecls
import Verif.Model.XsdgenValues
set_option autoImplicit false

/-! Vocabulary for the theorems about what generated types do at run time: which documents of a schema type a program can read and write again, and
what they look like then. -/

namespace GoXml.Values
open Xsd Xsdgen

/-- A program and the schema its types were generated from. Values are nested at most `fuel` deep without slices in between. -/
structure Setting (V : Type) where
  env : Env
  cfg : Config
  heap : THeap
  fuel : Nat
  prog : Program V

variable {V : Type}

/-- A built-in type whose values need methods of their own. -/
def special : Ty → Bool
  | .builtin b => decide (builtinName b ∈ specialBuiltins.map (XName.mk schemaNS))
  | _ => false

/-- What is special comes last. -/
def lateLast {α : Type} (type : α → Ty) (l : List α) : List α :=
  l.filter (fun x => !special (type x)) ++ l.filter fun x => special (type x)

/-- No element or attribute has both names, as far as a Go program can tell: it takes names without a namespace for names in any. -/
def Apart (a b : XName) : Prop := a.loc ≠ b.loc ∨ (a.space ≠ [] ∧ b.space ≠ [] ∧ a.space ≠ b.space)

/-- A name that means the same in a struct tag: of its bytes, none is a space, quote, backslash, comma or `>`. -/
def PlainName (s : Str) : Prop := s ≠ [] ∧ ∀ c ∈ s, c ∉ ([32, 34, 44, 62, 92] : List UInt8)

/-- A namespace that means the same in a struct tag. -/
def PlainSpace (s : Str) : Prop := ∀ c ∈ s, c ∉ ([32, 34, 92] : List UInt8)

/-- The name of an attribute in documents: with the namespace if it is declared qualified. -/
def attrName (a : XAttr) : XName :=
  if a.attr.any fun x => decide (x.name = ⟨[], b!"form"⟩ ∧ x.value = b!"qualified") then a.name else ⟨[], a.name.loc⟩

def Setting.elements (S : Setting V) (c : ComplexT) : List XElem := (filterFields S.cfg c).2
def Setting.attributes (S : Setting V) (c : ComplexT) : List XAttr := (filterFields S.cfg c).1

/-- A Go type whose values are bytes. -/
inductive ByteType (decls : GoMap Str Spec) : GoExpr → Prop
  | byte : ByteType decls (.ident b!"byte")
  | named {s : Str} {sp : Spec} : decls.get s = some sp → sp.expr = .plain (.ident b!"byte") → ByteType decls (.ident s)

/-- `Shaped decls e k b`: values of the Go type `e` are `k` slices around what `b` describes. Bytes in a row are text. So is a slice with methods of
its own, and any other type that is not a struct or a name. -/
inductive Shaped (decls : GoMap Str Spec) : GoExpr → Nat → Base → Prop
  | struct {s : Str} {sp : Spec} {fs : List Field} : decls.get s = some sp → sp.expr = .struct fs → Shaped decls (.ident s) 0 (.struct s fs)
  | bare {s : Str} {sp : Spec} {e : GoExpr} : decls.get s = some sp → sp.expr = .plain (.array e) → sp.methods = [] → ¬ ByteType decls e →
      Shaped decls (.ident s) 1 (.text e)
  | methods {s : Str} {sp : Spec} {e : GoExpr} : decls.get s = some sp → sp.expr = .plain (.array e) → sp.methods ≠ [] ∨ ByteType decls e →
      Shaped decls (.ident s) 0 (.text (.ident s))
  | plain {s t : Str} {sp : Spec} : decls.get s = some sp → sp.expr = .plain (.ident t) → Shaped decls (.ident s) 0 (.text (.ident s))
  | name : decls.get b!"xml.Name" = none → Shaped decls (.ident b!"xml.Name") 0 .name
  | go {s : Str} : decls.get s = none → s ≠ b!"xml.Name" → Shaped decls (.ident s) 0 (.text (.ident s))
  | bytes {e : GoExpr} : ByteType decls e → Shaped decls (.array e) 0 (.text (.array e))
  | slice {e : GoExpr} {k : Nat} {b : Base} : ¬ ByteType decls e → Shaped decls e k b → Shaped decls (.array e) (k + 1) b

/-- The text directly inside an element. -/
def textOf (kids : List XNode) : Str := (kids.filterMap fun k => match k with
  | .text s => some s
  | .elem _ _ _ => none).flatten

/-- The content of an element with nothing but this text in it. -/
def OnlyText (s : Str) (kids : List XNode) : Prop := (s = [] ∧ kids = []) ∨ (s ≠ [] ∧ kids = [.text s])

/-- The Go type that reads and writes the text of a schema type. -/
def Setting.TextAs (S : Setting V) (ty : Ty) (t : GoExpr) : Prop :=
  (special ty = true ∧ ∃ h, S.cfg.helperTypes.get (xmlName S.heap ty) = some h ∧ t = .ident h.name ∧ Shaped S.prog.decls t 0 (.text t)) ∨
  (special ty = false ∧ ∃ e k, exprOf S.env S.cfg S.heap ty = .ok e ∧ Shaped S.prog.decls e k (.text t))

/-- A type whose values are not slices: encoding/xml cannot read the text of an element into a slice in a struct. -/
def Setting.Single (S : Setting V) (ty : Ty) : Prop :=
  special ty = false → ∀ e, exprOf S.env S.cfg S.heap ty = .ok e → ∃ b, Shaped S.prog.decls e 0 b

/-- Text that is read and written as it is. -/
def Setting.Canonical (S : Setting V) (t : GoExpr) (s : Str) : Prop := ∃ v, S.prog.codec.read t s = some v ∧ S.prog.codec.write t v = some s

/-- Text that does not stand for an empty value (as false, 0 and an empty string). -/
def Setting.NotEmpty (S : Setting V) (t : GoExpr) (s : Str) : Prop := ∀ v, S.prog.codec.read t s = some v → S.prog.codec.empty v = false

/-- Nothing is written for a field of this type if nothing was read for it: it is a slice, its zero value is empty, or it has a special type whose zero
value is not written. -/
def Setting.Vanishes (S : Setting V) (ty : Ty) : Prop :=
  ∃ e, exprOf S.env S.cfg S.heap ty = .ok e ∧
    ((special ty = false ∧ ∃ k b, Shaped S.prog.decls e (k + 1) b) ∨
     (special ty = false ∧ ∃ t, Shaped S.prog.decls e 0 (.text t) ∧ S.prog.codec.empty (S.prog.codec.zero t) = true) ∨
     (special ty = true ∧ ∃ t h, Shaped S.prog.decls e 0 (.text t) ∧ S.TextAs ty h ∧ S.prog.codec.write h (S.prog.codec.zero t) = none))

/-- A complex type whose struct is in the program, compiles, and has fields that encoding/xml can tell apart. -/
structure Setting.Fine (S : Setting V) (c : ComplexT) (acc : Acc) : Prop where
  made : ∃ m, genFields S.env S.cfg m S.heap c = .ok acc
  declared : ∃ sp, S.prog.decls.get (publicName S.env S.cfg c.name) = some sp ∧ sp.expr = .struct acc.fields
  methods : (S.prog.overrides.get (publicName S.env S.cfg c.name)).getD [] = acc.overrides
  distinct : (acc.fields.map (·.name)).Nodup
  exported : ∀ f ∈ acc.fields, S.prog.exported f.name = true ∧ f.name ≠ b!"XMLName"
  embedded : ∀ o ∈ acc.overrides, o.fieldName ≠ b!"T" ∧ publicName S.env S.cfg c.name ≠ b!"T"
  repeated : ∀ el ∈ S.elements c, el.plural = true → el.dflt = [] ∧ special el.type = false ∧
    ∀ e, exprOf S.env S.cfg S.heap el.type = .ok e → ¬ ByteType S.prog.decls e
  known : ∀ el ∈ S.elements c, el.wildcard = false
  elemNames : ∀ el ∈ S.elements c, PlainName el.name.loc ∧ PlainSpace el.name.space
  attrNames : ∀ a ∈ S.attributes c, PlainName a.name.loc ∧ PlainSpace a.name.space
  elemsApart : (S.elements c).Pairwise fun a b => Apart a.name b.name
  attrsApart : (S.attributes c).Pairwise fun a b => Apart (attrName a) (attrName b)
  sized : ∃ z, S.prog.zero S.fuel (.ident (publicName S.env S.cfg c.name)) = some z

/-- Attributes allowed by the type, those required among them, none twice. Values of optional attributes are not empty. -/
structure Setting.AttrsConform (S : Setting V) (c : ComplexT) (attrs : List Attr) : Prop where
  once : (attrs.map (·.name)).Nodup
  allowed : ∀ x ∈ attrs, ∃ a ∈ S.attributes c, x.name = attrName a ∧ ∃ t, S.TextAs a.type t ∧ S.Canonical t x.value ∧
    (a.optional = true → special a.type = false → S.NotEmpty t x.value)
  absent : ∀ a ∈ S.attributes c, (∃ x ∈ attrs, x.name = attrName a) ∨ (a.optional = true ∧ S.Vanishes a.type)

/-- The attributes in the order of their declarations. -/
def Setting.arranged (S : Setting V) (c : ComplexT) (attrs : List Attr) : List Attr :=
  (lateLast (·.type) (S.attributes c)).filterMap fun a => attrs.find? fun x => decide (x.name = attrName a)

def AllText (kids : List XNode) : Prop := ∀ k ∈ kids, ∃ s, k = .text s

/-- Text that may stand between elements. -/
def Blank (s : Str) : Prop := ∀ c ∈ s, c ∈ ([32, 9, 10, 13] : List UInt8)

/-- The schema type of the text of a complex type: the first simple or built-in type among those it is derived from. -/
inductive TextFrom (H : THeap) : Ty → Ty → Prop
  | simple {id : Nat} {s : SimpleT} : H[id]? = some (.simple s) → TextFrom H (.obj id) (.obj id)
  | builtin {t : Ty} : baseOf H t = none → TextFrom H t t
  | derived {t b a : Ty} : isSimple H t = false → baseOf H t = some b → TextFrom H b a → TextFrom H t a

def Setting.TextType (S : Setting V) (c : ComplexT) (ty : Ty) : Prop :=
  c.mixed = true ∧ ty ≠ .builtin AnyType ∧ ∃ b, c.base = some b ∧ TextFrom S.heap b ty

mutual
/-- `S.Kept ty d d'`: `d` is a document (or an element) of the type `ty`, and `d'` is what the program makes of it. Text of simple types stays as it
is. Attributes are arranged in the order of their declarations. Blank text between elements is dropped. Elements of special types follow the
others. -/
inductive Setting.Kept (S : Setting V) : Ty → XNode → XNode → Prop
  | simple {ty : Ty} {t : GoExpr} {name : XName} {kids written : List XNode} (type : S.TextAs ty t) (all : AllText kids)
      (canonical : S.Canonical t (textOf kids)) (same : OnlyText (textOf kids) written) : S.Kept ty (.elem name [] kids) (.elem name [] written)
  | text {id : Nat} {c : ComplexT} {acc : Acc} {ty : Ty} {t : GoExpr} {name : XName} {attrs : List Attr} {kids written : List XNode}
      (found : S.heap[id]? = some (.complex c)) (fine : S.Fine c acc) (content : S.TextType c ty) (type : S.TextAs ty t)
      (single : S.Single ty) (elements : S.elements c = []) (conform : S.AttrsConform c attrs) (all : AllText kids) (canonical : S.Canonical t (textOf kids))
      (same : OnlyText (textOf kids) written) : S.Kept (.obj id) (.elem name attrs kids) (.elem name (S.arranged c attrs) written)
  | complex {id : Nat} {c : ComplexT} {acc : Acc} {name : XName} {attrs : List Attr} {kids : List XNode} {out : List (XElem × XNode)}
      (found : S.heap[id]? = some (.complex c)) (fine : S.Fine c acc) (content : ∀ ty, ¬ S.TextType c ty) (conform : S.AttrsConform c attrs)
      (inner : S.KidsKept false (S.elements c) kids out) :
      S.Kept (.obj id) (.elem name attrs kids) (.elem name (S.arranged c attrs) ((lateLast (fun o => o.1.type) out).map (·.2)))
/-- The content of an element. `S.KidsKept seen els kids out`: `kids` can follow when the elements before `els` are complete; `seen` tells whether the
first of `els` has occurred. `out` is what becomes of each element. Optional elements that are absent are of types for which nothing is written then,
and optional elements of simple types are not empty. -/
inductive Setting.KidsKept (S : Setting V) : Bool → List XElem → List XNode → List (XElem × XNode) → Prop
  | done : S.KidsKept false [] [] []
  | blank {seen : Bool} {els : List XElem} {s : Str} {kids : List XNode} {out : List (XElem × XNode)} (blank : Blank s)
      (rest : S.KidsKept seen els kids out) : S.KidsKept seen els (.text s :: kids) out
  | next {seen : Bool} {el : XElem} {els : List XElem} {kids : List XNode} {out : List (XElem × XNode)}
      (absent : seen = true ∨ (el.optional = true ∧ (el.plural = true ∨ S.Vanishes el.type))) (rest : S.KidsKept false els kids out) :
      S.KidsKept seen (el :: els) kids out
  | kid {seen : Bool} {el : XElem} {els : List XElem} {attrs : List Attr} {inner kids : List XNode} {d : XNode} {out : List (XElem × XNode)}
      (again : seen = false ∨ el.plural = true)
      (full : el.optional = true ∨ el.nillable = true → special el.type = false → ∀ t, S.TextAs el.type t → S.NotEmpty t (textOf inner))
      (kept : S.Kept el.type (.elem el.name attrs inner) d) (rest : S.KidsKept true (el :: els) kids out) :
      S.KidsKept seen (el :: els) (.elem el.name attrs inner :: kids) ((el, d) :: out)
end

/-- Whether a declared name is that of an attribute or element in a document: a name declared without a namespace stands for names in any. -/
def Means (declared n : XName) : Prop := declared.loc = n.loc ∧ (declared.space = [] ∨ declared.space = n.space)

instance (a b : XName) : Decidable (Means a b) := inferInstanceAs (Decidable (_ ∧ (_ ∨ _)))

/-- The attributes that the type declares. -/
def Setting.knownAttrs (S : Setting V) (c : ComplexT) (attrs : List Attr) : List Attr :=
  attrs.filter fun x => decide (∃ a ∈ S.attributes c, Means (attrName a) x.name)

/-- The text and the elements that the type declares. -/
def Setting.knownKids (S : Setting V) (c : ComplexT) (kids : List XNode) : List XNode :=
  kids.filter fun k => match k with
    | .text _ => true
    | .elem n _ _ => decide (∃ el ∈ S.elements c, Means el.name n)

/-- The same content in another order: elements with the same name stay in their order, and so does the text. -/
inductive Reordered : List XNode → List XNode → Prop
  | refl (ks : List XNode) : Reordered ks ks
  | text (s : Str) (n : XName) (as : List Attr) (ks rest : List XNode) : Reordered (.text s :: .elem n as ks :: rest) (.elem n as ks :: .text s :: rest)
  | swap (n m : XName) (as bs : List Attr) (ks js rest : List XNode) : n.loc ≠ m.loc →
      Reordered (.elem n as ks :: .elem m bs js :: rest) (.elem m bs js :: .elem n as ks :: rest)
  | cons (k : XNode) {ks js : List XNode} : Reordered ks js → Reordered (k :: ks) (k :: js)
  | symm {ks js : List XNode} : Reordered ks js → Reordered js ks
  | trans {ks js hs : List XNode} : Reordered ks js → Reordered js hs → Reordered ks hs

end GoXml.Values
