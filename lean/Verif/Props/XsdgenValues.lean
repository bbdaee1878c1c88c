import Verif.Proofs.XsdgenMade
import Verif.Props.XsdgenSpec
import Verif.Props.XsdSchema
set_option autoImplicit false

/-! Theorems about what generated types do at run time: C131 (reading documents and writing them again). -/

namespace GoXml.Values
open Xsd Xsdgen

/-! ### Examples -/

deriving instance DecidableEq for Run

mutual
def XNode.decEq : (a b : XNode) → Decidable (a = b)
  | .text s, .text t => if h : s = t then isTrue (by rw [h]) else isFalse fun e => h (XNode.text.inj e)
  | .text _, .elem _ _ _ => isFalse nofun
  | .elem _ _ _, .text _ => isFalse nofun
  | .elem n as ks, .elem m bs js => if h : n = m ∧ as = bs then
      match XNode.decEqs ks js with
      | isTrue e => isTrue (by rw [h.1, h.2, e])
      | isFalse e => isFalse fun h => e (XNode.elem.inj h).2.2
    else isFalse fun e => h ⟨(XNode.elem.inj e).1, (XNode.elem.inj e).2.1⟩
def XNode.decEqs : (a b : List XNode) → Decidable (a = b)
  | [], [] => isTrue rfl
  | [], _ :: _ => isFalse nofun
  | _ :: _, [] => isFalse nofun
  | a :: as, b :: bs => match XNode.decEq a b, XNode.decEqs as bs with
    | isTrue h, isTrue g => isTrue (by rw [h, g])
    | isFalse h, _ => isFalse fun e => h (List.cons.inj e).1
    | _, isFalse h => isFalse fun e => h (List.cons.inj e).2
end

instance : DecidableEq XNode := XNode.decEq

/-- Values of simple types for examples. -/
inductive TestVal where
  | num (n : Nat) | str (s : Str) | time (s : Option Str)
deriving DecidableEq

def number : Str → Nat → Option Nat
  | [], n => some n
  | c :: cs, n => if 48 ≤ c ∧ c ≤ 57 then number cs (10 * n + (c.toNat - 48)) else none

/-- A codec for examples: numbers, text, and dates, which other types than xsdDate write with the time of day. -/
def testCodec : Codec TestVal where
  read t s := if t = .ident b!"int" then (number s 0).map .num
    else if t = .ident b!"xsdDate" ∨ t = .ident b!"time.Time" then some (.time (some s))
    else some (.str s)
  write t v := match v with
    | .num n => some (natStr n)
    | .str s => some s
    | .time none => if t = .ident b!"xsdDate" then none else some b!"0001-01-01T00:00:00Z"
    | .time (some s) => some (if t = .ident b!"xsdDate" then s else s ++ b!"T00:00:00Z")
  empty v := decide (v = .num 0 ∨ v = .str [])
  zero t := if t = .ident b!"int" then .num 0 else if t = .ident b!"time.Time" then .time none else .str []

/-- The program that xsdgen makes from the types of a heap. -/
def trial (H : THeap) : Setting TestVal :=
  let cfg := addStandardHelpers {}
  let r := (genList asciiEnv cfg 20 H ((List.range H.length).map .obj)).toOption.getD (H, [], true)
  { env := asciiEnv, cfg := cfg, heap := r.1, fuel := 10
    prog := { decls := declare r.2.1 []
              exported := fun s => match s with
                | c :: _ => decide (65 ≤ c ∧ c ≤ 90)
                | [] => false
              codec := testCodec
              overrides := r.1.foldl (fun m o => match o with
                | .complex c => m.set (publicName asciiEnv cfg c.name) (((genFields asciiEnv cfg 20 r.1 c).toOption.map (·.overrides)).getD [])
                | _ => m) [] } }

/-- What a program makes of a document: it reads it into a variable of the type and writes this variable. -/
def Program.again {V : Type} (p : Program V) (n : Nat) (type : GoExpr) : XNode → Option (List XNode)
  | .text _ => none
  | .elem name attrs kids => (p.zero n type).bind fun z => (p.decode n type z (.elem name attrs kids)).map (p.encode true name false type)

/-- The element `n` of the namespace `o`. -/
def elem (n : Str) (attrs : List Attr) (kids : List XNode) : XNode := .elem ⟨b!"o", n⟩ attrs kids
def att (n v : Str) : Attr := ⟨⟨[], n⟩, v⟩
def txt (n v : Str) : XNode := elem n [] [.text v]

instance (s : Str) : Decidable (PlainName s) := inferInstanceAs (Decidable (s ≠ [] ∧ ∀ c ∈ s, c ∉ ([32, 34, 44, 62, 92] : List UInt8)))
instance (s : Str) : Decidable (PlainSpace s) := inferInstanceAs (Decidable (∀ c ∈ s, c ∉ ([32, 34, 92] : List UInt8)))
instance (s : Str) : Decidable (Blank s) := inferInstanceAs (Decidable (∀ c ∈ s, c ∈ ([32, 9, 10, 13] : List UInt8)))
instance (a b : XName) : Decidable (Apart a b) := inferInstanceAs (Decidable (a.loc ≠ b.loc ∨ (a.space ≠ [] ∧ b.space ≠ [] ∧ a.space ≠ b.space)))

/-- The conditions of `Setting.Fine`, in a form that can be computed. -/
abbrev FineCheck (S : Setting TestVal) (c : ComplexT) (acc : Acc) : Prop :=
  genFields S.env S.cfg 20 S.heap c = .ok acc ∧ (S.prog.decls.get (publicName S.env S.cfg c.name)).map (·.expr) = some (.struct acc.fields) ∧
  (S.prog.overrides.get (publicName S.env S.cfg c.name)).getD [] = acc.overrides ∧ (acc.fields.map (·.name)).Nodup ∧
  (∀ f ∈ acc.fields, S.prog.exported f.name = true ∧ f.name ≠ b!"XMLName") ∧
  (∀ o ∈ acc.overrides, o.fieldName ≠ b!"T" ∧ publicName S.env S.cfg c.name ≠ b!"T") ∧
  (∀ el ∈ S.elements c, el.plural = true → el.dflt = [] ∧ special el.type = false ∧
    (exprOf S.env S.cfg S.heap el.type).toOption.all (fun e => !isByte S.prog.decls e) = true) ∧
  (∀ el ∈ S.elements c, el.wildcard = false) ∧ (∀ el ∈ S.elements c, PlainName el.name.loc ∧ PlainSpace el.name.space) ∧
  (∀ a ∈ S.attributes c, PlainName a.name.loc ∧ PlainSpace a.name.space) ∧ (S.elements c).Pairwise (fun a b => Apart a.name b.name) ∧
  (S.attributes c).Pairwise (fun a b => Apart (attrName a) (attrName b)) ∧
  (S.prog.zero S.fuel (.ident (publicName S.env S.cfg c.name))).isSome = true

theorem fine_of {S : Setting TestVal} {c : ComplexT} {acc : Acc} (h : FineCheck S c acc) : S.Fine c acc := by
  obtain ⟨h1, h2, h3, h4, h5, h6, h7, h8, h9, h10, h11, h12, h13⟩ := h
  refine ⟨⟨20, h1⟩, ?_, h3, h4, h5, h6, ?_, h8, h9, h10, h11, h12, Option.isSome_iff_exists.mp h13⟩
  · obtain ⟨sp, g1, g2⟩ := Option.map_eq_some_iff.mp h2
    exact ⟨sp, g1, g2⟩
  · intro el hel hp
    obtain ⟨g1, g2, g3⟩ := h7 el hel hp
    refine ⟨g1, g2, fun e he => ?_⟩
    rw [he] at g3
    exact notByteType_iff.mpr (by simpa [Run.toOption] using g3)

/-- What is generated for a complex type. -/
def Setting.acc (S : Setting TestVal) (c : ComplexT) : Acc := (genFields S.env S.cfg 20 S.heap c).toOption.getD {}

/-! ### C131 -/

/-- C131, as far as it holds: a document of a complex type, whose attributes and elements are all as expected, is read without an error into a variable
of the generated type, and what is written for the variable is the same document, but for the order of attributes, of elements with dates and binary
data, and the space between elements. What `Setting.Kept` asks of documents is missing: see the refutations. -/
theorem C131_kept_partial {V : Type} (S : Setting V) (id : Nat) (c : ComplexT) (acc : Acc) (hc : S.heap[id]? = some (.complex c)) (hf : S.Fine c acc)
    (name : XName) (attrs : List Attr) (kids : List XNode) (d : XNode) (h : S.Kept (.obj id) (.elem name attrs kids) d) :
    ∃ z v, S.prog.zero S.fuel (.ident (publicName S.env S.cfg c.name)) = some z ∧
      S.prog.decode S.fuel (.ident (publicName S.env S.cfg c.name)) z (.elem name attrs kids) = some v ∧
      S.prog.encode true name false (.ident (publicName S.env S.cfg c.name)) v = [d] := by
  obtain ⟨z, hz⟩ := hf.sized
  obtain ⟨B, hb, name', attrs', kids', v, he, h1, h2, _, _⟩ := kept_item h
  cases he
  have hshape : shape S.prog.decls (.ident (publicName S.env S.cfg c.name)) = (0, B) := by
    obtain ⟨e, k, he, hk⟩ := hb.shape rfl
    have hn : xmlName S.heap (.obj id) = c.name := by simp [xmlName, hc, TObj.name]
    simp only [exprOf, hn] at he
    cases he
    obtain ⟨sp, g1, g2⟩ := hf.declared
    simp only [Values.shape, g1, g2] at hk ⊢
    cases hk
    rfl
  refine ⟨z, v, hz, ?_, h2 _ _ _ hshape nofun⟩
  rw [h1 _ z 0 hshape ?_]
  · rfl
  · intro _ nm fs hB
    subst hB
    have := shape_struct hshape
    rw [← this]
    exact hz

/-- C131, for the code: what `Setting.Fine` asks of the declarations is so for what xsdgen makes of a list of types, if the names it chooses are
distinct. The struct of a complex type has the fields that belong to its final form, and it has methods of its own iff there are fields with a default
or a special type. -/
theorem C131_generated_partial (env : Env) (cfg : Config) (n : Nat) (H : THeap) (ts : List Ty) (r : THeap × List Spec × Bool)
    (h : genList env cfg n H ts = .ok r) (hr : r.2.2 = false) (hts : ts.Nodup) (hn : (r.2.1.map (·.name)).Nodup) (id : Nat) (c : ComplexT)
    (hid : .obj id ∈ ts) (hc : r.1[id]? = some (.complex c)) :
    ∃ acc sp, genFields env cfg n r.1 c = .ok acc ∧ (declare r.2.1 []).get (publicName env cfg c.name) = some sp ∧ sp.expr = .struct acc.fields ∧
      (sp.hasMethod b!"UnmarshalXML" ↔ acc.overrides ≠ []) ∧ (sp.hasMethod b!"MarshalXML" ↔ ∃ o ∈ acc.overrides, special o.type = true) := by
  obtain ⟨acc, sp, h1, h2, h3, h4, _, h5, h6⟩ := (genList_made ts H r h hr hts).2.2 id c hid hc
  refine ⟨acc, sp, h1, ?_, h4, h5, h6⟩
  rw [← h3]
  exact declare_mem _ [] hn sp h2

def nameElem : XElem := { name := ⟨b!"o", b!"name"⟩, type := .builtin 38 }
def dayElem : XElem := { name := ⟨b!"o", b!"day"⟩, type := .builtin 16, optional := true }
def itemElem : XElem := { name := ⟨b!"o", b!"item"⟩, type := .obj 1, plural := true, optional := true }
def qtyElem : XElem := { name := ⟨b!"o", b!"qty"⟩, type := .builtin 28, optional := true }

/-- An order, with a day that is special, and items of a type with text. -/
def orderHeap : THeap :=
  [.complex { name := ⟨b!"o", b!"order"⟩, base := some (.builtin AnyType)
              elements := [nameElem, dayElem, itemElem, qtyElem]
              attributes := [{ name := ⟨b!"o", b!"id"⟩, type := .builtin 28 }, { name := ⟨b!"o", b!"note"⟩, type := .builtin 38, optional := true },
                             { name := ⟨b!"o", b!"on"⟩, type := .builtin 16, optional := true }] },
   .complex { name := ⟨b!"o", b!"item"⟩, base := some (.builtin 38), mixed := true
              attributes := [{ name := ⟨b!"o", b!"n"⟩, type := .builtin 28 }] }]

def orderDoc : XNode := elem b!"order" [att b!"note" b!"x", att b!"id" b!"7"]
  [.text b!"\n", txt b!"name" b!"Bob", txt b!"day" b!"2020-01-02", elem b!"item" [att b!"n" b!"1"] [.text b!"a"], .text b!" ",
   elem b!"item" [att b!"n" b!"2"] []]

example : (trial orderHeap).prog.again 10 (.ident b!"Order") orderDoc = some [elem b!"order" [att b!"id" b!"7", att b!"note" b!"x"]
    [txt b!"name" b!"Bob", elem b!"item" [att b!"n" b!"1"] [.text b!"a"], elem b!"item" [att b!"n" b!"2"] [], txt b!"day" b!"2020-01-02"]] := by
  decide +kernel

def orderType : ComplexT := ((trial orderHeap).heap[0]?).elim {} fun o => match o with
  | .complex c => c
  | _ => {}
def itemType : ComplexT := ((trial orderHeap).heap[1]?).elim {} fun o => match o with
  | .complex c => c
  | _ => {}

theorem order_fine : (trial orderHeap).Fine orderType ((trial orderHeap).acc orderType) := fine_of (by decide +kernel)
theorem item_fine : (trial orderHeap).Fine itemType ((trial orderHeap).acc itemType) := fine_of (by decide +kernel)

/-- The heap meets the conditions of `C131_generated_partial`. -/
example : ∃ r, genList asciiEnv (addStandardHelpers {}) 20 orderHeap [.obj 0, .obj 1] = .ok r ∧ r.2.2 = false ∧ (r.2.1.map (·.name)).Nodup ∧
    ∃ c, r.1[0]? = some (.complex c) ∧ c.name.loc = b!"order" := by
  let ok : Run (THeap × List Spec × Bool) → Bool := fun x => match x with
    | .ok r => decide (r.2.2 = false ∧ (r.2.1.map (·.name)).Nodup) && match (r.1[0]? : Option TObj) with
      | some (.complex c) => decide (c.name.loc = b!"order")
      | _ => false
    | _ => false
  have h : ok (genList asciiEnv (addStandardHelpers {}) 20 orderHeap [.obj 0, .obj 1]) = true := by decide +kernel
  generalize genList asciiEnv (addStandardHelpers {}) 20 orderHeap [.obj 0, .obj 1] = x at h
  match x with
  | .ok (H, ss, f) =>
    rw [Bool.and_eq_true] at h
    match ho : (H[0]? : Option TObj), h with
    | some (.complex c), h => exact ⟨_, rfl, (of_decide_eq_true h.1).1, (of_decide_eq_true h.1).2, c, ho, of_decide_eq_true h.2⟩

/-- The document meets the conditions of `C131_kept_partial`. -/
theorem order_kept : (trial orderHeap).Kept (.obj 0) orderDoc (elem b!"order" [att b!"id" b!"7", att b!"note" b!"x"]
    [txt b!"name" b!"Bob", elem b!"item" [att b!"n" b!"1"] [.text b!"a"], elem b!"item" [att b!"n" b!"2"] [], txt b!"day" b!"2020-01-02"]) := by
  have text : ∀ ty t, special ty = false ∧ ((exprOf (trial orderHeap).env (trial orderHeap).cfg (trial orderHeap).heap ty).toOption.map
      (shape (trial orderHeap).prog.decls)) = some (0, .text t) → (trial orderHeap).TextAs ty t := by
    intro ty t h
    cases he : exprOf (trial orderHeap).env (trial orderHeap).cfg (trial orderHeap).heap ty with
    | ok e => rw [he] at h; exact Or.inr ⟨h.1, e, 0, he, shaped_iff.mpr (Option.some.inj h.2)⟩
    | error => rw [he] at h; cases h.2
    | panic => rw [he] at h; cases h.2
    | running => rw [he] at h; cases h.2
  have hstr : (trial orderHeap).TextAs (.builtin 38) (.ident b!"string") := text _ _ (by decide +kernel)
  have hint : (trial orderHeap).TextAs (.builtin 28) (.ident b!"int") := text _ _ (by decide +kernel)
  have hday : (trial orderHeap).TextAs (.builtin 16) (.ident b!"xsdDate") := Or.inl ⟨by decide +kernel, _, rfl, rfl, by decide +kernel⟩
  have cstr : ∀ s, (trial orderHeap).Canonical (.ident b!"string") s := fun s => ⟨.str s, rfl, rfl⟩
  have cday : ∀ s, (trial orderHeap).Canonical (.ident b!"xsdDate") s := fun s => ⟨.time (some s), rfl, rfl⟩
  have vint : (trial orderHeap).Vanishes (.builtin 28) :=
    ⟨_, rfl, Or.inr (Or.inl ⟨by decide +kernel, .ident b!"int", by decide +kernel, by decide +kernel⟩)⟩
  have vday : (trial orderHeap).Vanishes (.builtin 16) :=
    ⟨_, rfl, Or.inr (Or.inr ⟨by decide +kernel, .ident b!"time.Time", _, by decide +kernel, hday, by decide +kernel⟩)⟩
  have item : ∀ n s : Str, n ∈ [b!"1", b!"2"] → ∀ kids, textOf kids = s → AllText kids → OnlyText s kids → (trial orderHeap).Kept (.obj 1) (elem b!"item" [att b!"n" n] kids)
      (elem b!"item" [att b!"n" n] kids) := by
    intro n s hn kids hs hall hk
    have := Setting.Kept.text (S := trial orderHeap) (id := 1) (c := itemType) (ty := .builtin 38) (name := ⟨b!"o", b!"item"⟩) (attrs := [att b!"n" n])
      (kids := kids) (by decide +kernel) item_fine ⟨by decide +kernel, by decide, .builtin 38, by decide +kernel, .builtin rfl⟩ hstr
      (fun _ e he => by cases he; exact ⟨.text (.ident b!"string"), by decide +kernel⟩) (by decide +kernel) ?_ hall (cstr _) (hs.symm ▸ hk)
    · have ha : (trial orderHeap).arranged itemType [att b!"n" n] = [att b!"n" n] := by
        rcases List.mem_cons.mp hn with rfl | hn
        · decide +kernel
        · rcases List.mem_singleton.mp hn with rfl; decide +kernel
      rw [ha] at this
      exact this
    · refine ⟨by simp, ?_, ?_⟩
      · intro x hx
        rcases List.mem_singleton.mp hx with rfl
        refine ⟨{ name := ⟨b!"o", b!"n"⟩, type := .builtin 28 }, by decide +kernel, rfl, _, hint, ?_, nofun⟩
        rcases List.mem_cons.mp hn with rfl | hn
        · exact ⟨.num 1, by decide +kernel, by decide +kernel⟩
        · rcases List.mem_singleton.mp hn with rfl
          exact ⟨.num 2, by decide +kernel, by decide +kernel⟩
      · intro a ha
        refine Or.inl ⟨_, List.mem_singleton.mpr rfl, ?_⟩
        have hall : ∀ a ∈ (trial orderHeap).attributes itemType, (⟨[], b!"n"⟩ : XName) = attrName a := by decide +kernel
        exact hall a ha
  have hitem : ∀ t, ¬ (trial orderHeap).TextAs (.obj 1) t := by
    rintro t (⟨h, _⟩ | ⟨_, e, k, he, hk⟩)
    · cases h
    · cases he
      have : (shape (trial orderHeap).prog.decls (.ident b!"Item")).2 ≠ .text t := by
        have : ((shape (trial orderHeap).prog.decls (.ident b!"Item")).2 matches .text _) = false := by decide +kernel
        intro e
        rw [e] at this
        cases this
      exact this (by rw [show (GoExpr.ident b!"Item") = .ident (publicName (trial orderHeap).env (trial orderHeap).cfg
        (xmlName (trial orderHeap).heap (.obj 1))) by decide +kernel, hk.shape])
  have one : ∀ s, AllText [XNode.text s] := fun s k hk => ⟨s, List.mem_singleton.mp hk⟩
  have hels : (trial orderHeap).elements orderType = [nameElem, dayElem, itemElem, qtyElem] := by decide +kernel
  have kids : (trial orderHeap).KidsKept false ((trial orderHeap).elements orderType)
      [.text b!"\n", txt b!"name" b!"Bob", txt b!"day" b!"2020-01-02", elem b!"item" [att b!"n" b!"1"] [.text b!"a"], .text b!" ",
       elem b!"item" [att b!"n" b!"2"] []]
      [(nameElem, txt b!"name" b!"Bob"), (dayElem, txt b!"day" b!"2020-01-02"), (itemElem, elem b!"item" [att b!"n" b!"1"] [.text b!"a"]),
       (itemElem, elem b!"item" [att b!"n" b!"2"] [])] := by
    rw [hels]
    exact .blank (by decide +kernel) (.kid (Or.inl rfl) (fun h => absurd h (by decide)) (.simple hstr (one _) (cstr _) (Or.inr ⟨by decide, rfl⟩)) (.next (Or.inl rfl)
      (.kid (Or.inl rfl) (fun _ h => absurd h (by decide +kernel)) (.simple hday (one _) (cday _) (Or.inr ⟨by decide, rfl⟩)) (.next (Or.inl rfl)
        (.kid (Or.inl rfl) (fun _ _ t ht => absurd ht (hitem t)) (item b!"1" b!"a" (by simp) _ rfl (one _) (Or.inr ⟨by decide, rfl⟩))
          (.blank (by decide +kernel) (.kid (Or.inr rfl) (fun _ _ t ht => absurd ht (hitem t)) (item b!"2" [] (by simp) [] rfl nofun (Or.inl ⟨rfl, rfl⟩))
            (.next (Or.inl rfl) (.next (Or.inr ⟨rfl, Or.inr vint⟩) .done)))))))))
  have hattrs : (trial orderHeap).AttrsConform orderType [att b!"note" b!"x", att b!"id" b!"7"] := by
    have ha : (trial orderHeap).attributes orderType = [{ name := ⟨b!"o", b!"id"⟩, type := .builtin 28 },
      { name := ⟨b!"o", b!"note"⟩, type := .builtin 38, optional := true },
      { name := ⟨b!"o", b!"on"⟩, type := .builtin 16, optional := true }] := by decide +kernel
    refine ⟨by decide, ?_, ?_⟩
    · intro x hx
      rw [ha]
      rcases List.mem_cons.mp hx with rfl | hx
      · refine ⟨_, List.mem_cons_of_mem _ (List.mem_cons_self ..), rfl, _, hstr, cstr _, fun _ _ v hv => ?_⟩
        have : v = .str b!"x" := by
          have h : testCodec.read (.ident b!"string") b!"x" = some (.str b!"x") := rfl
          exact (Option.some.inj (hv.symm.trans h))
        rw [this]
        decide +kernel
      · rcases List.mem_singleton.mp hx with rfl
        exact ⟨_, List.mem_cons_self .., rfl, _, hint, ⟨.num 7, by decide +kernel, by decide +kernel⟩, nofun⟩
    · rw [ha]
      intro a h
      rcases List.mem_cons.mp h with rfl | h
      · exact Or.inl ⟨_, List.mem_cons_of_mem _ (List.mem_cons_self ..), rfl⟩
      · rcases List.mem_cons.mp h with rfl | h
        · exact Or.inl ⟨_, List.mem_cons_self .., rfl⟩
        · rcases List.mem_singleton.mp h with rfl
          exact Or.inr ⟨rfl, vday⟩
  have := Setting.Kept.complex (S := trial orderHeap) (id := 0) (name := ⟨b!"o", b!"order"⟩) (by decide +kernel) order_fine
    (fun ty h => by
      obtain ⟨h, _⟩ := h
      revert h
      decide +kernel) hattrs kids
  have h1 : (trial orderHeap).arranged orderType [att b!"note" b!"x", att b!"id" b!"7"] = [att b!"id" b!"7", att b!"note" b!"x"] := by decide +kernel
  rw [h1] at this
  exact this

/-- An element of a schema document, with attributes that have no namespace. -/
def xs (n : Str) (attrs : List (Str × Str)) (kids : List Element) : Element :=
  .mk ⟨w3cSchemaNS, n⟩ (attrs.map fun a => ⟨⟨[], a.1⟩, a.2⟩) [⟨w3cSchemaNS, b!"xs"⟩, ⟨b!"o", b!"o"⟩] [] kids

/-- The declaration of an element with a type, and that of a complex type, as `Normalize` leaves it. -/
def declare1 (name type : Str) (more : List (Str × Str)) : Element := xs b!"element" ([(b!"name", name), (b!"type", type)] ++ more) []
def complexType (name : Str) (attrs : List (Str × Str)) (kids : List Element) : Element := xs b!"complexType" ((b!"name", name) :: attrs)
  [xs b!"complexContent" [] [xs b!"restriction" [(b!"base", b!"xs:anyType")] kids]]

/-- A schema of the namespace `o` whose local elements are qualified. -/
def schemaO (types : List Element) : Element := xs b!"schema" [(b!"targetNamespace", b!"o"), (b!"elementFormDefault", b!"qualified")] types

/-- The program that xsdgen makes from a schema. -/
def fromSchema (schema : Element) : Setting TestVal :=
  trial (((resultOf (parseSchemas plainEnv inOrder [schema])).map (·.2)).getD [])

/-- What becomes of a document `doc` whose type `doc` is a sequence. -/
def sequenceDoc (els : List Element) (kids : List XNode) : Option (List XNode) :=
  (fromSchema (schemaO [complexType b!"doc" [] [xs b!"sequence" [] els]])).prog.again 10 (.ident b!"Doc") (elem b!"doc" [] kids)

def unlessNeeded : List (Str × Str) := [(b!"minOccurs", b!"0")]
def repeatedly : List (Str × Str) := [(b!"maxOccurs", b!"unbounded")]

example : sequenceDoc [declare1 b!"a" b!"xs:string" [], declare1 b!"b" b!"xs:int" repeatedly] [txt b!"a" b!"x", txt b!"b" b!"1", txt b!"b" b!"2"] =
    some [elem b!"doc" [] [txt b!"a" b!"x", txt b!"b" b!"1", txt b!"b" b!"2"]] := by decide +kernel

/-- C131 is false: an optional element of a complex type that is absent is written with what is required inside. -/
theorem C131_absent_refuted :
    (fromSchema (schemaO [complexType b!"doc" [] [xs b!"sequence" [] [declare1 b!"in" b!"o:in" unlessNeeded]],
      complexType b!"in" [] [xs b!"sequence" [] [declare1 b!"a" b!"xs:string" []]]])).prog.again 10 (.ident b!"Doc") (elem b!"doc" [] []) =
      some [elem b!"doc" [] [elem b!"in" [] [elem b!"a" [] []]]] ∧
    sequenceDoc [declare1 b!"a" b!"xs:base64Binary" unlessNeeded] [] = some [elem b!"doc" [] [elem b!"a" [] []]] ∧
    sequenceDoc [xs b!"any" unlessNeeded []] [] = some [elem b!"doc" [] [.elem ⟨[], b!"Item"⟩ [] []]] := by decide +kernel

/-- C131 is false: an optional element with the value 0 is lost. -/
theorem C131_zero_refuted :
    sequenceDoc [declare1 b!"a" b!"xs:int" unlessNeeded] [txt b!"a" b!"0"] = some [elem b!"doc" [] []] := by decide +kernel

/-- C131 is false: elements of a wildcard get another name, and lose their attributes and the elements inside. -/
theorem C131_any_refuted :
    sequenceDoc [xs b!"any" repeatedly []] [elem b!"a" [att b!"k" b!"1"] [.text b!"x"], elem b!"b" [] [txt b!"c" b!"y"]] =
      some [elem b!"doc" [] [.elem ⟨[], b!"Items"⟩ [] [.text b!"x"], .elem ⟨[], b!"Items"⟩ [] []]] := by decide +kernel

/-- C131 is false: of repeated elements whose type is unsignedByte, only the last is kept. So it is for the elements of a choice that may be repeated,
whose order is not kept either. -/
theorem C131_repeated_refuted :
    sequenceDoc [declare1 b!"a" b!"xs:unsignedByte" repeatedly] [txt b!"a" b!"1", txt b!"a" b!"2"] = some [elem b!"doc" [] [txt b!"a" b!"2"]] ∧
    (fromSchema (schemaO [complexType b!"doc" [] [xs b!"choice" repeatedly [declare1 b!"a" b!"xs:string" [], declare1 b!"b" b!"xs:string" []]]])).prog.again
      10 (.ident b!"Doc") (elem b!"doc" [] [txt b!"a" b!"1", txt b!"b" b!"2", txt b!"a" b!"3"]) =
      some [elem b!"doc" [] [txt b!"a" b!"3", txt b!"b" b!"2"]] := by decide +kernel

/-- The same for a type that is derived from unsignedByte. -/
theorem C131_octets_refuted :
    (fromSchema (schemaO [
      xs b!"simpleType" [(b!"name", b!"octet")] [xs b!"restriction" [(b!"base", b!"xs:unsignedByte")] []],
      complexType b!"doc" [] [xs b!"sequence" [] [declare1 b!"a" b!"o:octet" repeatedly]]])).prog.again
      10 (.ident b!"Doc") (elem b!"doc" [] [txt b!"a" b!"1", txt b!"a" b!"2"]) = some [elem b!"doc" [] [txt b!"a" b!"2"]] := by decide +kernel

/-- C131 is false: the items of a list in an attribute are written as so many attributes of the same name, which is not
well-formed. A value that is read has one item, whatever the list. -/
theorem C131_tokens_refuted :
    let p := (fromSchema (schemaO [complexType b!"doc" [] [xs b!"attribute" [(b!"name", b!"k"), (b!"type", b!"xs:NMTOKENS")] []]])).prog
    p.encode true ⟨b!"o", b!"doc"⟩ false (.ident b!"Doc") (.struct [.slice [.leaf (.str b!"x"), .leaf (.str b!"y")]]) =
      [elem b!"doc" [att b!"k" b!"x", att b!"k" b!"y"] []] ∧
    p.again 10 (.ident b!"Doc") (elem b!"doc" [att b!"k" b!"x y"] []) = some [elem b!"doc" [att b!"k" b!"x y"] []] := by decide +kernel

/-- Text on both sides of an unknown element is put together. -/
example : (fromSchema (schemaO [xs b!"complexType" [(b!"name", b!"doc")] [xs b!"simpleContent" [] [xs b!"extension" [(b!"base", b!"xs:string")]
      [xs b!"attribute" [(b!"name", b!"k"), (b!"type", b!"xs:string")] []]]]])).prog.again 10 (.ident b!"Doc")
      (elem b!"doc" [att b!"k" b!"1"] [.text b!"x", txt b!"a" b!"1", .text b!"y"]) = some [elem b!"doc" [att b!"k" b!"1"] [.text b!"xy"]] := by
  decide +kernel

/-- C131 is false: the program for a type with a repeated date does not compile. -/
theorem C131_dates_refuted :
    let S := fromSchema (schemaO [complexType b!"doc" [] [xs b!"sequence" [] [declare1 b!"a" b!"xs:date" repeatedly]]])
    (S.prog.decls.get b!"Doc").map (·.expr) = some (.struct [⟨b!"A", .array (.ident b!"time.Time"), b!"xml:\"o a\""⟩]) ∧
    ((S.prog.overrides.get b!"Doc").getD []).map (fun o => (o.fieldName, o.fromType, o.toType)) = [(b!"A", b!"time.Time", b!"xsdDate")] ∧
    S.prog.reading b!"Doc" [⟨b!"A", .array (.ident b!"time.Time"), b!"xml:\"o a\""⟩] = none := by decide +kernel

/-- C131 is false: a date is written after the elements that follow it. -/
theorem C131_order_refuted :
    sequenceDoc [declare1 b!"a" b!"xs:date" [], declare1 b!"b" b!"xs:string" []] [txt b!"a" b!"2020-01-02", txt b!"b" b!"2"] =
      some [elem b!"doc" [] [txt b!"b" b!"2", txt b!"a" b!"2020-01-02"]] := by decide +kernel

/-- C131 is false: a qualified name is replaced by the name of the element it is in, written as two elements. -/
theorem C131_qname_refuted :
    sequenceDoc [declare1 b!"a" b!"xs:QName" []] [txt b!"a" b!"p:x"] =
      some [elem b!"doc" [] [elem b!"a" [] [.elem ⟨[], b!"Space"⟩ [] [.text b!"o"], .elem ⟨[], b!"Local"⟩ [] [.text b!"a"]]]] := by decide +kernel

/-- C131 is false: an element whose name starts with an underscore is lost, as its field is not exported. -/
theorem C131_unexported_refuted :
    sequenceDoc [declare1 b!"_id" b!"xs:string" []] [txt b!"_id" b!"x"] = some [elem b!"doc" [] []] ∧
    sequenceDoc [declare1 b!"a" b!"xs:int" [], declare1 b!"_id" b!"xs:string" [], declare1 b!"b" b!"xs:int" []]
      [txt b!"a" b!"1", txt b!"_id" b!"x", txt b!"b" b!"2"] = some [elem b!"doc" [] [txt b!"a" b!"1", txt b!"b" b!"2"]] := by decide +kernel

/-- C131 is false: the text between the elements of a type with mixed content is lost. -/
theorem C131_mixed_refuted :
    (fromSchema (schemaO [complexType b!"doc" [(b!"mixed", b!"true")] [xs b!"sequence" [] [declare1 b!"a" b!"xs:string" []]]])).prog.again 10
      (.ident b!"Doc") (elem b!"doc" [] [.text b!"x", txt b!"a" b!"1", .text b!"y"]) = some [elem b!"doc" [] [txt b!"a" b!"1"]] := by decide +kernel

/-- C131 is false: an element that is nil is lost. -/
theorem C131_nil_refuted :
    sequenceDoc [declare1 b!"a" b!"xs:string" [(b!"nillable", b!"true")]]
      [elem b!"a" [⟨⟨b!"http://www.w3.org/2001/XMLSchema-instance", b!"nil"⟩, b!"true"⟩] []] = some [elem b!"doc" [] []] := by decide +kernel

/-- A schema of the namespace `o` that says nothing about qualification. -/
def schemaU (attrs : List (Str × Str)) (types : List Element) : Element := xs b!"schema" ((b!"targetNamespace", b!"o") :: attrs) types

/-- C131 is false: local elements are expected in the namespace of the schema even if they are not qualified, as is the default; they are not read then.
An attribute that is qualified only because this is the default of the schema is written without its namespace. -/
theorem C131_form_refuted :
    (∀ form ∈ [[], [(b!"form", b!"unqualified")]],
      (fromSchema (schemaU [] [complexType b!"doc" [] [xs b!"sequence" [] [declare1 b!"a" b!"xs:string" form]]])).prog.again 10 (.ident b!"Doc")
        (elem b!"doc" [] [.elem ⟨[], b!"a"⟩ [] [.text b!"x"]]) = some [elem b!"doc" [] [elem b!"a" [] []]]) ∧
    (fromSchema (schemaU [(b!"attributeFormDefault", b!"qualified")] [complexType b!"doc" [] [xs b!"attribute" [(b!"name", b!"k"), (b!"type", b!"xs:string")] []]])).prog.again
      10 (.ident b!"Doc") (elem b!"doc" [⟨⟨b!"o", b!"k"⟩, b!"v"⟩] []) = some [elem b!"doc" [att b!"k" b!"v"] []] := by decide +kernel

/-- C131 is false: the methods of a type with a date called t do not compile, as they embed a type of this name; nor do those of a type called t. -/
theorem C131_embedded_refuted :
    (let S := fromSchema (schemaO [complexType b!"doc" [] [xs b!"sequence" [] [declare1 b!"t" b!"xs:date" []]]])
     (S.prog.decls.get b!"Doc").map (·.expr) = some (.struct [⟨b!"T", .ident b!"time.Time", b!"xml:\"o t\""⟩]) ∧
     S.prog.reading b!"Doc" [⟨b!"T", .ident b!"time.Time", b!"xml:\"o t\""⟩] = none) ∧
    (let S := fromSchema (schemaO [complexType b!"t" [] [xs b!"sequence" [] [declare1 b!"a" b!"xs:date" []]]])
     (S.prog.decls.get b!"T").map (·.expr) = some (.struct [⟨b!"A", .ident b!"time.Time", b!"xml:\"o a\""⟩]) ∧
     S.prog.reading b!"T" [⟨b!"A", .ident b!"time.Time", b!"xml:\"o a\""⟩] = none) := by decide +kernel

/-- The declaration of an attribute where the prefix `xml` can be used, as a reference to `xml:lang` becomes one. -/
def langAttr (name : Str) : Element :=
  .mk ⟨w3cSchemaNS, b!"attribute"⟩ [⟨⟨[], b!"name"⟩, name⟩, ⟨⟨[], b!"type"⟩, b!"xs:string"⟩]
    [⟨b!"http://www.w3.org/XML/1998/namespace", b!"xml"⟩, ⟨w3cSchemaNS, b!"xs"⟩, ⟨b!"o", b!"o"⟩] [] []

/-- C131 is false: a type with the attributes `lang` and `xml:lang` has two fields with the same tag, so its documents can not be read. Each of the
attributes can be read without the other. -/
theorem C131_attrs_refuted :
    let p := (fromSchema (schemaO [complexType b!"doc" [] [langAttr b!"lang", langAttr b!"xml:lang"]])).prog
    (p.decls.get b!"Doc").map (·.expr) = some (.struct
      [⟨b!"Lang", .ident b!"string", b!"xml:\"lang,attr,omitempty\""⟩, ⟨b!"LangAttr", .ident b!"string", b!"xml:\"lang,attr,omitempty\""⟩]) ∧
    p.again 10 (.ident b!"Doc") (elem b!"doc" [att b!"lang" b!"en"] []) = none ∧
    ∀ n ∈ [b!"lang", b!"xml:lang"], (fromSchema (schemaO [complexType b!"doc" [] [langAttr n]])).prog.again 10 (.ident b!"Doc")
      (elem b!"doc" [att b!"lang" b!"en"] []) = some [elem b!"doc" [att b!"lang" b!"en"] []] := by decide +kernel

/-- C131 is false: `MarshalXML` is not called for a value that is not a pointer, so its dates are written as times. -/
theorem C131_value_refuted :
    let p := (fromSchema (schemaO [complexType b!"doc" [] [xs b!"sequence" [] [declare1 b!"a" b!"xs:date" []]]])).prog
    ∃ z v, p.zero 10 (.ident b!"Doc") = some z ∧
      p.decode 10 (.ident b!"Doc") z (elem b!"doc" [] [txt b!"a" b!"2020-01-02"]) = some v ∧
      p.encode false ⟨b!"o", b!"doc"⟩ false (.ident b!"Doc") v = [elem b!"doc" [] [txt b!"a" b!"2020-01-02T00:00:00Z"]] := by
  refine ⟨.struct [.leaf (.time none)], .struct [.leaf (.time (some b!"2020-01-02"))], ?_, ?_, by decide +kernel⟩
  · rfl
  · rfl

end GoXml.Values
