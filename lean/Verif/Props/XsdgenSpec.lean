import Verif.Proofs.XsdgenSpec
import Verif.Proofs.XsdgenGen
import Verif.Props.XsdBuiltin
set_option autoImplicit false

/-! Theorems about the generated declarations: C46 (names of fields), C48 (order), C52 (built-in types),
C74 (fields), C75 (overrides), C76 (ranges). -/

namespace GoXml.Xsdgen
open Xsd GoMap

/-- An `Env` for examples: `strings.Title` for one word of ASCII letters. -/
def asciiEnv : Env :=
  ⟨fun _ => none, fun s => match s with
    | c :: cs => (if 97 ≤ c ∧ c ≤ 122 then c - 32 else c) :: cs
    | [] => [], fun _ t H => (t, H), fun s => s⟩

/-! ### C74 -/

/-- C74: the fields of a struct are at most one for text, then one for each element and one for each
attribute that is not ignored, in this order. -/
theorem C74_fields (env : Env) (cfg : Config) (n : Nat) (H : THeap) (t : ComplexT) (acc : Acc) (h : genFields env cfg n H t = .ok acc) :
    ∃ text elems attrs, acc.fields = text ++ elems ++ attrs ∧ TextField text ∧
      List.Forall₂ (ElemField env cfg H) (filterFields cfg t).2 elems ∧
      List.Forall₂ (AttrField env cfg H) (filterFields cfg t).1 attrs := by
  obtain ⟨a1, a2, h1, h2, h3⟩ := genFields_ok h
  obtain ⟨fs, e1, e2⟩ := elems_fields _ _ _ h2
  obtain ⟨gs, g1, g2⟩ := attrs_fields _ _ _ h3
  exact ⟨a1.fields, fs, gs, by rw [g1, e1], (charData_ok h1).1, e2, g2⟩

example : ((genFields asciiEnv {} 5 []
    { elements := [{ name := ⟨b!"ns", b!"e"⟩, type := .builtin 28, plural := true, optional := true },
                   { name := ⟨b!"ns", b!"f"⟩, type := .builtin 38 }, { wildcard := true, plural := true, type := .builtin 0 }]
      attributes := [{ name := ⟨b!"ns", b!"a"⟩, type := .builtin 14, attr := [⟨⟨[], b!"form"⟩, b!"qualified"⟩], optional := true },
                     { name := ⟨b!"ns", b!"e"⟩, type := .builtin 14 }] }).toOption.map fun acc => acc.fields) =
    some [⟨b!"E", .array (.ident b!"int"), b!"xml:\"ns e,omitempty\""⟩, ⟨b!"F", .ident b!"string", b!"xml:\"ns f\""⟩,
      ⟨b!"Items", .array (.ident b!"string"), b!"xml:\",any\""⟩, ⟨b!"A", .ident b!"bool", b!"xml:\"ns a,attr,omitempty\""⟩,
      ⟨b!"EAttr", .ident b!"bool", b!"xml:\"e,attr\""⟩] := by decide +kernel

/-! ### C46 -/

/-- C46, partial: the names of fields are distinct if no element is a wildcard, the text is not of a simple
type that has a name, and there are fewer than 1000 fields. -/
theorem C46_names_partial (env : Env) (cfg : Config) (n : Nat) (H : THeap) (t : ComplexT) (acc : Acc) (h : genFields env cfg n H t = .ok acc)
    (hw : ∀ el ∈ (filterFields cfg t).2, el.wildcard = false)
    (hm : t.mixed = true → ∀ b a, t.base = some b → Ancestor H b a → isSimple H a = false)
    (hl : (filterFields cfg t).2.length + (filterFields cfg t).1.length < 1000) : (acc.fields.map (·.name)).Nodup := by
  obtain ⟨a1, a2, h1, h2, h3⟩ := genFields_ok h
  obtain ⟨hN, hc⟩ := (charData_ok h1).2.1 hm
  obtain ⟨hN2, hc2⟩ := elems_names _ _ _ h2 hw (by omega) hN
  obtain ⟨k1, k2⟩ := attrs_names _ _ _ h3 (by omega) hN2
  rw [k1] at k2
  exact List.nodup_reverse.mp k2

/-- C46, partial, under the same conditions: each field has the Go name of its element or attribute, followed by a
number, `Attr`, or `Attr` and a number only if a field before it has this name. -/
theorem C46_chosen_partial (env : Env) (cfg : Config) (n : Nat) (H : THeap) (t : ComplexT) (acc : Acc) (h : genFields env cfg n H t = .ok acc)
    (hw : ∀ el ∈ (filterFields cfg t).2, el.wildcard = false)
    (hm : t.mixed = true → ∀ b a, t.base = some b → Ancestor H b a → isSimple H a = false)
    (hl : (filterFields cfg t).2.length + (filterFields cfg t).1.length < 1000) :
    ∃ text elems attrs, acc.fields = text ++ elems ++ attrs ∧ TextField text ∧
      NamedInTurn env cfg (fun x => ∃ j, x = natStr j) (text.map (·.name)) ((filterFields cfg t).2.map (·.name)) (elems.map (·.name)) ∧
      NamedInTurn env cfg (fun x => x = b!"Attr" ∨ ∃ j, x = b!"Attr" ++ natStr j) ((text ++ elems).map (·.name))
        ((filterFields cfg t).1.map (·.name)) (attrs.map (·.name)) := by
  obtain ⟨a1, a2, h1, h2, h3⟩ := genFields_ok h
  obtain ⟨hN, hc⟩ := (charData_ok h1).2.1 hm
  obtain ⟨hN2, hc2⟩ := elems_names _ _ _ h2 hw (by omega) hN
  obtain ⟨fs, e1, e2⟩ := elems_chosen _ _ _ h2 hw (by omega) hN
  obtain ⟨gs, g1, g2⟩ := attrs_chosen _ _ _ h3 (by omega) hN2
  rw [e1] at g1 g2
  exact ⟨a1.fields, fs, gs, g1, (charData_ok h1).1, e2, g2⟩

example : ∃ acc, genFields asciiEnv {} 5 [.simple {}]
    { mixed := true, base := some (.builtin 38)
      elements := [{ name := ⟨[], b!"value"⟩, type := .builtin 28 }, { name := ⟨[], b!"Value"⟩, type := .builtin 38 }]
      attributes := [{ name := ⟨[], b!"value"⟩, type := .builtin 14 }, { name := ⟨b!"x", b!"value"⟩, type := .builtin 14 }] } = .ok acc ∧
    acc.fields.map (·.name) = [b!"Value", b!"Value0", b!"Value1", b!"ValueAttr", b!"ValueAttr0"] ∧
    (∀ b a, some (Ty.builtin 38) = some b → Ancestor [.simple {}] b a → isSimple [.simple {}] a = false) := by
  refine ⟨_, rfl, by decide +kernel, ?_⟩
  intro b a hb ha
  cases hb
  cases ha with
  | self => rfl
  | base h _ => cases h

/-- C46 is false: the name of a field for a wildcard is not checked. The first type has an element `items`
and a wildcard, the second has two wildcards. -/
theorem C46_wildcard_refuted :
    ((genFields asciiEnv {} 5 []
      { elements := [{ name := ⟨[], b!"items"⟩, type := .builtin 28 }, { wildcard := true, plural := true, type := .builtin 0 }]
      }).toOption.map fun acc => acc.fields.map (·.name)) = some [b!"Items", b!"Items"] ∧
    ((genFields asciiEnv {} 5 []
      { elements := [{ wildcard := true, type := .builtin 0 }, { wildcard := true, type := .builtin 0 }]
      }).toOption.map fun acc => acc.fields.map (·.name)) = some [b!"Item", b!"Item"] := by decide +kernel

/-- C46 is false: the name of the field for text of a simple type is not remembered. A type extends the simple
type `code` and has an attribute of this name. -/
theorem C46_text_refuted :
    ((genFields asciiEnv {} 5 [.simple { name := ⟨[], b!"code"⟩, base := some (.builtin 38) }]
      { mixed := true, base := some (.obj 0), attributes := [{ name := ⟨[], b!"code"⟩, type := .builtin 28 }]
      }).toOption.map fun acc => acc.fields.map (·.name)) = some [b!"Code", b!"Code"] := by decide +kernel

/-! ### C75 -/

/-- C75, partial: an override converts a field of the struct, of the type and with the tag that it says, if
no element that is a wildcard or may occur more than once has a default or is of a special type. -/
theorem C75_overrides_partial (env : Env) (cfg : Config) (n : Nat) (H : THeap) (t : ComplexT) (acc : Acc)
    (h : genFields env cfg n H t = .ok acc)
    (hp : ∀ el ∈ (filterFields cfg t).2, el.plural = true ∨ el.wildcard = true →
      el.dflt = [] ∧ ∀ b, el.type = .builtin b → builtinName b ∉ specialBuiltins.map (XName.mk schemaNS)) :
    ∀ o ∈ acc.overrides, ∃ f ∈ acc.fields, f.name = o.fieldName ∧ exprText f.type = o.fromType ∧ f.tag = o.tag := by
  obtain ⟨a1, a2, h1, h2, h3⟩ := genFields_ok h
  refine attrs_overrides _ _ _ h3 (elems_overrides _ _ _ h2 ?_ (charData_ok h1).2.2)
  intro el hel hc
  obtain ⟨k1, k2⟩ := hp el hel hc
  refine ⟨?_, k1⟩
  cases ht : el.type with
  | link x => rfl
  | obj id => rfl
  | builtin b =>
    cases hn : nonTrivialBuiltin (some (.builtin b)) with
    | false => rfl
    | true =>
      refine absurd ?_ (k2 b ht)
      simp only [nonTrivialBuiltin, decide_eq_true_eq] at hn
      have : ∀ b ∈ ([13, 27, 16, 39, 17, 22, 23, 24, 25, 26] : List Int), builtinName b ∈ specialBuiltins.map (XName.mk schemaNS) := by
        decide +kernel
      exact this b hn

example : ((genFields asciiEnv (addStandardHelpers {}) 5 []
      { elements := [{ name := ⟨[], b!"day"⟩, type := .builtin 16 }, { name := ⟨[], b!"n"⟩, type := .builtin 28, dflt := b!"1" }]
      }).toOption.map fun acc => acc.overrides.map fun o => (o.fieldName, o.fromType, o.toType)) =
    some [(b!"Day", b!"time.Time", b!"xsdDate"), (b!"N", b!"int", b!"int")] := by decide +kernel

/-- C75 is false: for an element of type `date` that may occur more than once the struct has a field of type
`[]time.Time`, which the override converts to `*xsdDate`; that does not compile. -/
theorem C75_overrides_refuted :
    ((genFields asciiEnv (addStandardHelpers {}) 5 []
      { elements := [{ name := ⟨[], b!"day"⟩, type := .builtin 16, plural := true }] }).toOption.map fun acc =>
        (acc.fields.map fun f => (f.name, exprText f.type), acc.overrides.map fun o => (o.fieldName, o.fromType, o.toType))) =
    some ([(b!"Day", b!"[]time.Time")], [(b!"Day", b!"time.Time", b!"xsdDate")]) := by decide +kernel

/-! ### C48 -/

/-- C48, partial: what is printed is a function of the map of declarations. -/
theorem C48_printed_partial (srt srt' : Sorter strLt) (c c' : Code) (hw : WF c.decls) (hp : c.decls.Perm c'.decls)
    (hn : c.pkgname = c'.pkgname) : genAST srt c = genAST srt' c' :=
  genAST_same srt srt' ⟨hw, (hp.map _).nodup_iff.mp hw, get_perm hw hp⟩ hn

/-- The names of the types declared in a file. -/
def declared (ds : List GoDecl) : List Str :=
  ds.filterMap fun d => match d with
    | .type _ n _ => some n
    | .func _ => none

/-- C48: the types are declared in the order of their names, each once. -/
theorem C48_sorted (srt : Sorter strLt) (c : Code) (hw : WF c.decls) :
    (declared (genAST srt c).2).Perm (c.decls.map (·.1)) ∧
    (declared (genAST srt c).2).Pairwise (fun a b => strLt a b = true) := by
  have key : ∀ (ks : List Str), (∀ k ∈ ks, get c.decls k ≠ none) →
      declared (ks.flatMap fun name => match get c.decls name with
        | some s => .type s.doc name s.expr :: s.methods.map .func
        | none => []) = ks := by
    intro ks
    induction ks with
    | nil => intro _; rfl
    | cons k ks ih =>
      intro hk
      have hrec := ih (fun x hx => hk x (List.mem_cons_of_mem _ hx))
      cases hg : get c.decls k with
      | none => exact absurd hg (hk k (List.mem_cons_self ..))
      | some s =>
        rw [List.flatMap_cons]
        simp only [hg]
        unfold declared at hrec ⊢
        rw [List.cons_append, List.filterMap_cons, List.filterMap_append, hrec]
        simp [List.filterMap_map, Function.comp_def]
  have hks : ∀ k ∈ srt.sort (c.decls.map (·.1)), get c.decls k ≠ none := by
    intro k hk hn
    exact get_none.mp hn ((srt.perm _).mem_iff.mp hk)
  have : declared (genAST srt c).2 = srt.sort (c.decls.map (·.1)) := key _ hks
  rw [this]
  refine ⟨srt.perm _, ((srt.sorted _).and ((srt.perm _).nodup_iff.mpr hw)).imp ?_⟩
  rintro a b ⟨h1, h2⟩
  cases h3 : strLt a b with
  | true => rfl
  | false => exact absurd (strLt_tri h3 h1) h2

/-- C48, partial: for types with different Go names the file does not depend on the order in which the types are
generated, nor on the order in which their dependencies are added. -/
theorem C48_order_partial (srt srt' : Sorter strLt) (cfg : Config) (ss ss' : List Spec) (h : ss.Perm ss')
    (hnd : (ss.map (·.name)).Nodup) (c c' : Code) (hc : c.decls = (finish srt (addStandardHelpers cfg) ss).1)
    (hc' : c'.decls = (finish srt' (addStandardHelpers cfg) ss').1) (hn : c.pkgname = c'.pkgname) :
    genAST srt c = genAST srt' c' := by
  refine genAST_same srt srt' ?_ hn
  rw [hc, hc']
  refine finish_same srt srt' _ h hnd ?_
  intro d d' x x' hx hx' hn
  have key : ∀ p ∈ (addStandardHelpers {}).helperTypes, ∀ q ∈ (addStandardHelpers {}).helperTypes, p.2.name = q.2.name → p.1 = q.1 := by
    decide +kernel
  exact key _ (get_some_mem hx) _ (get_some_mem hx') hn

/-- The names of the types declared in the file, with their expressions. -/
def declaredExprs (ds : List GoDecl) : List (Str × DeclExpr) :=
  ds.filterMap fun d => match d with
    | .type _ n e => some (n, e)
    | .func _ => none

example : declared (genAST (Sorter.byKey fun s => s) { decls := (finish (Sorter.byKey fun s => s) (addStandardHelpers {})
    [{ name := b!"B", expr := .struct [], xsdType := .obj 0, helperTypes := [builtinName 16, builtinName 13] },
     { name := b!"A", expr := .struct [], xsdType := .obj 1, helperTypes := [builtinName 16] }]).1 }).2 =
    [b!"A", b!"B", b!"xsdBase64Binary", b!"xsdDate"] := by decide +kernel

/-- C48 is false: type `t` is derived from `x`, which extends `string` without attributes. If `t` is visited
before `u`, the field of type `t` in `u` becomes a string. -/
theorem C48_order_refuted :
    let H : THeap := [.complex { name := ⟨[], b!"x"⟩, base := some (.builtin 38), extends_ := true, mixed := true },
      .complex { name := ⟨[], b!"t"⟩, base := some (.obj 0), extends_ := true, mixed := true },
      .complex { name := ⟨[], b!"u"⟩, base := some (.builtin 0), elements := [{ name := ⟨[], b!"e"⟩, type := .obj 1 }] }]
    let types : List (XName × Ty) := [(⟨[], b!"x"⟩, .obj 0), (⟨[], b!"t"⟩, .obj 1), (⟨[], b!"u"⟩, .obj 2)]
    let types' : List (XName × Ty) := [(⟨[], b!"x"⟩, .obj 0), (⟨[], b!"u"⟩, .obj 2), (⟨[], b!"t"⟩, .obj 1)]
    let file (ts : List (XName × Ty)) := ((gen asciiEnv (Sorter.byKey fun s => s) {} 20 [{ types := ts }] [] H).toOption.map fun r =>
      declaredExprs (genAST (Sorter.byKey fun s => s) r.2.1).2)
    types.Perm types' ∧
    file types = some [(b!"T", .struct [⟨b!"Value", .ident b!"string", b!"xml:\",chardata\""⟩]),
      (b!"U", .struct [⟨b!"E", .ident b!"string", b!"xml:\" e\""⟩])] ∧
    file types' = some [(b!"T", .struct [⟨b!"Value", .ident b!"string", b!"xml:\",chardata\""⟩]),
      (b!"U", .struct [⟨b!"E", .ident b!"T", b!"xml:\" e\""⟩])] := by
  intro H types types' file
  exact ⟨by decide +kernel, by decide +kernel, by decide +kernel⟩

/-- C48 is false also if two types have the same Go name: the one generated last is declared. -/
theorem C48_clash_refuted :
    let H : THeap := [.complex { name := ⟨[], b!"a"⟩, base := some (.builtin 0), elements := [{ name := ⟨[], b!"e"⟩, type := .builtin 28 }] },
      .complex { name := ⟨[], b!"A"⟩, base := some (.builtin 0) }]
    let types : List (XName × Ty) := [(⟨[], b!"a"⟩, .obj 0), (⟨[], b!"A"⟩, .obj 1)]
    let file (ts : List (XName × Ty)) := ((gen asciiEnv (Sorter.byKey fun s => s) {} 20 [{ types := ts }] [] H).toOption.map fun r =>
      declaredExprs (genAST (Sorter.byKey fun s => s) r.2.1).2)
    file types = some [(b!"A", .struct [])] ∧
    file types.reverse = some [(b!"A", .struct [⟨b!"E", .ident b!"int", b!"xml:\" e\""⟩])] := by
  intro H types file
  exact ⟨by decide +kernel, by decide +kernel⟩

/-! ### C52 -/

/-- C52, partial: every built-in type of XML Schema has the Go type given in `goTypes`, and numbers that are
no built-in type have none, except for the first one after the last. -/
theorem C52_table_partial :
    (∀ b : Int, 0 ≤ b → b < 50 → (builtinName b).space = schemaNS →
      ∃ e, builtinExpr b = .ok (some e) ∧ ((builtinName b).loc, exprText e) ∈ goTypes) ∧
    (∀ b : Int, b < 0 ∨ 50 < b → builtinExpr b = .ok none) := by
  constructor
  · intro b h1 h2
    have key : ∀ b : Int, 0 ≤ b → b < 50 → (builtinName b).space = schemaNS →
        ((builtinExpr b).toOption.bind fun o => o.map fun e => decide (((builtinName b).loc, exprText e) ∈ goTypes)) = some true :=
      builtin_cases _ (by decide +kernel)
    intro hs
    have := key b h1 h2 hs
    cases hb : builtinExpr b with
    | ok o =>
      cases o with
      | none => rw [hb] at this; cases this
      | some e =>
        rw [hb] at this
        simp only [Run.toOption, Option.bind_some, Option.map_some, Option.some.injEq, decide_eq_true_eq] at this
        exact ⟨e, rfl, this⟩
    | error => rw [hb] at this; cases this
    | panic => rw [hb] at this; cases this
    | running => rw [hb] at this; cases this
  · intro b h
    have hl : (builtinTbl.length : Int) = 50 := rfl
    rw [builtinExpr, if_pos (by rw [hl]; rcases h with h | h; exacts [Or.inr h, Or.inl h])]

example : builtinExpr 28 = .ok (some (.ident b!"int")) ∧ (b!"int", b!"int") ∈ goTypes := ⟨rfl, by decide⟩

/-- C52 is false: the attributes of the xml namespace are built-in types without Go type, and looking up the
first number after the last built-in type panics. -/
theorem C52_table_refuted :
    (∀ b : Int, b ∈ ([45, 46, 47, 48] : List Int) → parseBuiltin (builtinName b) = some b ∧ builtinExpr b = .ok none) ∧
    builtinExpr 50 = .panic := by
  refine ⟨?_, rfl⟩
  intro b hb
  simp only [List.mem_cons, List.not_mem_nil, or_false] at hb
  rcases hb with rfl | rfl | rfl | rfl <;> exact ⟨by decide +kernel, rfl⟩

/-- C52: the types that need methods have a helper type, which has the Go type of the built-in type and
methods to read and write text. -/
theorem C52_helpers (cfg : Config) (b : Builtin) (h0 : 0 ≤ b) (h1 : b < 50) (h : builtinName b ∈ specialBuiltins.map (XName.mk schemaNS)) :
    ∃ s e, get (addStandardHelpers cfg).helperTypes (builtinName b) = some s ∧ s.xsdType = .builtin b ∧ s.expr = .plain e ∧
      builtinExpr b = .ok (some e) ∧ nonTrivialBuiltin (some (.builtin b)) = true ∧
      (∃ m ∈ s.methods, m.name = b!"UnmarshalText") ∧ (∃ m ∈ s.methods, m.name = b!"MarshalText") ∧
      ∀ f ∈ s.helperFuncs, get (addStandardHelpers cfg).helperFuncs f ≠ none := by
  have key : ∀ b : Int, 0 ≤ b → b < 50 → builtinName b ∈ specialBuiltins.map (XName.mk schemaNS) →
      ((get (addStandardHelpers {}).helperTypes (builtinName b)).bind fun s => (builtinExpr b).toOption.bind fun o => o.map fun e =>
        decide (s.xsdType = .builtin b ∧ s.expr = .plain e ∧ nonTrivialBuiltin (some (.builtin b)) = true ∧
          (∃ m ∈ s.methods, m.name = b!"UnmarshalText") ∧ (∃ m ∈ s.methods, m.name = b!"MarshalText") ∧
          ∀ f ∈ s.helperFuncs, get (addStandardHelpers {}).helperFuncs f ≠ none)) = some true :=
    builtin_cases _ (by decide +kernel)
  have := key b h0 h1 h
  change ((get (addStandardHelpers cfg).helperTypes (builtinName b)).bind _) = _ at this
  cases hs : get (addStandardHelpers cfg).helperTypes (builtinName b) with
  | none => rw [hs] at this; cases this
  | some s =>
    rw [hs] at this
    cases hb : builtinExpr b with
    | ok o =>
      cases o with
      | none => rw [hb] at this; cases this
      | some e =>
        rw [hb] at this
        simp only [Run.toOption, Option.bind_some, Option.map_some, Option.some.injEq, decide_eq_true_eq] at this
        obtain ⟨k1, k2, k3, k4, k5, k6⟩ := this
        exact ⟨s, e, rfl, k1, k2, rfl, k3, k4, k5, k6⟩
    | error => rw [hb] at this; cases this
    | panic => rw [hb] at this; cases this
    | running => rw [hb] at this; cases this

example : builtinName 16 ∈ specialBuiltins.map (XName.mk schemaNS) := by decide

/-- C52: the helper types for times read and write themselves, also as attributes and if they are zero, and those for binary data read and write
their text; the methods that read have a pointer as receiver. -/
theorem C52_methods (cfg : Config) (b : Builtin) (h : b ∈ ([16, 17, 22, 23, 24, 25, 26, 39, 27, 13] : List Int)) :
    ∃ s r, get (addStandardHelpers cfg).helperTypes (builtinName b) = some s ∧ s.name = b!"xsd" ++ builtinString b ∧ r ∈ [b!"t", b!"b"] ∧
      s.methods.map (fun m => (m.recv, m.name)) = [(r ++ b!" *" ++ s.name, b!"UnmarshalText"), (r ++ b!" " ++ s.name, b!"MarshalText")] ++
        (if b = 27 ∨ b = 13 then [] else [(r ++ b!" " ++ s.name, b!"MarshalXML"), (r ++ b!" " ++ s.name, b!"MarshalXMLAttr")]) := by
  simp only [List.mem_cons, List.not_mem_nil, or_false] at h
  rcases h with rfl | rfl | rfl | rfl | rfl | rfl | rfl | rfl | rfl | rfl
  all_goals first
    | exact ⟨_, b!"t", rfl, rfl, by decide, rfl⟩
    | exact ⟨_, b!"b", rfl, rfl, by decide, rfl⟩

/-! ### C76 -/

/-- C76, partial: the Go type of the types from `short` to `unsignedLong` has all values of the type. -/
theorem C76_fits_partial (b : Builtin) (h0 : 0 ≤ b) (h1 : b < 50) (l : Str) (r : Option Int × Option Int)
    (hn : builtinName b = ⟨schemaNS, l⟩) (hr : (l, r) ∈ xsdRange)
    (hl : l ∈ [b!"short", b!"int", b!"long", b!"unsignedByte", b!"unsignedShort", b!"unsignedInt", b!"unsignedLong"]) :
    ∃ g lo hi, builtinExpr b = .ok (some (.ident g)) ∧ (g, lo, hi) ∈ goRange ∧ ∀ i, InRange r i → lo ≤ i ∧ i ≤ hi := by
  have key : ∀ b : Int, 0 ≤ b → b < 50 → ∀ p ∈ xsdRange, builtinName b = ⟨schemaNS, p.1⟩ →
      p.1 ∈ [b!"short", b!"int", b!"long", b!"unsignedByte", b!"unsignedShort", b!"unsignedInt", b!"unsignedLong"] →
      ∃ q ∈ goRange, (builtinExpr b).toOption = some (some (.ident q.1)) ∧ p.2.1.any (fun m => decide (q.2.1 ≤ m)) = true ∧
        p.2.2.any (fun m => decide (m ≤ q.2.2)) = true := builtin_cases _ (by decide +kernel)
  obtain ⟨q, hq, he, hlo, hhi⟩ := key b h0 h1 (l, r) hr hn hl
  refine ⟨q.1, q.2.1, q.2.2, ?_, hq, ?_⟩
  · cases hb : builtinExpr b with
    | ok o => rw [hb] at he; cases he; rfl
    | error => rw [hb] at he; cases he
    | panic => rw [hb] at he; cases he
    | running => rw [hb] at he; cases he
  · intro i hi
    simp only [Option.any_eq_true, decide_eq_true_eq] at hlo hhi
    obtain ⟨m, hm, hlo⟩ := hlo
    obtain ⟨m', hm', hhi⟩ := hhi
    have := hi.1 m hm
    have := hi.2 m' hm'
    omega

example : builtinName 28 = ⟨schemaNS, b!"int"⟩ ∧ (b!"int", some (-2147483648), some 2147483647) ∈ xsdRange := by decide

/-- C76 is false for `byte`, whose Go type has no negative values, and for the types without bounds. -/
theorem C76_fits_refuted :
    (builtinName 15 = ⟨schemaNS, b!"byte"⟩ ∧ builtinExpr 15 = .ok (some (.ident b!"byte")) ∧ (b!"byte", some (-128), some 127) ∈ xsdRange ∧
      InRange (some (-128), some 127) (-1) ∧ (b!"byte", 0, 255) ∈ goRange) ∧
    (builtinName 36 = ⟨schemaNS, b!"positiveInteger"⟩ ∧ builtinExpr 36 = .ok (some (.ident b!"int")) ∧
      (b!"positiveInteger", some 1, none) ∈ xsdRange ∧ InRange (some 1, none) 9223372036854775808 ∧
      (b!"int", -9223372036854775808, 9223372036854775807) ∈ goRange) := by
  refine ⟨⟨by decide, rfl, by decide, ?_, by decide⟩, ⟨by decide, rfl, by decide, ?_, by decide⟩⟩
  · constructor <;> intro m h <;> cases h <;> decide
  · constructor <;> intro m h <;> cases h
    decide

end GoXml.Xsdgen
