import Verif.Proofs.XsdgenName
import Verif.Proofs.XsdgenUnknown
import Verif.Proofs.XsdgenCheck
import Verif.Props.XsdgenClosed
set_option autoImplicit false

/-! Properties of the names that `NameOf` answers: C101 and C102. -/

namespace GoXml.Xsdgen
open Xsd GoMap

/-! ### C101 -/

/-- C101, for schemas in which complex types that are derived from simple ones have attributes: for every selected
type, `NameOf` answers with a Go type that is predeclared or declared in the file, and it answers the same
whatever has been asked before. The full statement is without the condition `Attributed`; it is refuted below. -/
theorem C101_usable_partial (env : Env) (srt srt' : Sorter strLt) (n k : Nat) (parse : List Doc → Outcome (List Schema × THeap))
    (cfg cfg' : Config) (docs : List Doc) (schemas : List Schema) (H H' : THeap) (code : Code) (hp : parse docs = .ok (schemas, H))
    (hres : Resolved H) (hown : OwnNames H) (hbased : Based H) (hsb : SchemaBased H) (hattr : Attributed cfg H)
    (htop : ∀ s ∈ schemas, ∀ e ∈ s.types, ∀ m, e.2 ≠ .link m) (hkeys : Keyed schemas H)
    (hone : ∀ s ∈ schemas, ∀ s' ∈ schemas, ∀ k t t', (k, t) ∈ s.types → (k, t') ∈ s'.types → t = t')
    (hpre : Untouched cfg H schemas) (h : genCode env srt n parse cfg docs = (cfg', .done (.ok (H', code))))
    (s : Schema) (hs : s ∈ schemas) (hns : s.targetNS ∈ cfg.namespaces) (id : Nat) (o : TObj) (he : (o.name, Ty.obj id) ∈ s.types)
    (ho : H[id]? = some o) (hsel : Selected cfg o.name) (hname : o.name.loc ≠ [] ∧ o.name.loc ≠ b!"_self") :
    ∃ text, Usable (genAST srt' code).2 text ∧ ∀ H1 code1 r, AfterCalls env cfg' n k H' code H1 code1 →
      nameOf env cfg' n k H1 code1 o.name = .ok r → r.2.2 = text := by
  obtain ⟨ns, primaries, r, hg, rfl, rfl, rfl, hne, hmem⟩ := genCode_ok hp h
  have hns' : ns = cfg.namespaces := hne (fun e => by rw [e] at hns; cases hns)
  have hall : ∀ s ∈ primaries ++ schemas, s ∈ schemas := by
    intro s hs
    rcases List.mem_append.mp hs with h | h
    · exact ((hmem s).mp h).1
    · exact h
  obtain ⟨text, hu, hR⟩ := (gen_ready (cfg := addStandardHelpers { cfg with namespaces := ns }) (hpre.some_of fun s hs => ((hmem s).mp hs).1) ⟨hres.linked, hown, hbased, hattr⟩ hsb
    (fun s hs => htop s (hall s hs)) (fun s hs s' hs' => hone s (hall s hs) s' (hall s' hs')) hg srt').2
    s ((hmem s).mpr ⟨hs, by rw [hns']; exact hns⟩) id o he ho (keyed_one hown htop hkeys hone ho hs he |> fun h s hs => h s (hall s hs)) ((skipped_iff _ _).mpr ⟨hname.2, hsel⟩) (fun e => hname.1 (by rw [e]))
  refine ⟨text, hu, ?_⟩
  intro H1 code1 r1 ha h1
  exact (nameOf_ready _ _ _ _ _ (after_ready ha hR) h1).2.1 trivial rfl

/-- C101, for the built-in types of XML Schema: the answer is the text of a predeclared Go type, the same whatever
has been asked before. -/
theorem C101_builtin_partial (env : Env) (srt : Sorter strLt) (n k : Nat) (parse : List Doc → Outcome (List Schema × THeap))
    (cfg cfg' : Config) (docs : List Doc) (schemas : List Schema) (H H' : THeap) (code : Code) (hp : parse docs = .ok (schemas, H))
    (hres : Resolved H) (hown : OwnNames H) (hbased : Based H) (hsb : SchemaBased H) (hattr : Attributed cfg H)
    (htop : ∀ s ∈ schemas, ∀ e ∈ s.types, ∀ m, e.2 ≠ .link m) (hkeys : Keyed schemas H)
    (hone : ∀ s ∈ schemas, ∀ s' ∈ schemas, ∀ k t t', (k, t) ∈ s.types → (k, t') ∈ s'.types → t = t')
    (hpre : Untouched cfg H schemas) (h : genCode env srt n parse cfg docs = (cfg', .done (.ok (H', code))))
    (b : Builtin) (hb : 0 ≤ b ∧ b < 50 ∧ (builtinName b).space = schemaNS) :
    ∃ e, leafName e ∈ predeclared ∧ ∀ H1 code1 r, AfterCalls env cfg' n k H' code H1 code1 →
      nameOf env cfg' n k H1 code1 (builtinName b) = .ok r → r.2.2 = exprText e := by
  obtain ⟨ns, primaries, r, hg, rfl, rfl, rfl, hne, hmem⟩ := genCode_ok hp h
  have hall : ∀ s ∈ primaries ++ schemas, s ∈ schemas := by
    intro s hs
    rcases List.mem_append.mp hs with h | h
    · exact ((hmem s).mp h).1
    · exact h
  have hR := (gen_ready (cfg := addStandardHelpers { cfg with namespaces := ns }) (hpre.some_of fun s hs => ((hmem s).mp hs).1) ⟨hres.linked, hown, hbased, hattr⟩ hsb
    (fun s hs => htop s (hall s hs)) (fun s hs s' hs' => hone s (hall s hs) s' (hall s' hs')) hg srt).1
  obtain ⟨e, he, hk⟩ := builtinExpr_schema b hb.1 hb.2.1 hb.2.2
  refine ⟨e, hk, ?_⟩
  intro H1 code1 r1 ha h1
  exact (nameOf_ready _ _ _ _ _ (after_ready ha hR) h1).2.2 b e hb.1 hb.2.1 rfl he

/-- C152: asked for a name that no schema declares, that no type has and that is not built in, `NameOf` answers that it is not found, whatever has
been asked before, and changes nothing. -/
theorem C152_unknown (env : Env) (srt : Sorter strLt) (n k k' : Nat) (parse : List Doc → Outcome (List Schema × THeap))
    (cfg cfg' : Config) (docs : List Doc) (schemas : List Schema) (H H' : THeap) (code : Code) (hp : parse docs = .ok (schemas, H))
    (hres : Resolved H) (hown : OwnNames H) (hbased : Based H) (hsb : SchemaBased H) (hattr : Attributed cfg H)
    (htop : ∀ s ∈ schemas, ∀ e ∈ s.types, ∀ m, e.2 ≠ .link m)
    (hone : ∀ s ∈ schemas, ∀ s' ∈ schemas, ∀ k t t', (k, t) ∈ s.types → (k, t') ∈ s'.types → t = t')
    (hpre : Untouched cfg H schemas) (h : genCode env srt n parse cfg docs = (cfg', .done (.ok (H', code))))
    (name : XName) (hname : name ≠ ⟨[], []⟩) (hb : ∀ b : Int, 0 ≤ b → b < 50 → name ≠ builtinName b) (hno : ∀ s ∈ schemas, ∀ t, (name, t) ∉ s.types)
    (hobj : ∀ o ∈ H, o.name ≠ name) (H1 : THeap) (code1 : Code) (ha : AfterCalls env cfg' n k H' code H1 code1) :
    nameOf env cfg' n (k' + 1) H1 code1 name = .ok (H1, code1, b!"NOTFOUND" ++ name.loc) := by
  obtain ⟨ns, primaries, r, hg, rfl, rfl, rfl, hne, hmem⟩ := genCode_ok hp h
  have hall : ∀ s ∈ primaries ++ schemas, s ∈ schemas := by
    intro s hs
    rcases List.mem_append.mp hs with h | h
    · exact ((hmem s).mp h).1
    · exact h
  have hnb : parseBuiltin name = none := by
    cases hq : parseBuiltin name with
    | none => rfl
    | some b =>
      obtain ⟨b0, b1, e⟩ := (C26_parse_only _ _).mp hq
      exact absurd e.symm (hb b b0 b1)
  have hU := after_unheard hnb ha (gen_unheard (cfg := addStandardHelpers { cfg with namespaces := ns }) (hpre.some_of fun s hs => ((hmem s).mp hs).1) ⟨hres.linked, hown, hbased, hattr⟩ hsb
    (fun s hs => htop s (hall s hs)) (fun s hs s' hs' => hone s (hall s hs) s' (hall s' hs')) hg name (fun s hs => hno s (hall s hs)) (by
      intro id
      simp only [xmlName]
      split
      · rename_i o ho
        exact hobj o (List.mem_of_getElem? ho)
      · exact hname.symm))
  have h1 : code1.types.get name = none := by rw [hU.ready.types]; exact hU.absent
  have h2 : code1.names.get name = none := hU.asked
  simp only [nameOf, h2, hnb, h1]

/-- The text of a type that is not a slice names the type. -/
theorem usable_name {ds : List GoDecl} {text : Str} (h : Usable ds text) (hs : text.head? ≠ some 0x5b) :
    text ∈ predeclared ∨ ∃ doc d, GoDecl.type doc text d ∈ ds := by
  obtain ⟨e, rfl, h⟩ := h
  cases e with
  | ident s => exact h
  | array e => exact (hs rfl).elim

/-- The elements of the document type. -/
def docElements (H : THeap) : List XElem := H.flatMap fun
  | .complex c => if c.name.loc == b!"_self" then c.elements else []
  | .simple _ => []

/-- The types of namespace u and those of namespace v, of which only u is selected. Those of elements stand under the
names of the elements, too. -/
def C101_schemas (H : THeap) : List Schema :=
  [b!"u", b!"v"].map fun ns => { targetNS := ns, types :=
    ((H.zipIdx.filter fun (p : TObj × Nat) => p.1.name.space == ns).map fun (p : TObj × Nat) => (p.1.name, .obj p.2)) ++
    ((docElements H).filter fun e => e.name.space == ns).map fun e => (e.name, e.type) }

def C101_parse (H : THeap) : List Doc → Outcome (List Schema × THeap) := fun _ => .ok (C101_schemas H, H)

def C101_cfg : Config := { namespaces := [b!"u"] }

/-- The code made from types, and the configuration with which questions are answered. -/
def C101_code (H : THeap) : Option (Config × THeap × Code) :=
  match genCode asciiEnv (Sorter.byKey fun s => s) 20 (C101_parse H) C101_cfg [] with
  | (cfg, .done (.ok r)) => some (cfg, r)
  | _ => none

/-- The answers to questions asked one after the other. -/
def answers (cfg : Config) : THeap → Code → List XName → Option (List Str)
  | _, _, [] => some []
  | H, code, q :: qs => (nameOf asciiEnv cfg 20 3 H code q).toOption.bind fun r => (answers cfg r.1 r.2.1 qs).map (r.2.2 :: ·)

theorem C101_code_some {H : THeap} {x : Config × THeap × Code} (h : C101_code H = some x) :
    genCode asciiEnv (Sorter.byKey fun s => s) 20 (C101_parse H) C101_cfg [] = (x.1, .done (.ok x.2)) := by
  simp only [C101_code] at h
  split at h
  · next cfg r hg => cases h; exact hg
  · cases h

/-- An enumeration, a complex type that adds an attribute, another name for the enumeration, a date, a list, two types
in a namespace that is not selected, and the elements e, f and g of namespace u. -/
def C101_heap : THeap :=
  [.simple { name := ⟨b!"u", b!"s"⟩, base := some (.builtin 38), restriction := { enum := [b!"x", b!"y"] } },
   .complex { name := ⟨b!"u", b!"c"⟩, base := some (.obj 0), extends_ := true, mixed := true,
              attributes := [{ name := ⟨[], b!"a"⟩, type := .builtin 28 }] },
   .simple { name := ⟨b!"u", b!"t"⟩, base := some (.builtin 38) },
   .simple { name := ⟨b!"u", b!"day"⟩, base := some (.builtin 16) },
   .simple { name := ⟨b!"u", b!"l"⟩, base := some (.builtin 28), list := true },
   .complex { name := ⟨b!"v", b!"d"⟩, base := some (.builtin AnyType), elements := [{ name := ⟨b!"v", b!"e"⟩, type := .obj 1 }] },
   .complex { name := ⟨b!"v", b!"f"⟩, base := some (.obj 5) },
   .complex { name := ⟨b!"u", b!"_self"⟩, base := some (.builtin AnyType), elements :=
    [{ name := ⟨b!"u", b!"e"⟩, type := .obj 1 }, { name := ⟨b!"u", b!"f"⟩, type := .obj 2 }, { name := ⟨b!"u", b!"g"⟩, type := .builtin 16 }] }]

/-- The types meet the conditions of the two theorems. -/
example : Resolved C101_heap ∧ OwnNames C101_heap ∧ Based C101_heap ∧ SchemaBased C101_heap ∧ Attributed C101_cfg C101_heap ∧
    (∃ schemas, C101_parse C101_heap [] = .ok (schemas, C101_heap) ∧ (∀ s ∈ schemas, ∀ e ∈ s.types, ∀ m, e.2 ≠ .link m) ∧
      Keyed schemas C101_heap ∧
      ∀ s ∈ schemas, ∀ s' ∈ schemas, ∀ k t t', (k, t) ∈ s.types → (k, t') ∈ s'.types → t = t') ∧
    (∀ n, Selected C101_cfg n) ∧
    (C101_code C101_heap).map (fun x => (declaredExprs (genAST (Sorter.byKey fun s => s) x.2.2).2).map (·.1)) =
      some [b!"C", b!"Day", b!"L", b!"S", b!"xsdDate"] ∧
    (C101_code C101_heap).bind (fun x => answers x.1 x.2.1 x.2.2 [⟨b!"u", b!"c"⟩, ⟨b!"v", b!"f"⟩, ⟨b!"u", b!"s"⟩, ⟨b!"u", b!"t"⟩, ⟨b!"u", b!"day"⟩,
      ⟨b!"u", b!"l"⟩, ⟨b!"u", b!"c"⟩, builtinName 16, ⟨b!"u", b!"none"⟩]) =
      some [b!"C", b!"F", b!"S", b!"string", b!"Day", b!"L", b!"C", b!"time.Time", b!"NOTFOUNDnone"] := by
  refine ⟨resolved_of (by decide +kernel), ownNames_of (by decide +kernel), based_of (by decide +kernel), schemaBased_of (by decide +kernel),
    attributed_of rfl (fun id => id < 5) (by decide +kernel), ⟨_, rfl, ?_, ?_, ?_⟩, fun n => ⟨fun _ h => (by cases h), fun _ h => (by cases h)⟩,
    by decide +kernel, by decide +kernel⟩
  · intro s hs e he m hm
    have : ∀ s ∈ C101_schemas C101_heap, ∀ e ∈ s.types, isLink e.2 = false := by decide +kernel
    have := this s hs e he
    rw [hm] at this
    cases this
  · exact keyed_of (by decide +kernel)
  · have : ∀ s ∈ C101_schemas C101_heap, ∀ s' ∈ C101_schemas C101_heap,
        ∀ e ∈ s.types, ∀ e' ∈ s'.types, e.1 = e'.1 → e.2 = e'.2 := by decide +kernel
    exact fun s hs s' hs' k t t' h h' => this s hs s' hs' _ h _ h' rfl

/-- C101 is false for a complex type that only renames an enumeration: `NameOf` answers C, and no C is declared. -/
theorem C101_usable_refuted :
    let H : THeap := [.simple { name := ⟨b!"u", b!"s"⟩, base := some (.builtin 38), restriction := { enum := [b!"x", b!"y"] } },
      .complex { name := ⟨b!"u", b!"c"⟩, base := some (.obj 0), extends_ := true, mixed := true }]
    Resolved H ∧ OwnNames H ∧ Based H ∧ SchemaBased H ∧ Selected C101_cfg ⟨b!"u", b!"c"⟩ ∧
    ∃ cfg' H' code r, genCode asciiEnv (Sorter.byKey fun s => s) 20 (C101_parse H) C101_cfg [] = (cfg', .done (.ok (H', code))) ∧
      nameOf asciiEnv cfg' 20 3 H' code ⟨b!"u", b!"c"⟩ = .ok r ∧ r.2.2 = b!"C" ∧ ¬ Usable (genAST (Sorter.byKey fun s => s) code).2 r.2.2 := by
  intro H
  refine ⟨resolved_of (by decide +kernel), ownNames_of (by decide +kernel), based_of (by decide +kernel), schemaBased_of (by decide +kernel),
    ⟨fun _ h => (by cases h), fun _ h => (by cases h)⟩, ?_⟩
  have key : (C101_code H).bind (fun x => (nameOf asciiEnv x.1 20 3 x.2.1 x.2.2 ⟨b!"u", b!"c"⟩).toOption.map fun r =>
      (r.2.2, (declaredExprs (genAST (Sorter.byKey fun s => s) x.2.2).2).map (·.1))) = some (b!"C", [b!"S"]) := by decide +kernel
  obtain ⟨x, hx, key⟩ := Option.bind_eq_some_iff.mp key
  obtain ⟨r, hr, key⟩ := Option.map_eq_some_iff.mp key
  have hr' : nameOf asciiEnv x.1 20 3 x.2.1 x.2.2 ⟨b!"u", b!"c"⟩ = .ok r := by
    cases hn : nameOf asciiEnv x.1 20 3 x.2.1 x.2.2 ⟨b!"u", b!"c"⟩ <;> rw [hn] at hr <;> cases hr
    rfl
  obtain ⟨h1, h2⟩ := Prod.mk.inj key
  refine ⟨x.1, x.2.1, x.2.2, r, C101_code_some hx, hr', h1, ?_⟩
  intro hu
  rw [h1] at hu
  rcases usable_name hu (by decide) with h | ⟨doc, d, h⟩
  · revert h; decide
  · have : b!"C" ∈ (declaredExprs (genAST (Sorter.byKey fun s => s) x.2.2).2).map (·.1) :=
      List.mem_map.mpr ⟨(b!"C", d), List.mem_filterMap.mpr ⟨_, h, rfl⟩, rfl⟩
    rw [h2] at this
    revert this; decide

/-- The name `none`, for which the answer above is `NOTFOUNDnone`, meets the conditions of `C152_unknown`. -/
example : (⟨b!"u", b!"none"⟩ : XName) ≠ ⟨[], []⟩ ∧ (∀ b : Int, 0 ≤ b → b < 50 → (⟨b!"u", b!"none"⟩ : XName) ≠ builtinName b) ∧
    (∀ s ∈ C101_schemas C101_heap, ∀ t, ((⟨b!"u", b!"none"⟩ : XName), t) ∉ s.types) ∧ ∀ o ∈ C101_heap, o.name ≠ ⟨b!"u", b!"none"⟩ := by
  refine ⟨by decide, fun b b0 b1 e => ?_, fun s hs t ht => ?_, by decide +kernel⟩
  · have h := C26_parse_name b b0 b1
    rw [← e] at h
    have h' : parseBuiltin ⟨b!"u", b!"none"⟩ = none := by decide +kernel
    rw [h'] at h
    cases h
  · have : ∀ s ∈ C101_schemas C101_heap, ∀ e ∈ s.types, e.1 ≠ ⟨b!"u", b!"none"⟩ := by decide +kernel
    exact this s hs _ ht rfl

/-! ### C102 -/

/-- C102, for the selected types and the built-in ones: the answer of `NameOf` does not depend on what has been asked
before. The full statement is about all types of the schemas; it is refuted below. -/
theorem C102_stable_partial (env : Env) (srt : Sorter strLt) (n k : Nat) (parse : List Doc → Outcome (List Schema × THeap))
    (cfg cfg' : Config) (docs : List Doc) (schemas : List Schema) (H H' : THeap) (code : Code) (hp : parse docs = .ok (schemas, H))
    (hres : Resolved H) (hown : OwnNames H) (hbased : Based H) (hsb : SchemaBased H) (hattr : Attributed cfg H)
    (htop : ∀ s ∈ schemas, ∀ e ∈ s.types, ∀ m, e.2 ≠ .link m) (hkeys : Keyed schemas H)
    (hone : ∀ s ∈ schemas, ∀ s' ∈ schemas, ∀ k t t', (k, t) ∈ s.types → (k, t') ∈ s'.types → t = t')
    (hpre : Untouched cfg H schemas) (h : genCode env srt n parse cfg docs = (cfg', .done (.ok (H', code)))) (q : XName)
    (hq : (∃ b : Builtin, 0 ≤ b ∧ b < 50 ∧ builtinName b = q ∧ q.space = schemaNS) ∨
      ∃ s ∈ schemas, s.targetNS ∈ cfg.namespaces ∧ Selected cfg q ∧ q.loc ≠ [] ∧ q.loc ≠ b!"_self" ∧ ∃ id o, (q, Ty.obj id) ∈ s.types ∧ H[id]? = some o ∧ o.name = q)
    (H1 H2 : THeap) (code1 code2 : Code) (ha1 : AfterCalls env cfg' n k H' code H1 code1) (ha2 : AfterCalls env cfg' n k H' code H2 code2)
    (r1 r2 : THeap × Code × Str) (h1 : nameOf env cfg' n k H1 code1 q = .ok r1) (h2 : nameOf env cfg' n k H2 code2 q = .ok r2) :
    r1.2.2 = r2.2.2 := by
  rcases hq with ⟨b, hb0, hb1, rfl, hb2⟩ | ⟨s, hs, hns, hsel, hn1, hn2, id, o, he, ho, rfl⟩
  · obtain ⟨e, -, hall⟩ := C101_builtin_partial env srt n k parse cfg cfg' docs schemas H H' code hp hres hown hbased hsb hattr htop hkeys hone hpre h b
      ⟨hb0, hb1, hb2⟩
    rw [hall _ _ _ ha1 h1, hall _ _ _ ha2 h2]
  · obtain ⟨text, -, hall⟩ := C101_usable_partial env srt srt n k parse cfg cfg' docs schemas H H' code hp hres hown hbased hsb hattr htop hkeys hone
      hpre h s hs hns id o he ho hsel ⟨hn1, hn2⟩
    rw [hall _ _ _ ha1 h1, hall _ _ _ ha2 h2]

/-- C102 is false for a type of a namespace that is not selected: C2, which only renames C1, which only renames string.
Asked for C2 first, `NameOf` answers C2; asked for C3 first, which has an element of type C2, it then answers string for C2. -/
theorem C102_stable_refuted :
    let H : THeap := [.complex { name := ⟨b!"v", b!"c1"⟩, base := some (.builtin 38), mixed := true },
      .complex { name := ⟨b!"v", b!"c2"⟩, base := some (.obj 0), extends_ := true, mixed := true },
      .complex { name := ⟨b!"v", b!"c3"⟩, base := some (.builtin AnyType), elements := [{ name := ⟨b!"v", b!"e"⟩, type := .obj 1 }] },
      .complex { name := ⟨b!"u", b!"d"⟩, base := some (.builtin AnyType) }]
    Resolved H ∧ OwnNames H ∧ Based H ∧ SchemaBased H ∧ Attributed C101_cfg H ∧
    ∃ cfg' H' code r1 r2 r3, genCode asciiEnv (Sorter.byKey fun s => s) 20 (C101_parse H) C101_cfg [] = (cfg', .done (.ok (H', code))) ∧
      nameOf asciiEnv cfg' 20 3 H' code ⟨b!"v", b!"c2"⟩ = .ok r1 ∧ r1.2.2 = b!"C2" ∧
      nameOf asciiEnv cfg' 20 3 H' code ⟨b!"v", b!"c3"⟩ = .ok r2 ∧
      nameOf asciiEnv cfg' 20 3 r2.1 r2.2.1 ⟨b!"v", b!"c2"⟩ = .ok r3 ∧ r3.2.2 = b!"string" := by
  intro H
  refine ⟨resolved_of (by decide +kernel), ownNames_of (by decide +kernel), based_of (by decide +kernel), schemaBased_of (by decide +kernel),
    attributed_of rfl (fun _ => false) (by decide +kernel), ?_⟩
  have key : (C101_code H).bind (fun x => (nameOf asciiEnv x.1 20 3 x.2.1 x.2.2 ⟨b!"v", b!"c2"⟩).toOption.bind fun r1 =>
      (nameOf asciiEnv x.1 20 3 x.2.1 x.2.2 ⟨b!"v", b!"c3"⟩).toOption.bind fun r2 =>
      (nameOf asciiEnv x.1 20 3 r2.1 r2.2.1 ⟨b!"v", b!"c2"⟩).toOption.map fun r3 => (r1.2.2, r3.2.2)) = some (b!"C2", b!"string") := by decide +kernel
  have ok : ∀ {x : Run (THeap × Code × Str)} {r : THeap × Code × Str}, x.toOption = some r → x = .ok r := by
    intro x r h
    cases x <;> cases h
    rfl
  obtain ⟨x, hx, key⟩ := Option.bind_eq_some_iff.mp key
  obtain ⟨r1, hr1, key⟩ := Option.bind_eq_some_iff.mp key
  obtain ⟨r2, hr2, key⟩ := Option.bind_eq_some_iff.mp key
  obtain ⟨r3, hr3, key⟩ := Option.map_eq_some_iff.mp key
  obtain ⟨h1, h2⟩ := Prod.mk.inj key
  exact ⟨x.1, x.2.1, x.2.2, r1, r2, r3, C101_code_some hx, ok hr1, h1, ok hr2, ok hr3, h2⟩

end GoXml.Xsdgen
