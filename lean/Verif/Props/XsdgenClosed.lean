import Verif.Proofs.XsdgenDeclared
import Verif.Proofs.XsdgenCheck
import Verif.Props.XsdgenSpec
import Verif.Model.XsdgenCli
set_option autoImplicit false

/-! Properties C96 and C97: the types that the generated declarations use are declared, and so are the selected types. -/

namespace GoXml.Xsdgen
open Xsd GoMap

/-- The helper types use predeclared types only. -/
theorem standardHelpers_known (cfg : Config) (k : XName) (h : Spec) (hk : get (addStandardHelpers cfg).helperTypes k = some h) :
    ∀ x ∈ h.expr.uses, x ∈ predeclared := by
  have key : ∀ p ∈ (addStandardHelpers {}).helperTypes, ∀ x ∈ p.2.expr.uses, x ∈ predeclared := by decide +kernel
  exact key _ (get_some_mem hk)

/-- C96, partial. Every type that a declaration made by `GenCode` uses is predeclared or declared, if no type uses
itself, directly or through at most 1000 others, and types are not transformed. The full statement has no
such hypotheses; `C96_closed_refuted` shows that it is false for types that use themselves. -/
theorem C96_closed_partial (env : Env) (srt srt' : Sorter strLt) (n : Nat) (parse : List Doc → Outcome (List Schema × THeap)) (cfg cfg' : Config)
    (docs : List Doc) (schemas : List Schema) (H H' : THeap) (code : Code) (hp : parse docs = .ok (schemas, H))
    (rank : Nat → Nat) (hrank : ∀ a b, Uses H a b → rank b < rank a ∧ rank a ≤ 1000) (hres : Resolved H)
    (htop : ∀ s ∈ schemas, ∀ e ∈ s.types, ∀ m, e.2 ≠ .link m) (htext : TextKept H) (hown : OwnNames H)
    (hpre : Untouched cfg H schemas) (hpost : cfg.postprocessType = none)
    (h : genCode env srt n parse cfg docs = (cfg', .done (.ok (H', code)))) : Closed (genAST srt' code).2 := by
  let rk : Nat → Nat := fun a => if 1000 < rank a then 0 else rank a
  have hrk : Ranked rk H := by
    intro a b hu
    obtain ⟨h1, h2⟩ := hrank a b hu
    have e1 : rk a = rank a := if_neg (Nat.not_lt.mpr h2)
    have e2 : rk b = rank b := if_neg (by omega)
    rw [e1, e2]
    exact h1
  have hlt : ∀ a, rk a < 1001 := by
    intro a
    simp only [rk]
    split <;> omega
  obtain ⟨ns, primaries, r, hg, rfl, -, -, -, hmem⟩ := genCode_ok hp h
  exact gen_closed (flattenOk_ranked (addStandardHelpers { cfg with namespaces := ns }) n rk hlt) (hpre.some_of fun s hs => ((hmem s).mp hs).1) hpost (standardHelpers_known _)
    ⟨hres.linked, hrk⟩ htext hown (fun s hs => htop s ((hmem s).mp hs).1) hg srt'

/-- Types that use each other: R has an element of type S and an attribute of type V, and is derived from S, which
restricts V, which restricts the dates. -/
def C96_heap : THeap :=
  [.complex { name := ⟨b!"u", b!"r"⟩, base := some (.obj 1), extends_ := true, mixed := true,
              elements := [{ name := ⟨b!"u", b!"e"⟩, type := .obj 3 }],
              attributes := [{ name := ⟨[], b!"v"⟩, type := .obj 2 }] },
   .simple { name := ⟨b!"u", b!"s"⟩, base := some (.obj 2) },
   .simple { name := ⟨b!"u", b!"v"⟩, base := some (.builtin 16) },
   .complex { name := ⟨b!"u", b!"w"⟩, base := some (.builtin 0), elements := [{ name := ⟨b!"u", b!"f"⟩, type := .obj 2, plural := true }] }]

/-- The hypotheses of C96 hold for them, and this is what is generated. -/
example : (∀ a b, Uses C96_heap a b → ([3, 1, 0, 1][b]?).getD 0 < ([3, 1, 0, 1][a]?).getD 0 ∧ ([3, 1, 0, 1][a]?).getD 0 ≤ 1000) ∧
    Resolved C96_heap ∧ TextKept C96_heap ∧ OwnNames C96_heap ∧
    ((match (genCode asciiEnv (Sorter.byKey fun s => s) 20
        (fun _ => .ok ([{ targetNS := b!"u", types := [(⟨b!"u", b!"r"⟩, .obj 0)] }], C96_heap)) { namespaces := [b!"u"] } []).2 with
      | .done r => r.toOption
      | _ => none).map fun (r : THeap × Code) => declaredExprs (genAST (Sorter.byKey fun s => s) r.2).2) = some
      [(b!"R", .struct [⟨b!"S", .ident b!"S", b!"xml:\",chardata\""⟩, ⟨b!"E", .ident b!"W", b!"xml:\"u e\""⟩,
          ⟨b!"V", .ident b!"V", b!"xml:\"v,attr\""⟩]),
       (b!"S", .plain (.ident b!"time.Time")), (b!"V", .plain (.ident b!"time.Time")),
       (b!"W", .struct [⟨b!"F", .array (.ident b!"V"), b!"xml:\"u f\""⟩]), (b!"xsdDate", .plain (.ident b!"time.Time"))] := by
  exact ⟨rank_of (by decide +kernel), resolved_of (by decide +kernel), textKept_of (fun id => decide (id < 3)) (by decide +kernel),
    ownNames_of (by decide +kernel), by decide +kernel⟩

/-! ### C97 -/

/-- C97. Every selected type that is worth a declaration is declared under its Go name: a type with content of its
own, a simple type whose values have a special encoding, and a complex type derived from the type of any content. -/
theorem C97_declared (env : Env) (srt srt' : Sorter strLt) (n : Nat) (parse : List Doc → Outcome (List Schema × THeap)) (cfg cfg' : Config)
    (docs : List Doc) (schemas : List Schema) (H H' : THeap) (code : Code) (hp : parse docs = .ok (schemas, H)) (hres : Resolved H)
    (htop : ∀ s ∈ schemas, ∀ e ∈ s.types, ∀ m, e.2 ≠ .link m) (hown : OwnNames H) (hpre : Untouched cfg H schemas)
    (h : genCode env srt n parse cfg docs = (cfg', .done (.ok (H', code))))
    (s : Schema) (hs : s ∈ schemas) (hns : s.targetNS ∈ cfg.namespaces) (k : XName) (id : Nat) (he : (k, Ty.obj id) ∈ s.types) (o : TObj)
    (ho : H[id]? = some o) (hsel : Selected cfg o.name) (hc : Worth cfg H id o) (hname : o.name.loc ≠ [] ∧ o.name.loc ≠ b!"_self") :
    ∃ doc e, GoDecl.type doc (publicName env cfg o.name) e ∈ (genAST srt' code).2 := by
  obtain ⟨ns, primaries, r, hg, rfl, -, -, hne, hmem⟩ := genCode_ok hp h
  have hns' : ns = cfg.namespaces := hne (fun e => by rw [e] at hns; cases hns)
  exact gen_named (cfg := addStandardHelpers { cfg with namespaces := ns }) (hpre.some_of fun s hs => ((hmem s).mp hs).1) hres.linked hown
    (fun s hs => htop s ((hmem s).mp hs).1) hg srt' ((hmem s).mpr ⟨hs, by rw [hns']; exact hns⟩) he ho hc
    ((skipped_iff _ _).mpr ⟨hname.2, hsel⟩) (fun e => hname.1 (by rw [e]))

/-- A type that restricts an enumeration, one that extends it by an attribute, one that is only another name for a
date and one that restricts a type of any content meet the conditions, beside one that says nothing new. -/
example :
    let H : THeap := [.simple { name := ⟨b!"u", b!"s"⟩, base := some (.builtin 38), restriction := { enum := [b!"x", b!"y"] } },
      .complex { name := ⟨b!"u", b!"c"⟩, base := some (.obj 0), extends_ := true, mixed := true,
                 attributes := [{ name := ⟨[], b!"a"⟩, type := .builtin 28 }] },
      .simple { name := ⟨b!"u", b!"when"⟩, base := some (.obj 3) },
      .simple { name := ⟨b!"u", b!"day"⟩, base := some (.builtin 16) },
      .complex { name := ⟨b!"u", b!"part"⟩, base := some (.obj 5) },
      .complex { name := ⟨b!"u", b!"whole"⟩, base := some (.builtin AnyType) },
      .complex { name := ⟨b!"u", b!"d"⟩, base := some (.obj 0), extends_ := true, mixed := true }]
    Resolved H ∧ OwnNames H ∧ (∀ id < 6, ∃ o, H[id]? = some o ∧ Worth {} H id o ∧ Selected {} o.name) ∧
    ((match (genCode asciiEnv (Sorter.byKey fun s => s) 20
        (fun _ => .ok ([{ targetNS := b!"u", types := [(⟨b!"u", b!"d"⟩, .obj 6), (⟨b!"u", b!"c"⟩, .obj 1), (⟨b!"u", b!"s"⟩, .obj 0),
          (⟨b!"u", b!"when"⟩, .obj 2), (⟨b!"u", b!"day"⟩, .obj 3), (⟨b!"u", b!"part"⟩, .obj 4), (⟨b!"u", b!"whole"⟩, .obj 5)] }], H))
        { namespaces := [b!"u"] } []).2 with
      | .done r => r.toOption
      | _ => none).map fun (r : THeap × Code) => (declaredExprs (genAST (Sorter.byKey fun s => s) r.2).2).map fun (e : Str × DeclExpr) => e.1) =
      some [b!"C", b!"Day", b!"Part", b!"S", b!"When", b!"Whole", b!"xsdDate"] := by
  intro H
  refine ⟨resolved_of (by decide +kernel), ownNames_of (by decide +kernel), ?_, by decide +kernel⟩
  intro id hid
  have hsel : ∀ n, Selected {} n := fun n => ⟨fun _ h => (by cases h), fun _ h => (by cases h)⟩
  have hd : Special (.builtin 16) := ⟨16, rfl, by decide +kernel⟩
  have h5 : FromAny H 5 := .base rfl rfl
  match id, hid with
  | 0, _ => exact ⟨_, rfl, Or.inl (Or.inr (Or.inr (Or.inl (by simp)))), hsel _⟩
  | 1, _ => exact ⟨_, rfl, Or.inl (Or.inr ⟨_, List.mem_singleton.mpr rfl, fun p hp => (by cases hp)⟩), hsel _⟩
  | 2, _ => exact ⟨_, rfl, Or.inr (Or.inl ⟨⟨_, rfl⟩, _, hd, .base rfl (.base rfl (.self _))⟩), hsel _⟩
  | 3, _ => exact ⟨_, rfl, Or.inr (Or.inl ⟨⟨_, rfl⟩, _, hd, .base rfl (.self _)⟩), hsel _⟩
  | 4, _ => exact ⟨_, rfl, Or.inr (Or.inr (.step rfl rfl h5)), hsel _⟩
  | 5, _ => exact ⟨_, rfl, Or.inr (Or.inr h5), hsel _⟩

end GoXml.Xsdgen
