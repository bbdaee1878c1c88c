import Verif.Proofs.XsdgenRecursive
import Verif.Props.XsdgenClosed
set_option autoImplicit false

/-! Property C96 for types that use themselves. -/

namespace GoXml.Xsdgen
open Xsd GoMap

/-- C96, partial, for types that may use themselves. Every type that a declaration made by `GenCode` uses is predeclared
or declared, if each complex type has any content, or an attribute that is not ignored, or is derived from such a type, or
is just another name for a built-in type; and if a type that is reached from another one is reached in less than 1000
steps. What is excluded are complex types derived from simple ones that have no attributes: `C96_closed_refuted` shows
that the statement is false for them. -/
theorem C96_recursive_partial (env : Env) (srt srt' : Sorter strLt) (n : Nat) (parse : List Doc → Outcome (List Schema × THeap)) (cfg cfg' : Config)
    (docs : List Doc) (schemas : List Schema) (H H' : THeap) (code : Code) (hp : parse docs = .ok (schemas, H))
    (hsolid : Solid cfg H) (hreach : Reachable H) (hres : Resolved H)
    (htop : ∀ s ∈ schemas, ∀ e ∈ s.types, ∀ m, e.2 ≠ .link m) (htext : TextKept H) (hown : OwnNames H)
    (hpre : Untouched cfg H schemas) (hpost : cfg.postprocessType = none)
    (h : genCode env srt n parse cfg docs = (cfg', .done (.ok (H', code)))) : Closed (genAST srt' code).2 := by
  obtain ⟨ns, primaries, r, hg, rfl, -, -, -, hmem⟩ := genCode_ok hp h
  exact gen_closed (flattenOk_recursive (addStandardHelpers { cfg with namespaces := ns }) n (Structured H)) (hpre.some_of fun s hs => ((hmem s).mp hs).1) hpost (standardHelpers_known _)
    ⟨shape_of hres.linked hsolid, near_of hreach⟩ htext hown (fun s hs => htop s ((hmem s).mp hs).1) hg srt'

/-- The condition on the number of steps holds if there are at most 1000 types. -/
theorem C96_few {H : THeap} (h : H.length ≤ 1000) : Reachable H :=
  reachable_of_few (List.range H.length) (by simpa using h) fun a ha => by
    obtain ⟨c, hc, -⟩ := ha
    exact List.mem_range.mpr (List.getElem?_eq_some_iff.mp hc).1

/-- A tree whose nodes have a kind, and a forest that extends it: both use themselves and each other. -/
def C96_tree : THeap :=
  [.complex { name := ⟨b!"u", b!"tree"⟩, base := some (.builtin 0),
              elements := [{ name := ⟨b!"u", b!"left"⟩, type := .obj 0, optional := true }, { name := ⟨b!"u", b!"right"⟩, type := .obj 1, optional := true }],
              attributes := [{ name := ⟨[], b!"kind"⟩, type := .obj 2 }] },
   .complex { name := ⟨b!"u", b!"forest"⟩, base := some (.obj 0), extends_ := true,
              elements := [{ name := ⟨b!"u", b!"size"⟩, type := .obj 3 }, { name := ⟨b!"u", b!"tree"⟩, type := .obj 0, plural := true }] },
   .simple { name := ⟨b!"u", b!"kind"⟩, base := some (.obj 4), restriction := { enum := [b!"x", b!"y"] } },
   .complex { name := ⟨b!"u", b!"size"⟩, base := some (.builtin 28), extends_ := true, mixed := true },
   .simple { name := ⟨b!"u", b!"token"⟩, base := some (.builtin 38) }]

/-- The hypotheses of C96 hold for them. -/
example : Solid {} C96_tree ∧ Reachable C96_tree ∧ Resolved C96_tree ∧ TextKept C96_tree ∧ OwnNames C96_tree := by
  refine ⟨?_, C96_few (by decide), resolved_of (by decide +kernel), textKept_of (fun id => id == 2 || id == 4) (by decide +kernel),
    ownNames_of (by decide +kernel)⟩
  have h0 : Structured C96_tree 0 := ⟨_, rfl, fun h => by simp at h⟩
  intro a c hc hs
  match a, hc, hs with
  | 0, hc, _ => cases hc; exact Or.inl (Or.inl rfl)
  | 1, hc, _ => cases hc; exact Or.inr ⟨0, rfl, h0⟩
  | 2, hc, _ => cases hc
  | 3, hc, hs =>
    obtain ⟨c', hc', hn⟩ := hs
    cases hc'
    exact absurd ⟨rfl, rfl, 28, by decide, rfl⟩ hn
  | 4, hc, _ => cases hc
  | a + 5, hc, _ => cases hc

/-- A list whose members have a date. -/
def C96_list : THeap :=
  [.complex { name := ⟨b!"u", b!"list"⟩, base := some (.builtin 0),
              elements := [{ name := ⟨b!"u", b!"next"⟩, type := .obj 0, optional := true }],
              attributes := [{ name := ⟨[], b!"on"⟩, type := .obj 1 }] },
   .simple { name := ⟨b!"u", b!"day"⟩, base := some (.builtin 16) }]

theorem C96_list_flatten1 (d : Nat) : flatten1 (addStandardHelpers { namespaces := [b!"u"] }) 20 (d + 1) C96_list (some (.obj 0)) =
    .ok (C96_list, (List.replicate (d + 1) [Ty.obj 0, .obj 1]).flatten, some (.obj 0)) := by
  induction d with
  | zero => rfl
  | succ d ih =>
    show flattenComplex (flatten1 _ 20 (d + 1)) C96_list 0 _ = _
    simp only [flattenComplex]
    show ((fieldLoop _ _ _ [0] _).bind _) = _
    simp only [fieldLoop]
    rw [show elemType C96_list 0 0 = some (.obj 0) from rfl, ih]
    rw [List.replicate_succ' (n := d + 1), List.flatten_append]
    generalize (List.replicate (d + 1) [Ty.obj 0, .obj 1]).flatten = l
    exact Eq.trans (b := Run.ok (C96_list, ((l ++ [Ty.obj 0]) ++ [Ty.obj 1] ++ [] ++ [], some (Ty.obj 0)))) rfl (by simp)

theorem C96_list_flatten : flatten (addStandardHelpers { namespaces := [b!"u"] }) 20 C96_list [.obj 0] = .ok (C96_list, [.obj 0, .obj 1]) := by
  have hd : ∀ (H : THeap) (seen : List XName) (l : List Ty), (∀ t ∈ l, xmlName H t ∈ seen) → dedupLoop H seen l = [] := by
    intro H seen l
    induction l with
    | nil => intro _; rfl
    | cons t l ih =>
      intro h
      rw [dedupLoop, if_pos (h t (List.mem_cons_self ..)), ih (fun u hu => h u (List.mem_cons_of_mem _ hu))]
  have e : flattenLoop (addStandardHelpers { namespaces := [b!"u"] }) 20 C96_list [.obj 0] =
      .ok (C96_list, [Ty.obj 0, .obj 1] ++ ((List.replicate 1000 [Ty.obj 0, .obj 1]).flatten ++ [Ty.obj 0] ++ [])) := by
    simp only [flattenLoop]
    rw [show skipped _ (xmlName C96_list (.obj 0)) = false by decide +kernel, C96_list_flatten1 1000,
      show (1000 + 1 : Nat) = 1001 from rfl, show (1001 : Nat) = 1000 + 1 from rfl, List.replicate_succ, List.flatten_cons]
    generalize (List.replicate 1000 [Ty.obj 0, .obj 1]).flatten = l
    simp [Run.bind]
  rw [flatten, e]
  simp only [Run.bind]
  have hrest : ∀ t ∈ (List.replicate 1000 [Ty.obj 0, .obj 1]).flatten ++ [Ty.obj 0] ++ [], xmlName C96_list t ∈ [⟨b!"u", b!"day"⟩, ⟨b!"u", b!"list"⟩] := by
    intro t ht
    have hm : t ∈ [Ty.obj 0, .obj 1] := by
      simp only [List.append_nil, List.mem_append, List.mem_flatten, List.mem_replicate, List.mem_singleton] at ht
      rcases ht with ⟨x, ⟨_, rfl⟩, h⟩ | rfl
      · exact h
      · simp
    have key : ∀ t ∈ [Ty.obj 0, .obj 1], xmlName C96_list t ∈ [⟨b!"u", b!"day"⟩, ⟨b!"u", b!"list"⟩] := by decide +kernel
    exact key t hm
  have := hd _ _ _ hrest
  generalize (List.replicate 1000 [Ty.obj 0, .obj 1]).flatten = l at *
  have e2 : dedup C96_list ([Ty.obj 0, .obj 1] ++ (l ++ [Ty.obj 0] ++ [])) =
      [.obj 0, .obj 1] ++ dedupLoop C96_list [⟨b!"u", b!"day"⟩, ⟨b!"u", b!"list"⟩] (l ++ [Ty.obj 0] ++ []) := by
    rfl
  rw [e2, this]
  rfl

theorem genCode_of_gen {env : Env} {srt : Sorter strLt} {n : Nat} {parse : List Doc → Outcome (List Schema × THeap)} {cfg : Config} {docs : List Doc}
    {schemas primaries : List Schema} {H : THeap} {r : THeap × Code × Config} (hp : parse docs = .ok (schemas, H)) (hne : cfg.namespaces ≠ [])
    (hs : selectSchemas cfg.namespaces schemas = .ok primaries) (hg : gen env srt (addStandardHelpers cfg) n primaries schemas H = .ok r) :
    genCode env srt n parse cfg docs = (r.2.2, .done (.ok (r.1, r.2.1))) := by
  simp only [genCode, if_neg hne, hp, hs, hg]

def C96_listSchema : Schema := { targetNS := b!"u", types := [(⟨b!"u", b!"list"⟩, .obj 0)] }

/-- All hypotheses hold for it, and this is what is generated. -/
theorem C96_list_generated : Solid { namespaces := [b!"u"] } C96_list ∧ Reachable C96_list ∧ Resolved C96_list ∧ TextKept C96_list ∧ OwnNames C96_list ∧
    ∃ cfg' H' code, genCode asciiEnv (Sorter.byKey fun s => s) 20 (fun _ => .ok ([C96_listSchema], C96_list)) { namespaces := [b!"u"] } [] =
        (cfg', .done (.ok (H', code))) ∧
      declaredExprs (genAST (Sorter.byKey fun s => s) code).2 =
      [(b!"Day", .plain (.ident b!"time.Time")),
       (b!"List", .struct [⟨b!"Next", .ident b!"List", b!"xml:\"u next,omitempty\""⟩, ⟨b!"On", .ident b!"Day", b!"xml:\"on,attr\""⟩]),
       (b!"xsdDate", .plain (.ident b!"time.Time"))] := by
  refine ⟨?_, C96_few (by decide), resolved_of (by decide +kernel), textKept_of (fun id => id == 1) (by decide +kernel),
    ownNames_of (by decide +kernel), ?_⟩
  · intro a c hc hs
    match a, hc, hs with
    | 0, hc, _ => cases hc; exact Or.inl (Or.inl rfl)
    | 1, hc, _ => cases hc
    | a + 2, hc, _ => cases hc
  · have key : ((gen asciiEnv (Sorter.byKey fun s => s) (addStandardHelpers { namespaces := [b!"u"] }) 20 [C96_listSchema] [C96_listSchema] C96_list).toOption.map
        fun r => declaredExprs (genAST (Sorter.byKey fun s => s) r.2.1).2) =
        some [(b!"Day", .plain (.ident b!"time.Time")),
          (b!"List", .struct [⟨b!"Next", .ident b!"List", b!"xml:\"u next,omitempty\""⟩, ⟨b!"On", .ident b!"Day", b!"xml:\"on,attr\""⟩]),
          (b!"xsdDate", .plain (.ident b!"time.Time"))] := by
      simp only [gen]
      rw [show (addStandardHelpers { namespaces := [b!"u"] }).preprocessType = none from rfl]
      simp only [List.map_cons, List.map_nil, genSchemas]
      rw [show C96_listSchema.types = [(⟨b!"u", b!"list"⟩, .obj 0)] from rfl]
      simp only [List.map_cons, List.map_nil]
      rw [C96_list_flatten]
      decide +kernel
    obtain ⟨r, hr, hd⟩ := Option.map_eq_some_iff.mp key
    have hg : gen asciiEnv (Sorter.byKey fun s => s) (addStandardHelpers { namespaces := [b!"u"] }) 20 [C96_listSchema] [C96_listSchema] C96_list = .ok r := by
      generalize gen asciiEnv _ _ _ _ _ _ = g at hr
      cases g <;> cases hr
      rfl
    exact ⟨_, _, _, genCode_of_gen rfl (by simp) rfl hg, hd⟩

end GoXml.Xsdgen
