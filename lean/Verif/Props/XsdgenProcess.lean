import Verif.Props.XsdgenDecls
set_option autoImplicit false

/-! More about functions that change types: C90, and C118 on types that they replace. -/

namespace GoXml.Xsdgen
open Xsd GoMap

/-- The calls that are due: each type of each schema, in order, with a schema that has the types of all. -/
def dueCalls (all : GoMap XName Ty) (ss : List Schema) : List (Schema × Ty) :=
  ss.flatMap fun s => s.types.map fun e => ({ s with types := all }, e.2)

/-- C90: the function is called once for each type of each selected schema, and each call sees what those before it have changed. -/
theorem C90_calls (pre : TypeTransform) (all : GoMap XName Ty) (ss : List Schema) (H : THeap) :
    (preprocessAll pre all ss H).2 = (dueCalls all ss).foldl (fun H c => (pre c.1 (some c.2) H).2) H := by
  have key : ∀ (s : Schema) (es : List (XName × Ty)) (H : THeap),
      (preprocess pre s es H).2 = (es.map fun e => (s, e.2)).foldl (fun H c => (pre c.1 (some c.2) H).2) H := by
    intro s es
    induction es with
    | nil => intro H; rfl
    | cons e es ih => intro H; simp only [preprocess, List.map_cons, List.foldl_cons, ih]
  induction ss generalizing H with
  | nil => rfl
  | cons s ss ih =>
    simp only [preprocessAll, dueCalls, List.flatMap_cons, List.foldl_append]
    rw [ih, key]
    rfl

/-- A function that renames the first object of the heap and counts its calls in the name. -/
example :
    let f : TypeTransform := fun _ t H => (t, H.map fun o => renamed ⟨[], o.name.loc ++ b!"x"⟩ o)
    let ss : List Schema := [{ types := [(⟨[], b!"a"⟩, .obj 0), (⟨[], b!"b"⟩, .obj 0)] }, { types := [(⟨[], b!"c"⟩, .obj 0)] }]
    (preprocessAll f [] ss [.simple { name := ⟨[], b!"n"⟩ }]).2.map (·.name.loc) = [b!"nxxx"] := by decide +kernel

/-- C118, partial: code is generated for the types that the function has returned for those of the selected schemas, if it changes nothing
itself. Missing: uses of a type that was replaced; see the refutation. -/
theorem C118_start_partial (env : Env) (srt : Sorter strLt) (cfg : Config) (n : Nat) (primaries deps : List Schema) (H : THeap)
    (pre : TypeTransform) (hp : cfg.preprocessType = some pre) (f : Ty → Option Ty) (hf : ∀ s t H, pre s (some t) H = (f t, H))
    (r : THeap × Code × Config) (h : gen env srt cfg n primaries deps H = .ok r) :
    ∃ specs, genSchemas env cfg n H (primaries.map fun s => s.types.map fun e => (f e.2).getD e.2) = .ok (r.1, specs, false) ∧
      r.2.1.decls = (finish srt cfg specs).1 := by
  simp only [gen, hp] at h
  obtain ⟨q, hq, hg⟩ := bind_ok h
  split at hg
  · cases hg
  · rename_i hb
    cases hg
    have e1 := C90_types pre (allTypes (primaries ++ deps)) f (fun s t H => by rw [hf]) primaries H
    have e2 : (preprocessAll pre (allTypes (primaries ++ deps)) primaries H).2 = H := by
      rw [C90_calls]
      generalize dueCalls _ _ = cs
      induction cs with
      | nil => rfl
      | cons c cs ih => rw [List.foldl_cons, hf]; exact ih
    rw [e1, e2] at hq
    refine ⟨q.2.1, ?_, rfl⟩
    obtain ⟨q1, q2, q3⟩ := q
    dsimp only at hb
    have : q3 = false := by simpa using hb
    subst this
    rw [← hq]
    simp [List.map_map, Function.comp_def]

/-- Type `a` has an element of type `k`; type `other` is used nowhere. -/
def C118_heap : THeap :=
  [.complex { name := ⟨[], b!"a"⟩, base := some (.builtin 0), elements := [{ name := ⟨[], b!"kind"⟩, type := .obj 1 }] },
   .simple { name := ⟨[], b!"k"⟩, base := some (.builtin 38), restriction := { enum := [b!"x"] } },
   .simple { name := ⟨[], b!"other"⟩, base := some (.builtin 38), restriction := { enum := [b!"y"] } }]

/-- Replaces `k`. -/
def C118_replace (by_ : Ty) : TypeTransform := fun _ t H => (if t = some (.obj 1) then some by_ else t, H)

/-- The declarations of types: name, and type of the fields. -/
def C118_file (f : TypeTransform) : Option (List (Str × List GoExpr)) :=
  let types : List (XName × Ty) := [(⟨[], b!"a"⟩, .obj 0), (⟨[], b!"k"⟩, .obj 1)]
  (gen asciiEnv (Sorter.byKey fun s => s) (applyOpt asciiEnv (.processTypes f) {}).1 20 [{ types := types }] [] C118_heap).toOption.map
    fun r => (genAST (Sorter.byKey fun s => s) r.2.1).2.filterMap fun d => match d with
      | .type _ n (.struct fs) => some (n, fs.map (·.type))
      | .type _ n _ => some (n, [])
      | _ => none

/-- C118 is false of the code. Where a type was used it is still used, and it is declared as well, whether it is replaced by a
type of the schema or by a built-in type. -/
theorem C118_replaced_refuted :
    C118_file (C118_replace (.obj 2)) = some [(b!"A", [.ident b!"K"]), (b!"K", []), (b!"Other", [])] ∧
    C118_file (C118_replace (.builtin 28)) = some [(b!"A", [.ident b!"K"]), (b!"K", [])] := by
  refine ⟨by decide +kernel, by decide +kernel⟩

end GoXml.Xsdgen
