import Verif.Spec.XsdgenSucceeds
set_option autoImplicit false

/-! Options that change no types before code is generated. -/

namespace GoXml.Xsdgen
open Xsd

theorem preprocess_untouched {pre : TypeTransform} {s : Schema} {H : THeap} (l : List (XName × Ty))
    (h : ∀ e ∈ l, pre s (some e.2) H = (some e.2, H)) : preprocess pre s l H = (l, H) := by
  induction l with
  | nil => rfl
  | cons e l ih =>
    simp only [preprocess, h e (List.mem_cons_self ..), ih fun x hx => h x (List.mem_cons_of_mem _ hx), Option.getD_some]

theorem preprocessAll_untouched {pre : TypeTransform} {all : GoMap XName Ty} {H : THeap} (l : List Schema)
    (h : ∀ s ∈ l, ∀ e ∈ s.types, pre { s with types := all } (some e.2) H = (some e.2, H)) : preprocessAll pre all l H = (l, H) := by
  induction l with
  | nil => rfl
  | cons s l ih =>
    simp only [preprocessAll, preprocess_untouched s.types (h s (List.mem_cons_self ..)), ih fun x hx => h x (List.mem_cons_of_mem _ hx)]

theorem untouched_none {cfg : Config} {H : THeap} {schemas : List Schema} (h : cfg.preprocessType = none) : Untouched cfg H schemas :=
  fun pre e => by rw [h] at e; cases e

theorem Untouched.some_of {cfg : Config} {H : THeap} {schemas schemas' : List Schema} (h : Untouched cfg H schemas) (hs : ∀ s ∈ schemas', s ∈ schemas) :
    Untouched cfg H schemas' := fun pre e s m => h pre e s (hs s m)

/-- `gen` where no types are changed before. -/
theorem gen_untouched {env : Env} {srt : Sorter strLt} {cfg : Config} {n : Nat} {primaries deps : List Schema} {H : THeap}
    (h : Untouched cfg H primaries) : gen env srt cfg n primaries deps H =
      (genSchemas env cfg n H (primaries.map fun s => s.types.map (·.2))).bind fun r =>
        if r.2.2 then .error
        else .ok (r.1, { names := nameAll r.1 r.2.1 [], decls := (finish srt cfg r.2.1).1, types := allTypes (primaries ++ deps), pkgname := cfg.pkgname },
          (finish srt cfg r.2.1).2) := by
  unfold gen
  cases hx : cfg.preprocessType with
  | none => rfl
  | some pre => simp only [preprocessAll_untouched primaries fun s hs e he => h pre hx s hs e he (allTypes (primaries ++ deps))]

end GoXml.Xsdgen
