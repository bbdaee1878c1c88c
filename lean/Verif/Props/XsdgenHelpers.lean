import Verif.Proofs.XsdgenHelpers
import Verif.Props.XsdgenClosed
set_option autoImplicit false

/-! Property C98: the helper types and functions that declarations need are declared, functions once. -/

namespace GoXml.Xsdgen
open Xsd GoMap

/-- The helpers of `addStandardHelpers` are as the proofs need them. -/
theorem standardHelpers_set (cfg : Config) : HelperSet (addStandardHelpers cfg) where
  names := by
    have key : ∀ p ∈ (addStandardHelpers {}).helperTypes, ∀ q ∈ (addStandardHelpers {}).helperTypes, p.2.name = q.2.name → p.1 = q.1 := by
      decide +kernel
    exact fun d d' h h' hd hd' hn => key _ (get_some_mem hd) _ (get_some_mem hd') hn
  keyed := by
    have key : ∀ p ∈ (addStandardHelpers {}).helperTypes, match p.2.xsdType with
        | .builtin b => builtinName b = p.1
        | _ => False := by
      intro p hp
      simp only [addStandardHelpers, List.mem_cons, List.not_mem_nil, or_false] at hp
      rcases hp with rfl | rfl | rfl | rfl | rfl | rfl | rfl | rfl | rfl | rfl <;> exact rfl
    intro H k h hk
    have := key _ (get_some_mem hk)
    cases hx : h.xsdType with
    | builtin b => rw [hx] at this; exact this
    | obj i => rw [hx] at this; exact this.elim
    | link i => rw [hx] at this; exact this.elim
  plain := by
    have key : ∀ p ∈ (addStandardHelpers {}).helperTypes, p.2.helperTypes = [] ∧ (∀ f ∈ p.2.helperFuncs,
        (get (addStandardHelpers {}).helperFuncs f).isSome) ∧ ∀ m ∈ p.2.methods, m.recv ≠ [] := by decide +kernel
    intro k h hk
    obtain ⟨h1, h2, h3⟩ := key _ (get_some_mem hk)
    exact ⟨h1, fun f hf => Option.isSome_iff_exists.mp (h2 f hf), h3⟩
  funcs := by
    have key : ∀ p ∈ (addStandardHelpers {}).helperFuncs, p.2.recv = [] ∧ p.2.name = p.1 := by decide +kernel
    exact fun k f hk => key _ (get_some_mem hk)

/-- The names of the built-in types that are represented as times (xsdgen/config.go:629-640). -/
def timeNames : List XName :=
  [b!"date", b!"dateTime", b!"gDay", b!"gMonth", b!"gMonthDay", b!"gYear", b!"gYearMonth", b!"time"].map
    fun s => ⟨b!"http://www.w3.org/2001/XMLSchema", s⟩

/-- C98. If a declaration made by `GenCode` needs a helper type, then that type is declared in the file, with all
its methods. If the type is one of those for times, then the two functions that its methods call are
declared, once. No helper function is declared unless a declaration needs it. -/
theorem C98_helpers (env : Env) (srt srt' : Sorter strLt) (n : Nat) (parse : List Doc → Outcome (List Schema × THeap)) (cfg cfg' : Config)
    (docs : List Doc) (schemas : List Schema) (H H' : THeap) (code : Code) (hp : parse docs = .ok (schemas, H))
    (hpost : cfg.postprocessType = none) (h : genCode env srt n parse cfg docs = (cfg', .done (.ok (H', code)))) :
    (∀ name s, get code.decls name = some s → ∀ d ∈ s.helperTypes,
      ∃ hlp, get (addStandardHelpers {}).helperTypes d = some hlp ∧ GoDecl.type hlp.doc hlp.name hlp.expr ∈ (genAST srt' code).2 ∧
        (∀ m ∈ hlp.methods, GoDecl.func m ∈ (genAST srt' code).2) ∧
        (d ∈ timeNames → ∀ f ∈ [b!"_unmarshalTime", b!"_marshalTime"], List.count (GoDecl.func ⟨[], f⟩) (genAST srt' code).2 = 1)) ∧
    (∀ f ∈ [b!"_unmarshalTime", b!"_marshalTime"], List.count (GoDecl.func ⟨[], f⟩) (genAST srt' code).2 ≤ 1 ∧
      ((∀ name s, get code.decls name = some s → f ∉ s.helperFuncs) → GoDecl.func ⟨[], f⟩ ∉ (genAST srt' code).2)) := by
  obtain ⟨ns, primaries, r, hg, rfl, -, -⟩ := genCode_ok hp h
  have hset := standardHelpers_set { cfg with namespaces := ns }
  have hpost' : (addStandardHelpers { cfg with namespaces := ns }).postprocessType = none := hpost
  simp only [gen] at hg
  obtain ⟨q, hq, hg⟩ := bind_ok hg
  split at hg
  · cases hg
  · have hss := genSchemas_helped hset.keyed _ _ _ hq
    cases hg
    have fns : ∀ f ∈ [b!"_unmarshalTime", b!"_marshalTime"], get (addStandardHelpers { cfg with namespaces := ns }).helperFuncs f = some ⟨[], f⟩ := by
      intro f hf
      simp only [List.mem_cons, List.not_mem_nil, or_false] at hf
      rcases hf with rfl | rfl <;> rfl
    constructor
    · intro name s hs d hd
      obtain ⟨hlp, h', h1, h2, h3, h4, h6, h5⟩ := finish_types hpost' hset hss hs hd
      refine ⟨hlp, h1, genAST_type.mpr ⟨h', h2, h3, h4⟩, fun m hm => genAST_func h2 (h5 m hm), ?_⟩
      intro ht f hf
      rw [finish_funcs hpost' hset hss rfl (fns f hf), if_pos]
      refine ⟨_, h', h2, ?_⟩
      rw [h6]
      have key : ∀ p ∈ (addStandardHelpers {}).helperTypes, p.1 ∈ timeNames → ∀ f ∈ [b!"_unmarshalTime", b!"_marshalTime"], f ∈ p.2.helperFuncs := by
        decide +kernel
      exact key _ (get_some_mem h1) ht f hf
    · intro f hf
      rw [← List.count_eq_zero, finish_funcs hpost' hset hss rfl (fns f hf)]
      constructor
      · split
        · exact Nat.le_refl _
        · exact Nat.zero_le _
      · intro hno
        rw [if_neg]
        rintro ⟨name, s, hs, hk⟩
        exact hno name s hs hk

/-- The declarations made for the types of a list, by name, with the helper types and functions they need, and the functions in the file. -/
def helpersOf (H : THeap) (types : List Ty) : Option (List (Str × List XName × List Str) × List FuncDecl) :=
  (match (genCode asciiEnv (Sorter.byKey fun s => s) 20
      (fun _ => .ok ([{ targetNS := b!"u", types := types.map fun t => (xmlName H t, t) }], H)) { namespaces := [b!"u"] } []).2 with
    | .done r => r.toOption
    | _ => none).map fun (r : THeap × Code) => (r.2.decls.map fun (e : Str × Spec) => (e.1, e.2.helperTypes, e.2.helperFuncs),
      (genAST (Sorter.byKey fun s => s) r.2).2.filterMap fun (d : GoDecl) => match d with
        | .func f => if f.recv = [] then some f else none
        | _ => none)

/-- Two simple types of dates and an enumeration. -/
def C98_heap : THeap :=
  [.simple { name := ⟨b!"u", b!"s"⟩, base := some (.builtin 16) }, .simple { name := ⟨b!"u", b!"v"⟩, base := some (.builtin 16) },
   .simple { name := ⟨b!"u", b!"w"⟩, base := some (.builtin 38), restriction := { enum := [b!"a"] } }]

/-- Both need the helper type, which is declared once and so are its functions. -/
example : (helpersOf C98_heap [.obj 0, .obj 1, .obj 2]).map (fun r => r.1.map fun e => e.1) = some [b!"S", b!"V", b!"W", b!"xsdDate"] ∧
    (helpersOf C98_heap [.obj 0, .obj 1, .obj 2]).map (fun r => r.1.map fun e => e.2.1) = some
      [[⟨b!"http://www.w3.org/2001/XMLSchema", b!"date"⟩], [⟨b!"http://www.w3.org/2001/XMLSchema", b!"date"⟩], [], []] ∧
    (helpersOf C98_heap [.obj 0, .obj 1, .obj 2]).map (fun r => r.1.map fun e => e.2.2) = some
      [[], [], [], [b!"_unmarshalTime", b!"_marshalTime"]] ∧
    (helpersOf C98_heap [.obj 0, .obj 1, .obj 2]).map (·.2) = some [⟨[], b!"_unmarshalTime"⟩, ⟨[], b!"_marshalTime"⟩] := by
  decide +kernel

/-- Nothing needs a time: no functions. -/
example : (helpersOf C98_heap [.obj 2]).map (fun r => r.1.map fun e => e.1) = some [b!"W"] ∧
    (helpersOf C98_heap [.obj 2]).map (·.2) = some [] := by
  decide +kernel

end GoXml.Xsdgen
