import Verif.Proofs.XsdgenGen
import Verif.Props.XsdgenSpec
import Verif.Props.XsdSchema
import Verif.Model.XsdgenCli
import Mathlib.Data.List.Nodup
import Mathlib.Data.List.Perm.Subperm
set_option autoImplicit false

/-! Theorems about `xsdgen/cli.go`: C49 (missing namespaces), C50 (imports), C80 (the configuration). -/

namespace GoXml.Xsdgen
open Xsd

/-! ### C49 -/

/-- C49, partial: if no namespace is requested twice and no two schemas have the same target namespace, a
namespace without schema is an error that names exactly the missing namespaces, and otherwise the schemas
of the requested namespaces are selected, in their order. -/
theorem C49_missing_partial (namespaces : List Str) (deps : List Schema) (hn : namespaces.Nodup) (hd : (deps.map (·.targetNS)).Nodup) :
    (∀ missing, selectSchemas namespaces deps = .error missing →
      (∃ ns, ns ∈ missing) ∧ ∀ ns, ns ∈ missing ↔ ns ∈ namespaces ∧ ∀ s ∈ deps, s.targetNS ≠ ns) ∧
    (∀ ps, selectSchemas namespaces deps = .ok ps → (∀ ns ∈ namespaces, ∃ s ∈ deps, s.targetNS = ns) ∧
      ps = deps.filter fun s => decide (s.targetNS ∈ namespaces)) := by
  have hany : ∀ s : Schema, (namespaces.any fun ns => decide (s.targetNS = ns)) = decide (s.targetNS ∈ namespaces) := by
    intro s
    rw [Bool.eq_iff_iff]
    simp only [List.any_eq_true, decide_eq_true_eq]
    constructor
    · rintro ⟨ns, h, rfl⟩; exact h
    · intro h; exact ⟨_, h, rfl⟩
  set ps := deps.filter fun s => decide (s.targetNS ∈ namespaces) with hps
  have hsel : selectSchemas namespaces deps = if ps.length < namespaces.length then
      .error (namespaces.filter fun ns => decide (ns ∉ ps.map (·.targetNS))) else .ok ps := by
    unfold selectSchemas
    simp only [hany]
    rfl
  have hmem : ∀ ns, ns ∈ ps.map (·.targetNS) ↔ ns ∈ namespaces ∧ ∃ s ∈ deps, s.targetNS = ns := by
    intro ns
    simp only [hps, List.mem_map, List.mem_filter, decide_eq_true_eq]
    constructor
    · rintro ⟨s, ⟨h1, h2⟩, rfl⟩; exact ⟨h2, s, h1, rfl⟩
    · rintro ⟨h1, s, h2, rfl⟩; exact ⟨s, ⟨h2, h1⟩, rfl⟩
  have hpn : (ps.map (·.targetNS)).Nodup := List.Nodup.sublist (List.Sublist.map _ List.filter_sublist) hd
  have hmiss : ∀ ns, ns ∈ (namespaces.filter fun ns => decide (ns ∉ ps.map (·.targetNS))) ↔
      ns ∈ namespaces ∧ ∀ s ∈ deps, s.targetNS ≠ ns := by
    intro ns
    rw [List.mem_filter, decide_eq_true_eq, hmem]
    constructor
    · rintro ⟨h1, h2⟩; exact ⟨h1, fun s hs he => h2 ⟨h1, s, hs, he⟩⟩
    · rintro ⟨h1, h2⟩; exact ⟨h1, fun ⟨_, s, hs, he⟩ => h2 s hs he⟩
  constructor
  · intro missing h
    rw [hsel] at h
    split at h
    · rename_i hlt
      cases h
      refine ⟨?_, hmiss⟩
      by_contra hno
      have : namespaces ⊆ ps.map (·.targetNS) := by
        intro ns h1
        rw [hmem]
        refine ⟨h1, ?_⟩
        by_contra h2
        exact hno ⟨ns, (hmiss ns).mpr ⟨h1, fun s hs he => h2 ⟨s, hs, he⟩⟩⟩
      have := (List.subperm_of_subset hn this).length_le
      rw [List.length_map] at this
      omega
    · cases h
  · intro qs h
    rw [hsel] at h
    split at h
    · cases h
    · rename_i hlt
      cases h
      refine ⟨?_, rfl⟩
      intro ns h1
      have hsub : ps.map (·.targetNS) ⊆ namespaces := fun x hx => ((hmem x).mp hx).1
      have hp := (List.subperm_of_subset hpn hsub).perm_of_length_le (by rw [List.length_map]; omega)
      exact ((hmem ns).mp (hp.mem_iff.mpr h1)).2

example : [b!"a", b!"b"].Nodup ∧ ([({ targetNS := b!"b" } : Schema), { targetNS := b!"c" }].map (·.targetNS)).Nodup := by decide

/-- C49 is false: of two requested namespaces one is missing, but there are two schemas for the other, so
nothing is reported. -/
theorem C49_missing_refuted :
    let deps : List Schema := [{ targetNS := b!"a" }, { targetNS := b!"a" }]
    selectSchemas [b!"a", b!"missing"] deps = .ok deps := rfl

/-- C49 is false: a namespace that is requested twice and has a schema is an error that names nothing. -/
theorem C49_twice_refuted : selectSchemas [b!"a", b!"a"] [{ targetNS := b!"a" }] = .error [] := rfl

/-! ### C50 -/

/-- The files that a file refers to. -/
def Imported (files : Str → Option Doc) (a b : Str) : Prop :=
  ∃ root, files a = some (some root) ∧ b ∈ (imports root).map (·.location)

/-- A file is one of the given ones or imported by them, directly or not. -/
inductive Reached (files : Str → Option Doc) (names : List Str) : Str → Prop
  | given {a : Str} : a ∈ names → Reached files names a
  | imported {a b : Str} : Reached files names a → Imported files a b → Reached files names b

theorem readLoop_ok {files : Str → Option Doc} {recur : List Str → Run (List Doc)} :
    ∀ (names : List Str) (ds : List Doc), readLoop files true recur names = .ok ds →
    (names = [] ∧ ds = []) ∨ ∃ name rest root deps tail, names = name :: rest ∧ files name = some (some root) ∧
      recur ((imports root).map (·.location)) = .ok deps ∧ readLoop files true recur rest = .ok tail ∧ ds = deps ++ some root :: tail := by
  intro names ds h
  cases names with
  | nil => cases h; exact Or.inl ⟨rfl, rfl⟩
  | cons name rest =>
    refine Or.inr ?_
    simp only [readLoop] at h
    split at h
    · cases h
    · rename_i doc hd
      simp only [if_true] at h
      split at h
      · cases h
      · rename_i root
        cases hr : recur ((imports root).map (·.location)) with
        | ok deps =>
          rw [hr] at h
          cases ht : readLoop files true recur rest with
          | ok tail =>
            rw [ht] at h
            cases h
            exact ⟨name, rest, root, deps, tail, rfl, hd, hr, ht, rfl⟩
          | error => rw [ht] at h; cases h
          | panic => rw [ht] at h; cases h
          | running => rw [ht] at h; cases h
        | error => rw [hr] at h; cases h
        | panic => rw [hr] at h; cases h
        | running => rw [hr] at h; cases h

/-- What holds of a list of documents that were read. -/
def InOrder (files : Str → Option Doc) (ds : List Doc) : Prop :=
  ∀ pre d post, ds = pre ++ d :: post → ∃ root, d = some root ∧ ∀ r ∈ imports root, ∃ dep, files r.location = some dep ∧ dep ∈ pre

theorem InOrder.append {files : Str → Option Doc} {a b : List Doc} (ha : InOrder files a) (hb : InOrder files b) : InOrder files (a ++ b) := by
  intro pre d post h
  rcases List.append_eq_append_iff.mp h with ⟨c, h1, h2⟩ | ⟨c, h1, h2⟩
  · obtain ⟨root, e, k⟩ := hb c d post h2
    refine ⟨root, e, fun r hr => ?_⟩
    obtain ⟨dep, k1, k2⟩ := k r hr
    exact ⟨dep, k1, by rw [h1]; exact List.mem_append_right _ k2⟩
  · cases c with
    | nil =>
      simp only [List.append_nil, List.nil_append] at h1 h2
      obtain ⟨root, e, k⟩ := hb [] d post h2.symm
      refine ⟨root, e, fun r hr => ?_⟩
      obtain ⟨dep, _, k2⟩ := k r hr
      cases k2
    | cons x c =>
      simp only [List.cons_append, List.cons.injEq] at h2
      obtain ⟨rfl, h2⟩ := h2
      exact ha pre d c h1

theorem Reached.trans {files : Str → Option Doc} {names names' : List Str} (h : ∀ a ∈ names, Reached files names' a) {b : Str}
    (hb : Reached files names b) : Reached files names' b := by
  induction hb with
  | given ha => exact h _ ha
  | imported _ hi ih => exact .imported ih hi

theorem readFiles_spec (files : Str → Option Doc) : ∀ (n : Nat) (names : List Str) (ds : List Doc),
    readFiles files true n names = .ok ds →
    InOrder files ds ∧ (∀ name ∈ names, ∃ d ∈ ds, files name = some d) ∧
    (∀ d ∈ ds, ∃ name, Reached files names name ∧ files name = some d) := by
  intro n
  induction n with
  | zero => intro names ds h; cases h
  | succ n ihn =>
    intro names
    induction names with
    | nil =>
      intro ds h
      cases h
      exact ⟨fun pre d post h => by simp at h, by simp, by simp⟩
    | cons name rest ih =>
      intro ds h
      rcases readLoop_ok _ _ h with ⟨h, _⟩ | ⟨name', rest', root, deps, tail, he, hf, hr, ht, rfl⟩
      · cases h
      · cases he
        obtain ⟨o1, l1, r1⟩ := ihn _ _ hr
        obtain ⟨o2, l2, r2⟩ := ih _ ht
        refine ⟨?_, ?_, ?_⟩
        · have hone : InOrder files (deps ++ [some root]) := by
            intro pre d post h
            rcases List.append_eq_append_iff.mp h with ⟨c, h1, h2⟩ | ⟨c, h1, h2⟩
            · cases c with
              | nil =>
                simp only [List.append_nil, List.nil_append, List.cons.injEq] at h1 h2
                obtain ⟨rfl, _⟩ := h2
                subst h1
                refine ⟨root, rfl, fun r hr => ?_⟩
                obtain ⟨d, hd, hf⟩ := l1 r.location (List.mem_map.mpr ⟨r, hr, rfl⟩)
                exact ⟨d, hf, hd⟩
              | cons x c =>
                have := congrArg List.length h2
                simp at this
            · cases c with
              | nil =>
                simp only [List.append_nil, List.nil_append, List.cons.injEq] at h1 h2
                obtain ⟨rfl, _⟩ := h2
                subst h1
                refine ⟨root, rfl, fun r hr => ?_⟩
                obtain ⟨d, hd, hf⟩ := l1 r.location (List.mem_map.mpr ⟨r, hr, rfl⟩)
                exact ⟨d, hf, hd⟩
              | cons x c =>
                simp only [List.cons_append, List.cons.injEq] at h2
                obtain ⟨rfl, h2⟩ := h2
                exact o1 pre d c h1
          have := hone.append o2
          simpa using this
        · intro x hx
          rcases List.mem_cons.mp hx with rfl | hx
          · exact ⟨some root, by simp, hf⟩
          · obtain ⟨d, hd, hd2⟩ := l2 x hx
            exact ⟨d, by simp [hd], hd2⟩
        · intro d hd
          rcases List.mem_append.mp hd with hd | hd
          · obtain ⟨x, hx, hx2⟩ := r1 d hd
            refine ⟨x, Reached.trans ?_ hx, hx2⟩
            intro a ha
            exact .imported (.given (List.mem_cons_self ..)) ⟨root, hf, ha⟩
          · rcases List.mem_cons.mp hd with rfl | hd
            · exact ⟨name, .given (List.mem_cons_self ..), hf⟩
            · obtain ⟨x, hx, hx2⟩ := r2 d hd
              exact ⟨x, Reached.trans (fun a ha => .given (List.mem_cons_of_mem _ ha)) hx, hx2⟩

/-- C50, partial: if `readFiles` returns documents, then every file that is imported by a document is before
it, every file that is imported, directly or not, is there, and nothing else is. -/
theorem C50_order_partial (files : Str → Option Doc) (n : Nat) (names : List Str) (ds : List Doc) (h : readFiles files true n names = .ok ds) :
    (∀ pre d post, ds = pre ++ d :: post → ∃ root, d = some root ∧
      ∀ r ∈ imports root, ∃ dep, files r.location = some dep ∧ dep ∈ pre) ∧
    (∀ name, Reached files names name → ∃ d ∈ ds, files name = some d) ∧
    (∀ d ∈ ds, ∃ name, Reached files names name ∧ files name = some d) := by
  obtain ⟨h1, h2, h3⟩ := readFiles_spec files n names ds h
  refine ⟨h1, ?_, h3⟩
  intro name hr
  induction hr with
  | given ha => exact h2 _ ha
  | imported _ hi ih =>
    obtain ⟨d, hd, hf⟩ := ih
    obtain ⟨root, hr, hb⟩ := hi
    rw [hr] at hf
    cases hf
    obtain ⟨pre, post, hs⟩ := List.append_of_mem hd
    obtain ⟨root', he, hk⟩ := h1 pre _ post hs
    cases he
    obtain ⟨r, hr, rfl⟩ := List.mem_map.mp hb
    obtain ⟨dep, k1, k2⟩ := hk r hr
    exact ⟨dep, by rw [hs]; exact List.mem_append_left _ k2, k1⟩

/-- C50, partial: if one of the files that are imported, directly or not, cannot be read or parsed,
`readFiles` does not succeed. -/
theorem C50_unreadable_partial (files : Str → Option Doc) (n : Nat) (names : List Str) (ds : List Doc) (name : Str)
    (hr : Reached files names name) (hf : files name = none ∨ files name = some none) : readFiles files true n names ≠ .ok ds := by
  intro h
  obtain ⟨h1, h2, _⟩ := C50_order_partial files n names ds h
  obtain ⟨d, hd, hd2⟩ := h2 name hr
  rcases hf with hf | hf <;> rw [hf] at hd2 <;> cases hd2
  obtain ⟨pre, post, hs⟩ := List.append_of_mem hd
  obtain ⟨root, he, _⟩ := h1 pre _ post hs
  cases he

/-- C50, partial: if imports are not cyclic, that is if the files can be numbered so that every file has a
number above those of the files it imports, `readFiles` ends. -/
theorem C50_ends_partial (files : Str → Option Doc) (rank : Str → Nat) (h : ∀ a b, Imported files a b → rank b < rank a) :
    ∀ (n : Nat) (names : List Str), (∀ a ∈ names, rank a < n) →
      (∃ ds, readFiles files true (n + 1) names = .ok ds) ∨ readFiles files true (n + 1) names = .error := by
  intro n
  induction n with
  | zero =>
    intro names hn
    cases names with
    | nil => exact Or.inl ⟨[], rfl⟩
    | cons a as => exact absurd (hn a (List.mem_cons_self ..)) (by omega)
  | succ n ihn =>
    intro names
    induction names with
    | nil => exact fun _ => Or.inl ⟨[], rfl⟩
    | cons name rest ih =>
      intro hn
      have hrest := ih (fun a ha => hn a (List.mem_cons_of_mem _ ha))
      rw [readFiles] at hrest ⊢
      rw [readLoop]
      cases hf : files name with
      | none => exact Or.inr rfl
      | some doc =>
        simp only [if_true]
        cases doc with
        | none => exact Or.inr rfl
        | some root =>
          have hname := hn name (List.mem_cons_self ..)
          have hdeps := ihn ((imports root).map (·.location)) (fun b hb => by
            have := h name b ⟨root, hf, hb⟩
            omega)
          rcases hdeps with ⟨ds, hd⟩ | hd
          · simp only [hd, Run.bind]
            rcases hrest with ⟨ts, ht⟩ | ht <;> rw [ht]
            · exact Or.inl ⟨_, rfl⟩
            · exact Or.inr rfl
          · simp only [hd, Run.bind]
            exact Or.inr trivial

/-- A schema that imports the file given. -/
def importing (file : Str) : Element :=
  .mk ⟨schemaNS, b!"schema"⟩ [] [] [] [.mk ⟨schemaNS, b!"import"⟩ [⟨⟨[], b!"schemaLocation"⟩, file⟩] [] [] []]

/-- An empty schema with the target namespace given. -/
def emptySchema (ns : Str) : Element :=
  .mk ⟨schemaNS, b!"schema"⟩ [⟨⟨[], b!"targetNamespace"⟩, ns⟩] [⟨schemaNS, b!"xs"⟩] [] []

example : readFiles (fun f => if f = b!"a" then some (some (importing b!"b")) else if f = b!"b" then some (some (emptySchema b!"x")) else none)
    true 3 [b!"a"] = .ok [some (emptySchema b!"x"), some (importing b!"b")] := by
  rfl

/-- C50 is false: files that import each other are read for ever. -/
theorem C50_cyclic_refuted (n : Nat) :
    readFiles (fun _ => some (some (importing b!"a"))) true n [b!"a"] = .running := by
  induction n with
  | zero => rfl
  | succ n ih =>
    have : (imports (importing b!"a")).map (·.location) = [b!"a"] := by decide +kernel
    simp only [readFiles, readLoop, if_true, this, ih, Run.bind]

/-- C50 is false: if a file cannot be read and no namespaces are given, `GenAST` succeeds with an empty file
(`xsd.Parse` of nothing is `parseSchemas` of no schemas). -/
theorem C50_unreadable_refuted (env : Env) (srt : Sorter strLt) (n : Nat) (parse : List Doc → Outcome (List Schema × THeap))
    (penv : ParseEnv) (ord : MapOrder) (hp : parse [] = parseSchemas penv ord []) (hn : 0 < n) :
    genASTFiles env srt n parse (fun _ => none) {} [b!"a"] = .ok (b!"ws", []) := by
  obtain ⟨n, rfl⟩ : ∃ m, n = m + 1 := ⟨n - 1, by omega⟩
  have h1 : readFiles (fun _ => none) (Config.followImports {}) (n + 1) [b!"a"] = .error := rfl
  have h2 : parseSchemas penv ord [] = .ok ([builtinSchema], []) := by
    simp [parseSchemas, parseRoots, finishRoots]
  have h3 : srt.sort [] = [] := List.perm_nil.mp (srt.perm [])
  have h4 : genSchemas env (addStandardHelpers {}) (n + 1) [] [] = .ok ([], [], false) := rfl
  simp only [genASTFiles, h1, genCode, lookupTargetNS, hp, h2, if_true]
  have h5 : selectSchemas [] [builtinSchema] = .ok [] := rfl
  simp only [h5]
  simp [gen, addStandardHelpers, genSchemas, Run.bind, finish, declare, addHelpers, h3, addAllFuncs, genAST]

/-! ### C80 -/

/-- C80, partial: if the namespaces are given, `GenCode` changes nothing in the configuration but the helpers,
which every call sets up anew; so a second call with the same documents has the same result. -/
theorem C80_reuse_partial (env : Env) (srt : Sorter strLt) (n : Nat) (parse : List Doc → Outcome (List Schema × THeap)) (cfg : Config)
    (docs docs' : List Doc) (hn : cfg.namespaces ≠ []) :
    (genCode env srt n parse (genCode env srt n parse cfg docs).1 docs').2 = (genCode env srt n parse cfg docs').2 ∧
    ∃ types funcs, (genCode env srt n parse cfg docs).1 = { cfg with helperTypes := types, helperFuncs := funcs } := by
  have key : ∃ types funcs, (genCode env srt n parse cfg docs).1 = { cfg with helperTypes := types, helperFuncs := funcs } := by
    unfold genCode
    simp only [hn, if_false]
    split
    · exact ⟨_, _, rfl⟩
    · exact ⟨_, _, rfl⟩
    · split
      · exact ⟨_, _, rfl⟩
      · split
        · rename_i r hr
          simp only [gen] at hr
          obtain ⟨q, _, hr⟩ := bind_ok hr
          split at hr
          · cases hr
          · cases hr
            exact ⟨_, _, rfl⟩
        · exact ⟨_, _, rfl⟩
        · exact ⟨_, _, rfl⟩
        · exact ⟨_, _, rfl⟩
  refine ⟨?_, key⟩
  obtain ⟨types, funcs, h⟩ := key
  rw [h]
  have hstd : addStandardHelpers { cfg with helperTypes := types, helperFuncs := funcs } = addStandardHelpers cfg := rfl
  simp only [genCode, hn, if_false, hstd]
  cases parse docs' with
  | error => rfl
  | panic => rfl
  | ok d =>
    cases hs : selectSchemas cfg.namespaces d.1 with
    | error ns => simp only [hs]
    | ok ps =>
      simp only [hs]

/-- What `GenCode` reports as missing. -/
def CodeResult.missingNS : CodeResult → Option (List Str)
  | .missing ns => some ns
  | _ => none

/-- Whether `GenCode` succeeds. -/
def CodeResult.succeeds : CodeResult → Bool
  | .done (.ok _) => true
  | _ => false

/-- C80 is false: the namespaces of the first document are kept, and the second call asks for them. -/
theorem C80_reuse_refuted :
    let parse := fun docs : List Doc => parseSchemas Xsd.plainEnv inOrder (docs.filterMap id)
    let run := genCode asciiEnv (Sorter.byKey fun s => s) 20 parse
    let r1 := run {} [some (emptySchema b!"a")]
    r1.2.succeeds = true ∧ (run r1.1 [some (emptySchema b!"b")]).2.missingNS = some [b!"a"] ∧
    (run {} [some (emptySchema b!"b")]).2.succeeds = true := by decide +kernel

end GoXml.Xsdgen
