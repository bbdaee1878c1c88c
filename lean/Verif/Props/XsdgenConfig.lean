import Verif.Proofs.Xsdgen
set_option autoImplicit false

/-! Properties C41, C42, C51 and part of C67: the options of xsdgen and wsdlgen. -/

namespace GoXml.Xsdgen
open Xsd

/-- The options that C41 does not hold for. -/
def Opt.isAllow : Opt → Bool
  | .allowType _ => true
  | .disallowType _ => true
  | _ => false

/-- C41, partial. Every option of xsdgen other than `AllowType` is undone by the option it returns, on
every configuration and as often as one likes. The full statement has no hypothesis on the option; it is
refuted by `C41_undo_refuted`. -/
theorem C41_undo_partial (env : Env) (o : Opt) (cfg : Config) (h : o.isAllow = false) :
    Undoable (applyOpt env) o cfg := by
  cases o with
  | allowType n => cases h
  | disallowType n => cases h
  | namespaces x => exact undoable_of_swap _ _ _ (.namespaces x) rfl rfl
  | logOutput x => exact undoable_of_swap _ _ _ (.logOutput x) rfl rfl
  | logLevel x => exact undoable_of_swap _ _ _ (.logLevel x) rfl rfl
  | setFilterAttributes f => exact undoable_of_swap _ _ _ (.setFilterAttributes f) rfl rfl
  | setFilterElements f => exact undoable_of_swap _ _ _ (.setFilterElements f) rfl rfl
  | setFilterTypes f => exact undoable_of_swap _ _ _ (.setFilterTypes f) rfl rfl
  | ignoreAttributes names =>
    exact undoable_of_swap _ _ _ (.setFilterAttributes (applyOpt env (.ignoreAttributes names) cfg).1.filterAttributes) rfl rfl
  | ignoreElements names =>
    exact undoable_of_swap _ _ _ (.setFilterElements (applyOpt env (.ignoreElements names) cfg).1.filterElements) rfl rfl
  | onlyTypes ps =>
    exact undoable_of_swap _ _ _ (.setFilterTypes (applyOpt env (.onlyTypes ps) cfg).1.filterTypes) rfl rfl
  | setPreprocess f => exact undoable_of_swap _ _ _ (.setPreprocess f) rfl rfl
  | setPostprocess f => exact undoable_of_swap _ _ _ (.setPostprocess f) rfl rfl
  | packageName x => exact undoable_of_swap _ _ _ (.packageName x) rfl rfl
  | followImports x => exact undoable_of_swap _ _ _ (.followImports x) rfl rfl
  | replace p r =>
    exact undoable_of_swap _ _ _ (.setNameTransform (applyOpt env (.replace p r) cfg).1.nameTransform) rfl rfl
  | setNameTransform f => exact undoable_of_swap _ _ _ (.setNameTransform f) rfl rfl
  | replaceAllNames p r =>
    exact undoable_of_swap _ _ _ (.setNameTransform (applyOpt env (.replaceAllNames p r) cfg).1.nameTransform) rfl rfl
  | useFieldNames =>
    exact undoable_of_swap _ _ _ (.setPreprocess (applyOpt env .useFieldNames cfg).1.preprocessType) rfl rfl
  | processTypes f =>
    exact undoable_of_swap _ _ _ (.setPreprocess (applyOpt env (.processTypes f) cfg).1.preprocessType) rfl rfl
  | handleSOAPArrayType =>
    exact undoable_of_swap _ _ _ (.setPreprocess (applyOpt env .handleSOAPArrayType cfg).1.preprocessType) rfl rfl
  | soapArrayAsSlice =>
    exact undoable_of_swap _ _ _ (.setPostprocess (applyOpt env .soapArrayAsSlice cfg).1.postprocessType) rfl rfl

example : (Opt.replace b!"a" b!"b").isAllow = false := rfl

/-- C41, partial, for `AllowType`: it is undone if some type has been allowed before, but not this one. -/
theorem C41_allowType_partial (env : Env) (n : XName) (m : GoMap XName Bool) (cfg : Config)
    (hm : cfg.allowTypes = some m) (hn : GoMap.get m n = none) : Undoable (applyOpt env) (.allowType n) cfg := by
  refine undoable_of_swap _ _ _ (.allowType n) ?_ rfl
  have h : ∀ e ∈ m, e.1 ≠ n := by
    intro e he h
    exact GoMap.get_none.mp hn (List.mem_map.mpr ⟨e, he, h⟩)
  have e1 : m.filter (fun e => decide (e.1 ≠ n)) = m := List.filter_eq_self.mpr (fun e he => by simpa using h e he)
  have e2 : GoMap.erase (GoMap.set m n true) n = m := by
    simp only [GoMap.erase, GoMap.set, List.filter_append, e1]
    simp
  simp only [applyOpt, hm, Option.getD_some, Option.map_some, e2]
  cases cfg
  simp_all

example : GoMap.get [((⟨[], b!"a"⟩ : XName), true)] ⟨[], b!"b"⟩ = none := by decide +kernel

/-- C41 is false: undoing the first `AllowType` leaves an empty set of allowed types, which is not the
configuration from before (no type would be generated instead of all); and undoing an `AllowType` of a
type that was allowed already disallows it. -/
theorem C41_undo_refuted (env : Env) :
    (∃ (cfg : Config) (n : XName), cfg.allowTypes = none ∧ ¬ Undoable (applyOpt env) (.allowType n) cfg) ∧
    (∃ (cfg : Config) (n : XName), cfg.allowTypes ≠ none ∧ Selected cfg n ∧
      ¬ Selected (undoChain (applyOpt env) (.allowType n) cfg 1).1 n ∧ ¬ Undoable (applyOpt env) (.allowType n) cfg) := by
  constructor
  · refine ⟨{}, ⟨[], b!"a"⟩, rfl, fun h => ?_⟩
    have := congrArg Config.allowTypes (h 0).2
    exact absurd this (by simp [undoChain, applyOpt])
  · refine ⟨{ allowTypes := some [(⟨[], b!"a"⟩, true)] }, ⟨[], b!"a"⟩, by simp, ?_, ?_, fun h => ?_⟩
    · constructor
      · rintro m ⟨⟩
        decide +kernel
      · rintro f ⟨⟩
    · intro h
      have := h.1 [] (by simp [undoChain, applyOpt, GoMap.set, GoMap.erase])
      cases this
    · have := congrArg Config.allowTypes (h 0).2
      exact absurd this (by simp [undoChain, applyOpt, GoMap.set, GoMap.erase])

/-- C41: of several options given to `Option`, the one returned undoes the last. -/
theorem C41_last_partial (env : Env) (os : List Opt) (o : Opt) (p : Option Opt) (cfg : Config) (h : o.isAllow = false) :
    ∃ u, (applyOpts env (os ++ [o]) p cfg).2 = some u ∧
      (applyOpt env u (applyOpts env (os ++ [o]) p cfg).1).1 = (applyOpts env os p cfg).1 := by
  have e : ∀ (os : List Opt) (p : Option Opt) (cfg : Config), applyOpts env (os ++ [o]) p cfg =
      ((applyOpt env o (applyOpts env os p cfg).1).1, some (applyOpt env o (applyOpts env os p cfg).1).2) := by
    intro os
    induction os with
    | nil => intro p cfg; rfl
    | cons o' os ih => intro p cfg; exact ih _ _
  rw [e]
  exact ⟨_, rfl, (C41_undo_partial env o (applyOpts env os p cfg).1 h 0).2⟩

/-! ### wsdlgen -/

/-- C41, partial, for wsdlgen: the options other than `OnlyPorts` are undone by the option they return,
those about logging if the xsdgen configuration has the same level and output. The full statement has no
hypothesis; it is refuted by `C41_wsdlgen_refuted`. -/
theorem C41_wsdlgen_partial (env : Env) (o : WOpt) (cfg : WConfig) (hp : ∀ ps, o ≠ .onlyPorts ps)
    (hl : (∃ n, o = .logLevel n) → cfg.xsdgen.loglevel = cfg.loglevel)
    (ho : (∃ l, o = .logOutput l) → cfg.xsdgen.logger = cfg.logger) : Undoable (applyWOpt env) o cfg := by
  cases o with
  | onlyPorts ps => exact absurd rfl (hp ps)
  | packageName x => exact undoable_of_swap _ _ _ (.packageName x) rfl rfl
  | packageComment x => exact undoable_of_swap _ _ _ (.packageComment x) rfl rfl
  | inputThreshold x => exact undoable_of_swap _ _ _ (.inputThreshold x) rfl rfl
  | outputThreshold x => exact undoable_of_swap _ _ _ (.outputThreshold x) rfl rfl
  | logLevel n =>
    refine undoable_of_swap _ _ _ (.logLevel n) ?_ rfl
    obtain ⟨a, b, c, d, x, f, g, h⟩ := cfg
    have := hl ⟨n, rfl⟩
    cases x
    simp_all [applyWOpt, applyOpt]
  | logOutput l =>
    refine undoable_of_swap _ _ _ (.logOutput l) ?_ rfl
    obtain ⟨a, b, c, d, x, f, g, h⟩ := cfg
    have := ho ⟨l, rfl⟩
    cases x
    simp_all [applyWOpt, applyOpt]

example : ({} : WConfig).xsdgen.loglevel = ({} : WConfig).loglevel := rfl

/-- C41 is false for wsdlgen: undoing `OnlyPorts` leaves a filter that lets no port through, and undoing
`LogLevel` changes the level of the xsdgen configuration to the one of wsdlgen. -/
theorem C41_wsdlgen_refuted (env : Env) :
    (∃ (cfg : WConfig) (ps : List Str), cfg.portFilter = none ∧
      (∃ f, (undoChain (applyWOpt env) (.onlyPorts ps) cfg 1).1.portFilter = some f ∧ ∀ p, f p = false) ∧
      ¬ Undoable (applyWOpt env) (.onlyPorts ps) cfg) ∧
    (∃ (cfg : WConfig) (n : Int), ¬ Undoable (applyWOpt env) (.logLevel n) cfg) := by
  constructor
  · refine ⟨{}, [b!"P"], rfl, ⟨_, rfl, fun p => by simp⟩, fun h => ?_⟩
    have := congrArg WConfig.portFilter (h 0).2
    exact absurd this (by simp [undoChain, applyWOpt])
  · refine ⟨{ xsdgen := { loglevel := 5 } }, 1, fun h => ?_⟩
    have := congrArg (fun c => c.xsdgen.loglevel) (h 0).2
    exact absurd this (by simp [undoChain, applyWOpt, applyOpt])

/-! ### Names -/

/-- C42. After any number of `Replace` options a name is what the rules make of it in the order in which
they were given, starting from what the configuration made of it before; invalid patterns have no effect. -/
theorem C42_replace_in_order (env : Env) (rules : List (Str × Str)) (p : Option Opt) (cfg : Config) (n : XName) :
    publicName env (applyOpts env (rules.map fun r => .replace r.1 r.2) p cfg).1 n =
      env.title (rules.foldl (ruled env.compile) (localName cfg n)) := by
  have key : ∀ (rules : List (Str × Str)) (p : Option Opt) (cfg : Config),
      localName (applyOpts env (rules.map fun r => .replace r.1 r.2) p cfg).1 n =
        rules.foldl (ruled env.compile) (localName cfg n) := by
    intro rules
    induction rules with
    | nil => intro p cfg; rfl
    | cons r rs ih =>
      intro p cfg
      simp only [List.map_cons, applyOpts, List.foldl_cons]
      rw [ih]
      congr 1
      simp only [localName, applyOpt, thenReplace, ruled]
      cases env.compile r.1 <;> cases cfg.nameTransform <;> rfl
  have e : ∀ c, publicName env c n = env.title (localName c n) := fun c => rfl
  rw [e, key]

/-- Two rules, the second of which applies to the result of the first, and an invalid one. -/
example : (let r (a : Str) : Regexp := ⟨fun s t => if s = a then t else s, fun s => decide (s = a)⟩
    let env : Env := ⟨fun p => if p = b!"(" then none else some (r p), id, fun _ t H => (t, H), id⟩
    publicName env (applyOpts env [.replace b!"a" b!"b", .replace b!"(" b!"x", .replace b!"b" b!"c"] none {}).1 ⟨[], b!"a"⟩) =
      b!"c" := by decide +kernel

/-- C42. Undoing the last `Replace` gives back the names of before. -/
theorem C42_undo (env : Env) (os : List Opt) (pat repl : Str) (p : Option Opt) (cfg : Config) (n : XName) :
    ∃ u, (applyOpts env (os ++ [.replace pat repl]) p cfg).2 = some u ∧
      publicName env (applyOpt env u (applyOpts env (os ++ [.replace pat repl]) p cfg).1).1 n =
        publicName env (applyOpts env os p cfg).1 n := by
  obtain ⟨u, h1, h2⟩ := C41_last_partial env os (.replace pat repl) p cfg rfl
  exact ⟨u, h1, by rw [h2]⟩

/-! ### Ignored fields -/

/-- C51. With `IgnoreAttributes` the attributes left are exactly those whose local name is not in the
list, in their order, and the elements are those of the configuration before. -/
theorem C51_ignore_attributes (env : Env) (cfg : Config) (names : List Str) (t : ComplexT) :
    (filterFields (applyOpt env (.ignoreAttributes names) cfg).1 t).1 =
      t.attributes.filter (fun a => decide (a.name.loc ∉ names)) ∧
    (filterFields (applyOpt env (.ignoreAttributes names) cfg).1 t).2 = (filterFields cfg t).2 := by
  constructor
  · simp only [filterFields, applyOpt, keepAttrs_eq]
    congr 1
    funext a
    simp
  · rfl

/-- C51 for `IgnoreElements`. -/
theorem C51_ignore_elements (env : Env) (cfg : Config) (names : List Str) (t : ComplexT) :
    (filterFields (applyOpt env (.ignoreElements names) cfg).1 t).2 =
      t.elements.filter (fun a => decide (a.name.loc ∉ names)) ∧
    (filterFields (applyOpt env (.ignoreElements names) cfg).1 t).1 = (filterFields cfg t).1 := by
  constructor
  · simp only [filterFields, applyOpt, keepElems_eq]
    congr 1
    funext a
    simp
  · rfl

/-- C51: without the options no field is left out. -/
theorem C51_no_filter (cfg : Config) (t : ComplexT) (h1 : cfg.filterAttributes = none) (h2 : cfg.filterElements = none) :
    filterFields cfg t = (t.attributes, t.elements) := by
  simp [filterFields, h1, h2, keepAttrs_none, keepElems_none]

example : (let env : Env := ⟨fun _ => none, id, fun _ t H => (t, H), id⟩
    (filterFields (applyOpt env (.ignoreAttributes [b!"id"]) {}).1
      { attributes := [{ name := ⟨b!"u", b!"id"⟩, type := .builtin 3 }, { name := ⟨[], b!"x"⟩, type := .builtin 3 }] }).1.map
        (·.name.loc)) = [b!"x"] := by decide +kernel

end GoXml.Xsdgen
