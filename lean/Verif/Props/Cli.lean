import Verif.Proofs.Cli
import Verif.Proofs.Xsdgen
set_option autoImplicit false

namespace GoXml.Cli
open Xsdgen Xsd

/-! ### C127 -/

/-- C127: the configuration that code is generated with, the files that it is generated from, and the file that it is
written to are what the command line says, in whichever spelling. Flags that are not given leave the configuration as
it was, except for `-ns` and `-f` (see `C127_kept_refuted`). -/
theorem C127_configures_partial (env : Env) (cfg : Config) (flags : List (Str × Str)) (files args : List Str) (rules : List (Regexp × Str))
    (hline : CommandLine (· ∈ xBooleans) flags files args) (hfiles : files ≠ [])
    (hv : ∀ f ∈ flags, ValidFlag env.compile xBooleans xTexts f)
    (hr : List.Forall₂ (IsRule env.compile) (valuesOf flags b!"r") rules) :
    ∃ cfg', xsdgenCLI env cfg args = .generate cfg' files (lastOf flags b!"o" b!"xsdgen_output.go") ∧
      cfg'.namespaces = valuesOf flags b!"ns" ∧
      (cfg'.followImports = true ↔ Truth (lastOf flags b!"f" b!"false")) ∧
      cfg'.pkgname = (if lastOf flags b!"pkg" b!"" = b!"" then cfg.pkgname else lastOf flags b!"pkg" b!"") ∧
      cfg'.loglevel = (if Truth (lastOf flags b!"vv" b!"false") then 5 else if Truth (lastOf flags b!"v" b!"false") then 1 else cfg.loglevel) ∧
      (∀ n, publicName env cfg' n = env.title (rulesApplied rules (localName cfg n))) ∧
      { cfg' with namespaces := cfg.namespaces, followImports := cfg.followImports, pkgname := cfg.pkgname, loglevel := cfg.loglevel,
                  nameTransform := cfg.nameTransform } = cfg := by
  have hline' : CommandLine (fun n => xKnown n = some true) flags files args := by
    have : (fun n => xKnown n = some true) = (· ∈ xBooleans) := funext fun n => propext (xKnown_iff n).1
    rw [this]; exact hline
  obtain ⟨st, rs, h1, h2, h3, h4, h5, h6, h7, h8, h9, h10⟩ := xSetAll env flags rules hv hr {}
  have hp := parseFlags_line xKnown (xSet env) xGood flags files args
    (fun f hf => (xKnown_iff _).2.2 (validFlag_known (hv f hf))) hline' {}
  rw [h1, Option.map_some] at hp
  refine ⟨(applyOpts env (xOptions st) none cfg).1, ?_, ?_⟩
  · simp only [xsdgenCLI, hp]
    cases files with
    | nil => exact absurd rfl hfiles
    | cons f fs => simp only [h3]
  · have hrules : List.Forall₂ (fun o r => o = Opt.replaceAllNames r.1 r.2 ∨ ∃ t, o = .replace t r.2 ∧ env.compile t = some r.1)
        (st.rules.map fun r => Opt.replaceAllNames r.1.2 r.2) rules := by
      rw [h7, ← h8]
      simp only [List.nil_append, List.forall₂_map_left_iff, List.forall₂_map_right_iff]
      exact List.forall₂_same.mpr fun r _ => .inl rfl
    have eo : xOptions st = ((if st.debug then [.logLevel 5] else if st.verbose then [.logLevel 1] else []) ++
        [.namespaces st.xmlns, .followImports st.followImports]) ++ st.rules.map (fun r => .replaceAllNames r.1.2 r.2) ++
        (if st.packageName ≠ [] then [.packageName st.packageName] else []) := rfl
    have edbg : st.debug = decide (Truth (lastOf flags b!"vv" b!"false")) := by
      rw [Bool.eq_iff_iff, decide_eq_true_iff]; exact h6
    have everb : st.verbose = decide (Truth (lastOf flags b!"v" b!"false")) := by
      rw [Bool.eq_iff_iff, decide_eq_true_iff]; exact h5
    rw [eo, applyOpts_append, applyOpts_append]
    generalize hA : applyOpts env ((if st.debug then [.logLevel 5] else if st.verbose then [.logLevel 1] else []) ++
        [.namespaces st.xmlns, .followImports st.followImports]) none cfg = A
    have hA' : A.1 = { cfg with
                              loglevel := (if Truth (lastOf flags b!"vv" b!"false") then 5 else if Truth (lastOf flags b!"v" b!"false") then 1 else cfg.loglevel)
                              namespaces := st.xmlns
                              followImports := st.followImports } := by
      rw [← hA, edbg, everb]
      by_cases c1 : Truth (lastOf flags b!"vv" b!"false")
      · simp only [c1, decide_true, if_true]; rfl
      · by_cases c2 : Truth (lastOf flags b!"v" b!"false")
        · simp only [c1, c2, decide_true, decide_false, if_true, if_false, Bool.false_eq_true]; rfl
        · simp only [c1, c2, decide_false, if_false, Bool.false_eq_true]; rfl
    have hB := fun n => localName_rules env _ rules A.2 A.1 n hrules
    generalize applyOpts env (st.rules.map fun r => Opt.replaceAllNames r.1.2 r.2) A.2 A.1 = B at hB ⊢
    have hB2 := (hB ⟨[], []⟩).2
    rw [hA'] at hB hB2
    have fin : (applyOpts env (if st.packageName ≠ [] then [.packageName st.packageName] else []) B.2 B.1).1 =
        { B.1 with pkgname := if lastOf flags b!"pkg" b!"" = b!"" then B.1.pkgname else lastOf flags b!"pkg" b!"" } := by
      rw [h2]
      by_cases c : lastOf flags b!"pkg" b!"" = b!""
      · simp only [c, ne_eq, not_true, if_false, if_true]; rfl
      · simp only [c, ne_eq, not_false_iff, if_false, if_true]; rfl
    rw [fin]
    have g1 := congrArg Config.namespaces hB2
    have g2 := congrArg Config.followImports hB2
    have g3 := congrArg Config.pkgname hB2
    have g4 := congrArg Config.loglevel hB2
    simp only at g1 g2 g3 g4
    refine ⟨by simp only [g1, h10]; rfl, by simp only [g2]; exact h4, by simp only [g3], by simp only [g4], ?_, ?_⟩
    · intro n
      exact congrArg env.title (hB n).1
    · exact congrArg (fun c : Config => { c with namespaces := cfg.namespaces, followImports := cfg.followImports
                                                 pkgname := cfg.pkgname, loglevel := cfg.loglevel }) hB2

set_option synthInstance.maxSize 1000 in
/-- The flags in several spellings, twice the same flag, a rule, and files that begin with a minus. -/
example : (let r (a : Str) : Regexp := ⟨fun s t => if s = a then t else s, fun s => decide (s = a)⟩
    let env : Env := ⟨fun p => if p = b!"(" then none else some (r p), id, fun _ t H => (t, H), id⟩
    let args := [b!"-ns", b!"a", b!"--ns=b=c", b!"-v", b!"--vv=F", b!"-r", b!" x -> y->z ", b!"-o", b!"-", b!"-o=out.go", b!"--", b!"-f", b!"g"]
    match xsdgenCLI env (xsdgenMain env 7) args with
    | .generate c files out => some (c.namespaces, c.followImports, c.pkgname, c.loglevel, publicName env c ⟨[], b!"x"⟩, files, out)
    | _ => none) = some ([b!"a", b!"b=c"], false, b!"ws", 1, b!"y->z", [b!"-f", b!"g"], b!"out.go") := by decide +kernel

example : CommandLine (· ∈ xBooleans) [(b!"ns", b!"a"), (b!"v", b!"true"), (b!"o", b!"x")] [b!"g", b!"-h"]
    [b!"-ns", b!"a", b!"--v", b!"--o=x", b!"g", b!"-h"] := by
  refine ⟨[[b!"-ns", b!"a"], [b!"--v"], [b!"--o=x"]], [b!"g", b!"-h"],
    .cons (.separate b!"-" _ _ (.inl rfl) (by decide)) (.cons (.bare b!"--" _ (.inr rfl) (by decide))
      (.cons (.attached b!"--" _ _ (.inr rfl)) .nil)), .plain _ ?_, rfl⟩
  intro f hf
  cases hf
  exact .inl (by decide)

/-- C127: a command line without files only yields a message, and one that is not made of flags of xsdgen with values
that they can have, followed by files, ends the program. -/
theorem C127_rejected (env : Env) (cfg : Config) (args : List Str) :
    (xsdgenCLI env cfg args = .usage ↔
      ∃ flags, CommandLine (· ∈ xBooleans) flags [] args ∧ ∀ f ∈ flags, ValidFlag env.compile xBooleans xTexts f) ∧
    (xsdgenCLI env cfg args = .exit ↔
      ¬ ∃ flags files, CommandLine (· ∈ xBooleans) flags files args ∧ ∀ f ∈ flags, ValidFlag env.compile xBooleans xTexts f) := by
  have eb : (fun n => xKnown n = some true) = (· ∈ xBooleans) := funext fun n => propext (xKnown_iff n).1
  have sound : ∀ st files, parseFlags xKnown (xSet env) args {} = some (st, files) →
      ∃ flags, CommandLine (· ∈ xBooleans) flags files args ∧ ∀ f ∈ flags, ValidFlag env.compile xBooleans xTexts f := by
    intro st files h
    obtain ⟨flags, h1, h2, h3⟩ := parseFlags_sound xKnown (xSet env) args.length args (Nat.le_refl _) {} st files h
    rw [eb] at h1
    refine ⟨flags, h1, fun f hf => ?_⟩
    obtain ⟨s, s', hs⟩ := setAll_mem _ _ _ _ h3 f hf
    exact xSet_valid env f s s' (h2 f hf) hs
  have rulesOf : ∀ flags : List (Str × Str), (∀ f ∈ flags, ValidFlag env.compile xBooleans xTexts f) →
      ∃ rules, List.Forall₂ (IsRule env.compile) (valuesOf flags b!"r") rules := by
    intro flags
    induction flags with
    | nil => exact fun _ => ⟨[], .nil⟩
    | cons f fs ih =>
      intro h
      obtain ⟨rules, hr⟩ := ih fun g hg => h g (List.mem_cons_of_mem _ hg)
      rw [valuesOf_cons]
      by_cases hn : f.1 = b!"r"
      · rw [if_pos hn]
        rcases h f List.mem_cons_self with ⟨h', -⟩ | h' | ⟨-, rule, hrule⟩
        · rw [hn] at h'; exact absurd h' (by decide)
        · rw [hn] at h'; exact absurd h' (by decide)
        · exact ⟨rule :: rules, .cons hrule hr⟩
      · rw [if_neg hn]; exact ⟨rules, hr⟩
  have complete : ∀ flags files, CommandLine (· ∈ xBooleans) flags files args → (∀ f ∈ flags, ValidFlag env.compile xBooleans xTexts f) →
      ∃ st, parseFlags xKnown (xSet env) args {} = some (st, files) := by
    intro flags files h1 h2
    obtain ⟨rules, hr⟩ := rulesOf flags h2
    obtain ⟨st, rs, h3, -⟩ := xSetAll env flags rules h2 hr {}
    rw [← eb] at h1
    exact ⟨st, by rw [parseFlags_line xKnown (xSet env) xGood flags files args
      (fun f hf => (xKnown_iff _).2.2 (validFlag_known (h2 f hf))) h1 {}, h3]; rfl⟩
  constructor
  · constructor
    · intro h
      simp only [xsdgenCLI] at h
      split at h
      · cases h
      · rename_i st hp; exact sound st [] hp
      · cases h
    · rintro ⟨flags, h1, h2⟩
      obtain ⟨st, hp⟩ := complete flags [] h1 h2
      simp only [xsdgenCLI, hp]
  · constructor
    · rintro h ⟨flags, files, h1, h2⟩
      obtain ⟨st, hp⟩ := complete flags files h1 h2
      simp only [xsdgenCLI, hp] at h
      cases files <;> cases h
    · intro h
      simp only [xsdgenCLI]
      cases hp : parseFlags xKnown (xSet env) args {} with
      | none => rfl
      | some q =>
        obtain ⟨flags, h1, h2⟩ := sound q.1 q.2 hp
        exact absurd ⟨flags, q.2, h1, h2⟩ h

/-- No files; an unknown flag; a missing value; a value that is not a truth value; a rule without arrow; help. -/
example : (let env : Env := ⟨fun _ => none, id, fun _ t H => (t, H), id⟩
    let run := fun args => match xsdgenCLI env {} args with | .exit => 0 | .usage => 1 | .generate _ _ _ => 2
    [run [b!"-v"], run [b!"-x", b!"f"], run [b!"-o"], run [b!"-v=yes", b!"f"], run [b!"-r", b!"a-b", b!"f"], run [b!"-h", b!"f"],
      run [b!"-v", b!"false", b!"f"]]) = [1, 0, 0, 0, 0, 0, 2] := by decide +kernel

/-- C127 is false for two settings: namespaces and the following of imports that were configured before are lost,
even if the flags `-ns` and `-f` are not given. -/
theorem C127_kept_refuted (env : Env) (cfg : Config) (file : Str) (hfile : file.head? ≠ some 45) :
    ∃ cfg', xsdgenCLI env cfg [file] = .generate cfg' [file] b!"xsdgen_output.go" ∧ cfg'.namespaces = [] ∧ cfg'.followImports = false := by
  obtain ⟨cfg', h1, h2, h3, -⟩ := C127_configures_partial env cfg [] [file] [file] []
    ⟨[], [file], .nil, .plain _ (by simpa using Or.inl hfile), rfl⟩ (by simp) (by simp) .nil
  refine ⟨cfg', h1, h2, ?_⟩
  have : ¬ cfg'.followImports = true := fun h => absurd (h3.1 h) (by decide)
  simpa using this

example : (match xsdgenCLI ⟨fun _ => none, id, fun _ t H => (t, H), id⟩ { namespaces := [b!"urn:a"], followImports := true } [b!"a.xsd"] with
    | .generate c _ _ => some (c.namespaces, c.followImports)
    | _ => none) = some ([], false) := by decide +kernel

/-- C127: the command starts with the package `ws`, writes messages to the standard error stream, leaves out attributes named id, href, ref and
offset, keeps all elements and types, removes what the pattern matches from names, recognizes SOAP arrays before it names the types of fields, and
makes slices of declarations of such arrays. -/
theorem C127_defaults (env : Env) (stderr : Nat) :
    let cfg := xsdgenMain env stderr
    cfg.pkgname = b!"ws" ∧ cfg.logger = some stderr ∧ cfg.loglevel = 0 ∧ cfg.filterTypes = none ∧ cfg.allowTypes = none ∧
    (∀ t, filterFields cfg t = (t.attributes.filter fun a => decide (a.name.loc ∉ [b!"id", b!"href", b!"ref", b!"offset"]), t.elements)) ∧
    (∀ re, env.compile b!"[._ \\s-]" = some re → ∀ n, publicName env cfg n = env.title (re.replaceAll n.loc [])) ∧
    (∃ f, cfg.preprocessType = some f ∧ ∀ s t H, f s t H = Xsdgen.useFieldNames s (env.soapArray s t H).1 (env.soapArray s t H).2) ∧
    cfg.postprocessType = some env.arraySlice := by
  refine ⟨rfl, rfl, rfl, rfl, rfl, ?_, ?_, ⟨_, rfl, fun _ _ _ => rfl⟩, rfl⟩
  · intro t
    show (keepAttrs (some _) _, keepElems none _) = _
    rw [keepAttrs_eq, keepElems_none]
    simp only [decide_not]
  · intro re hre n
    show env.title (thenReplace none (env.compile _) [] n).loc = _
    rw [hre]
    rfl

/-- The pattern takes out spaces here. -/
example : publicName ⟨fun _ => some ⟨fun s _ => s.filter (· ≠ 32), fun _ => true⟩, id, fun _ t H => (t, H), id⟩ (xsdgenMain ⟨fun _ => some
    ⟨fun s _ => s.filter (· ≠ 32), fun _ => true⟩, id, fun _ t H => (t, H), id⟩ 2) ⟨[], b!"a b"⟩ = b!"ab" := by decide +kernel

/-! ### C128 -/

/-- C128: the command starts with the configuration of xsdgen for types, the package `ws`, functions with up to three arguments and two results, and
writes messages to the standard error stream. -/
theorem C128_defaults (env : Env) (stderr : Nat) :
    wsdlgenMain env stderr = { pkgName := b!"ws", logger := some stderr, xsdgen := xsdgenMain env stderr, maxArgs := 3, maxReturns := 2 } := rfl

/-- C128: options are applied in their order. -/
theorem C128_in_order (env : Env) (os : List WOpt) (o : WOpt) (cfg : WConfig) :
    wApply env (os ++ [o]) cfg = (applyWOpt env o (wApply env os cfg)).1 ∧ wApply env [] cfg = cfg := by
  simp [wApply]

example : (wApply ⟨fun _ => none, id, fun _ t H => (t, H), id⟩ [.packageName b!"a", .packageName b!"b"] {}).pkgName = b!"b" := by decide

/-- C128: the same for wsdlgen, where flags that are not given leave everything as it was. -/
theorem C128_configures (env : Env) (cfg : WConfig) (flags : List (Str × Str)) (files args : List Str) (rules : List (Regexp × Str))
    (hline : CommandLine (· ∈ wBooleans) flags files args) (hfiles : files ≠ [])
    (hv : ∀ f ∈ flags, ValidFlag env.compile wBooleans wTexts f)
    (hr : List.Forall₂ (IsRule env.compile) (valuesOf flags b!"r") rules) :
    ∃ cfg', wsdlgenCLI env cfg args = .generate cfg' files (lastOf flags b!"o" b!"wsdlgen_output.go") ∧
      cfg'.pkgName = (if lastOf flags b!"pkg" b!"" = b!"" then cfg.pkgName else lastOf flags b!"pkg" b!"") ∧
      cfg'.xsdgen.pkgname = (if lastOf flags b!"pkg" b!"" = b!"" then cfg.xsdgen.pkgname else lastOf flags b!"pkg" b!"") ∧
      cfg'.pkgHeader = (if lastOf flags b!"c" b!"" = b!"" then cfg.pkgHeader else lastOf flags b!"c" b!"") ∧
      cfg'.loglevel = (if Truth (lastOf flags b!"vv" b!"false") then 5 else if Truth (lastOf flags b!"v" b!"false") then 1 else cfg.loglevel) ∧
      cfg'.xsdgen.loglevel =
        (if Truth (lastOf flags b!"vv" b!"false") then 5 else if Truth (lastOf flags b!"v" b!"false") then 1 else cfg.xsdgen.loglevel) ∧
      (if valuesOf flags b!"port" = [] then cfg'.portFilter = cfg.portFilter else
        ∃ f, cfg'.portFilter = some f ∧ ∀ p, f p = true ↔ p ∈ valuesOf flags b!"port") ∧
      (∀ n, publicName env cfg'.xsdgen n = env.title (rulesApplied rules (localName cfg.xsdgen n))) ∧
      { cfg' with pkgName := cfg.pkgName, pkgHeader := cfg.pkgHeader, loglevel := cfg.loglevel, portFilter := cfg.portFilter,
                  xsdgen := { cfg'.xsdgen with pkgname := cfg.xsdgen.pkgname, loglevel := cfg.xsdgen.loglevel,
                                               nameTransform := cfg.xsdgen.nameTransform } } = cfg := by
  have hline' : CommandLine (fun n => wKnown n = some true) flags files args := by
    have : (fun n => wKnown n = some true) = (· ∈ wBooleans) := funext fun n => propext (wKnown_iff n).1
    rw [this]; exact hline
  obtain ⟨st, rs, h1, h2, h3, h4, h5, h6, h7, h8, h9, h10⟩ := wSetAll env flags rules hv hr {}
  have hp := parseFlags_line wKnown (wSet env) wGood flags files args
    (fun f hf => (wKnown_iff _).2.2 (validFlag_known (hv f hf))) hline' {}
  rw [h1, Option.map_some] at hp
  refine ⟨wConfigure env st cfg, ?_, ?_⟩
  · simp only [wsdlgenCLI, hp]
    cases files with
    | nil => exact absurd rfl hfiles
    | cons f fs => simp only [h4]
  · have hrules : List.Forall₂ (fun o r => o = Opt.replaceAllNames r.1 r.2 ∨ ∃ t, o = .replace t r.2 ∧ env.compile t = some r.1)
        (st.rules.map fun r => Opt.replace r.1.1 r.2) rules := by
      rw [h7, ← h8]
      simp only [List.nil_append, List.forall₂_map_left_iff, List.forall₂_map_right_iff]
      exact List.forall₂_same.mpr fun r hrm => .inr ⟨_, rfl, h9 r hrm⟩
    have edbg : st.debug = decide (Truth (lastOf flags b!"vv" b!"false")) := by
      rw [Bool.eq_iff_iff, decide_eq_true_iff]; exact h6
    have everb : st.verbose = decide (Truth (lastOf flags b!"v" b!"false")) := by
      rw [Bool.eq_iff_iff, decide_eq_true_iff]; exact h5
    have hports : st.ports = valuesOf flags b!"port" := by rw [h10]; rfl
    have key : ∃ X : WConfig, wConfigure env st cfg = xsdOption env (st.rules.map fun r => Opt.replace r.1.1 r.2) X ∧
        X = { cfg with
          loglevel := (if Truth (lastOf flags b!"vv" b!"false") then 5 else if Truth (lastOf flags b!"v" b!"false") then 1 else cfg.loglevel)
          pkgName := (if lastOf flags b!"pkg" b!"" = b!"" then cfg.pkgName else lastOf flags b!"pkg" b!"")
          pkgHeader := (if lastOf flags b!"c" b!"" = b!"" then cfg.pkgHeader else lastOf flags b!"c" b!"")
          portFilter := (if valuesOf flags b!"port" = [] then cfg.portFilter else some fun p => decide (p ∈ valuesOf flags b!"port"))
          xsdgen := { cfg.xsdgen with
            loglevel := (if Truth (lastOf flags b!"vv" b!"false") then 5 else if Truth (lastOf flags b!"v" b!"false") then 1 else cfg.xsdgen.loglevel)
            pkgname := (if lastOf flags b!"pkg" b!"" = b!"" then cfg.xsdgen.pkgname else lastOf flags b!"pkg" b!"") } } := by
      refine ⟨_, rfl, ?_⟩
      have e2 : st.packageName = lastOf flags b!"pkg" b!"" := h2
      have e3 : st.comment = lastOf flags b!"c" b!"" := h3
      rw [edbg, everb, e2, e3, hports]
      by_cases c1 : Truth (lastOf flags b!"vv" b!"false") <;> by_cases c2 : Truth (lastOf flags b!"v" b!"false") <;>
        by_cases c3 : lastOf flags b!"pkg" b!"" = b!"" <;> by_cases c4 : lastOf flags b!"c" b!"" = b!"" <;>
        by_cases c5 : valuesOf flags b!"port" = [] <;>
        simp only [c1, c2, c3, c4, c5, decide_true, decide_false, if_true, if_false, Bool.false_eq_true, ne_eq, not_true, not_false_iff] <;> rfl
    obtain ⟨X, hX, hX'⟩ := key
    rw [hX]
    have hB := fun n => localName_rules env _ rules none X.xsdgen n hrules
    simp only [xsdOption]
    generalize applyOpts env (st.rules.map fun r => Opt.replace r.1.1 r.2) none X.xsdgen = B at hB ⊢
    have hB2 := (hB ⟨[], []⟩).2
    have g1 := congrArg Config.pkgname hB2
    have g2 := congrArg Config.loglevel hB2
    simp only at g1 g2
    refine ⟨by rw [hX'], by rw [g1, hX'], by rw [hX'], by rw [hX'], by rw [g2, hX'], ?_, ?_, ?_⟩
    · split
      · rename_i hc
        have : X.portFilter = _ := congrArg WConfig.portFilter hX'
        simpa only [hc, if_true] using this
      · rename_i hc
        have : X.portFilter = _ := congrArg WConfig.portFilter hX'
        simp only [hc, if_false] at this
        exact ⟨_, this, fun p => by simp⟩
    · intro n
      have := (hB n).1
      have hl : localName X.xsdgen n = localName cfg.xsdgen n := by rw [hX']; rfl
      rw [hl] at this
      exact congrArg env.title this
    · have hx := congrArg (fun c : Config => { c with pkgname := cfg.xsdgen.pkgname, loglevel := cfg.xsdgen.loglevel }) hB2
      have hx' : { B.1 with pkgname := cfg.xsdgen.pkgname, loglevel := cfg.xsdgen.loglevel, nameTransform := cfg.xsdgen.nameTransform } = cfg.xsdgen := by
        have e : X.xsdgen.nameTransform = cfg.xsdgen.nameTransform := by rw [hX']
        rw [e] at hx
        refine hx.trans ?_
        rw [hX']
      rw [hx', hX']

set_option synthInstance.maxSize 1000 in
example : (let r (a : Str) : Regexp := ⟨fun s t => if s = a then t else s, fun s => decide (s = a)⟩
    let env : Env := ⟨fun p => if p = b!"(" then none else some (r p), id, fun _ t H => (t, H), id⟩
    let args := [b!"-port", b!"P", b!"--port=Q", b!"-c", b!"Hello", b!"--vv", b!"-r", b!" x -> y->z ", b!"-pkg=p", b!"-", b!"-v"]
    match wsdlgenCLI env (wsdlgenMain env 7) args with
    | .generate c files out => some ((c.pkgName, c.xsdgen.pkgname, c.pkgHeader, c.loglevel, c.maxArgs),
        c.portFilter.map fun f => [f b!"P", f b!"Q", f b!"R"], publicName env c.xsdgen ⟨[], b!"x"⟩, files, out)
    | _ => none) =
      some ((b!"p", b!"p", b!"Hello", 5, 3), some [true, true, false], b!"y->z", [b!"-", b!"-v"], b!"wsdlgen_output.go") := by decide +kernel

/-- C128: the package has the configured name, or `ws`, and its comment begins with the configured one, or with
`Package` and the name, followed by an empty line and the documentation of the WSDL document. -/
theorem C128_package (cfg : WConfig) (doc : Str) :
    (cfg.pkgName ≠ [] → (packageClause cfg doc).1 = cfg.pkgName) ∧
    (cfg.pkgName = [] → (packageClause cfg doc).1 = b!"ws") ∧
    ∃ header, (packageClause cfg doc).2 = Gen.commentGroup [header] ++ [b!"// "] ++ Gen.commentGroup [doc] ∧
      (cfg.pkgHeader ≠ [] → header = cfg.pkgHeader) ∧
      (cfg.pkgHeader = [] → header = b!"Package " ++ (packageClause cfg doc).1) := by
  refine ⟨fun h => by simp [packageClause, h], fun h => by simp [packageClause, h],
    if cfg.pkgHeader = [] then b!"Package " ++ (packageClause cfg doc).1 else cfg.pkgHeader, ?_, ?_, ?_⟩
  · have e : Gen.commentGroup [b!"\n"] = [b!"// "] := by decide +kernel
    rw [← e]
    simp [packageClause, Gen.commentGroup]
  · intro h; simp [h]
  · intro h; simp [h]

example : packageClause {} b!"a\n b" = (b!"ws", [b!"// Package ws", b!"// ", b!"// a", b!"// b"]) := by decide +kernel

/-- C128: command lines without files only yield a message, and those that are not made of flags of wsdlgen end the
program. -/
theorem C128_rejected (env : Env) (cfg : WConfig) (args : List Str) :
    (wsdlgenCLI env cfg args = .usage ↔
      ∃ flags, CommandLine (· ∈ wBooleans) flags [] args ∧ ∀ f ∈ flags, ValidFlag env.compile wBooleans wTexts f) ∧
    (wsdlgenCLI env cfg args = .exit ↔
      ¬ ∃ flags files, CommandLine (· ∈ wBooleans) flags files args ∧ ∀ f ∈ flags, ValidFlag env.compile wBooleans wTexts f) := by
  have eb : (fun n => wKnown n = some true) = (· ∈ wBooleans) := funext fun n => propext (wKnown_iff n).1
  have sound : ∀ st files, parseFlags wKnown (wSet env) args {} = some (st, files) →
      ∃ flags, CommandLine (· ∈ wBooleans) flags files args ∧ ∀ f ∈ flags, ValidFlag env.compile wBooleans wTexts f := by
    intro st files h
    obtain ⟨flags, h1, h2, h3⟩ := parseFlags_sound wKnown (wSet env) args.length args (Nat.le_refl _) {} st files h
    rw [eb] at h1
    refine ⟨flags, h1, fun f hf => ?_⟩
    obtain ⟨s, s', hs⟩ := setAll_mem _ _ _ _ h3 f hf
    exact wSet_valid env f s s' (h2 f hf) hs
  have rulesOf : ∀ flags : List (Str × Str), (∀ f ∈ flags, ValidFlag env.compile wBooleans wTexts f) →
      ∃ rules, List.Forall₂ (IsRule env.compile) (valuesOf flags b!"r") rules := by
    intro flags
    induction flags with
    | nil => exact fun _ => ⟨[], .nil⟩
    | cons f fs ih =>
      intro h
      obtain ⟨rules, hr⟩ := ih fun g hg => h g (List.mem_cons_of_mem _ hg)
      rw [valuesOf_cons]
      by_cases hn : f.1 = b!"r"
      · rw [if_pos hn]
        rcases h f List.mem_cons_self with ⟨h', -⟩ | h' | ⟨-, rule, hrule⟩
        · rw [hn] at h'; exact absurd h' (by decide)
        · rw [hn] at h'; exact absurd h' (by decide)
        · exact ⟨rule :: rules, .cons hrule hr⟩
      · rw [if_neg hn]; exact ⟨rules, hr⟩
  have complete : ∀ flags files, CommandLine (· ∈ wBooleans) flags files args → (∀ f ∈ flags, ValidFlag env.compile wBooleans wTexts f) →
      ∃ st, parseFlags wKnown (wSet env) args {} = some (st, files) := by
    intro flags files h1 h2
    obtain ⟨rules, hr⟩ := rulesOf flags h2
    obtain ⟨st, rs, h3, -⟩ := wSetAll env flags rules h2 hr {}
    rw [← eb] at h1
    exact ⟨st, by rw [parseFlags_line wKnown (wSet env) wGood flags files args
      (fun f hf => (wKnown_iff _).2.2 (validFlag_known (h2 f hf))) h1 {}, h3]; rfl⟩
  constructor
  · constructor
    · intro h
      simp only [wsdlgenCLI] at h
      split at h
      · cases h
      · rename_i st hp; exact sound st [] hp
      · cases h
    · rintro ⟨flags, h1, h2⟩
      obtain ⟨st, hp⟩ := complete flags [] h1 h2
      simp only [wsdlgenCLI, hp]
  · constructor
    · rintro h ⟨flags, files, h1, h2⟩
      obtain ⟨st, hp⟩ := complete flags files h1 h2
      simp only [wsdlgenCLI, hp] at h
      cases files <;> cases h
    · intro h
      simp only [wsdlgenCLI]
      cases hp : parseFlags wKnown (wSet env) args {} with
      | none => rfl
      | some q =>
        obtain ⟨flags, h1, h2⟩ := sound q.1 q.2 hp
        exact absurd ⟨flags, q.2, h1, h2⟩ h

example : (let env : Env := ⟨fun _ => none, id, fun _ t H => (t, H), id⟩
    let run := fun args => match wsdlgenCLI env {} args with | .exit => 0 | .usage => 1 | .generate _ _ _ => 2
    [run [b!"-v"], run [b!"-ns", b!"f"], run [b!"-c"], run [b!"--=x", b!"f"], run [b!"---v", b!"f"], run [b!"-c=", b!"f"]]) = [1, 0, 0, 0, 0, 2] := by
  decide +kernel

/-! ### C129 -/

/-- C129 is false: whatever namespace is asked for with `-ns`, xsdparse prints a schema of any other namespace too,
unless it is built in. -/
theorem C129_only_refuted (standard : List Str) (ns : Str) (roots : List Element) (root : Element) (h : root ∈ roots)
    (hns : root.attr [] b!"targetNamespace" ∉ standard) : root ∈ printed standard ns roots := by
  induction roots with
  | nil => cases h
  | cons r rs ih =>
    simp only [printed]
    rcases List.mem_cons.mp h with rfl | h
    · rw [if_pos hns]; split <;> exact List.mem_cons_self
    · have := ih h
      split
      · exact List.mem_cons_of_mem _ this
      · split
        · exact List.mem_cons_of_mem _ this
        · exact this

/-- C129, partial: xsdparse prints the schemas that are not built in and those of the namespace that is asked for, each
once and in their order; without `-ns` exactly those that are not built in. -/
theorem C129_printed_partial (standard : List Str) (ns : Str) (roots : List Element) :
    (printed standard ns roots).Sublist roots ∧
    (∀ tns, (printed standard ns roots).filter (fun r => decide (r.attr [] b!"targetNamespace" = tns)) =
      if tns ∈ standard ∧ ¬ (ns ≠ [] ∧ tns = ns) then [] else roots.filter fun r => decide (r.attr [] b!"targetNamespace" = tns)) := by
  induction roots with
  | nil => exact ⟨.slnil, fun tns => by simp [printed]⟩
  | cons r rs ih =>
    constructor
    · simp only [printed]
      split
      · exact ih.1.cons_cons _
      · split
        · exact ih.1.cons_cons _
        · exact ih.1.cons _
    · intro tns
      have ih2 := ih.2 tns
      simp only [printed]
      by_cases ht : r.attr [] b!"targetNamespace" = tns
      · subst ht
        by_cases h1 : ns ≠ [] ∧ ns = r.attr [] b!"targetNamespace"
        · have h1' : ns ≠ [] ∧ r.attr [] b!"targetNamespace" = ns := ⟨h1.1, h1.2.symm⟩
          rw [if_pos h1]
          rw [if_neg (fun h => h.2 h1')] at ih2 ⊢
          simp [ih2]
        · have h1' : ¬ (ns ≠ [] ∧ r.attr [] b!"targetNamespace" = ns) := fun h => h1 ⟨h.1, h.2.symm⟩
          rw [if_neg h1]
          by_cases h2 : r.attr [] b!"targetNamespace" ∈ standard
          · rw [if_neg (by simpa using h2), ih2, if_pos ⟨h2, h1'⟩, if_pos ⟨h2, h1'⟩]
          · rw [if_pos h2]
            rw [if_neg (fun h => h2 h.1)] at ih2 ⊢
            simp [ih2]
      · have e : (r :: rs).filter (fun r => decide (r.attr [] b!"targetNamespace" = tns)) =
            rs.filter fun r => decide (r.attr [] b!"targetNamespace" = tns) := by simp [ht]
        rw [e, ← ih2]
        split
        · simp [ht]
        · split <;> simp [ht]

example : (let s (tns : Str) : Element := .mk ⟨schemaNS, b!"schema"⟩ [⟨⟨[], b!"targetNamespace"⟩, tns⟩] [] [] []
    ((printed [b!"std", b!"xml"] b!"std" [s b!"std", s b!"urn:a", s b!"xml"]).map fun r => r.attr [] b!"targetNamespace") =
      [b!"std", b!"urn:a"]) := by decide +kernel

end GoXml.Cli
