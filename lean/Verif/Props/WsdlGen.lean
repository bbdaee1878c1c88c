import Verif.Proofs.WsdlGen
set_option autoImplicit false

/-! Properties C58-C60, C71: the functions that wsdlgen generates. -/

namespace GoXml.Wsdl

/-- What `operation` returns, in terms of the parts' types. -/
theorem operation_some {cfg : GenConfig} {code : Code} {d : Definition} {port : Port} {op : Operation} {f : FuncDecl}
    (h : operation cfg code d port op = some f) : ∃ input output a, d.message.get op.input = some input ∧
      d.message.get op.output = some output ∧ opArgs code cfg.maxArgs cfg.maxReturns d.targetNS input output = some a ∧
      f = { port := port, op := op, params := b!"ctx context.Context" :: a.input, results := a.output
            returns := returnValues a, decls := wrapperDecls a, body := bodyOf port op a } := by
  unfold operation at h
  split at h
  · rename_i input output hi ho
    split at h
    · rename_i a ha
      cases h
      exact ⟨input, output, a, hi, ho, ha, rfl⟩
    · cases h
  · cases h

theorem opArgs_some {code : Code} {m r : Int} {tns : Str} {input output : Message} {a : OpArgs}
    (h : opArgs code m r tns input output = some a) :
    ∃ its ots, HaveTypes code input.parts its ∧ HaveTypes code output.parts ots ∧
      a.input = (if (input.parts.length : Int) > m then [b!"v " ++ input.name.loc]
        else (input.parts.zip its).map fun pt => paramName pt.1 pt.2 ++ b!" " ++ shown pt.2) ∧
      a.output = (if (output.parts.length : Int) > r then [title output.name.loc] else ots.map shown) ++ [b!"error"] ∧
      a.inputType = (if (input.parts.length : Int) > m then title input.name.loc else []) ∧
      a.returnType = (if (output.parts.length : Int) > r then title output.name.loc else []) ∧
      a.inputFields.map (fun f => (f.name, f.publicType)) = (input.parts.zip its).map (fun pt => (title pt.1.name, shown pt.2)) ∧
      a.outputFields.map (fun f => (f.name, f.type)) = (output.parts.zip ots).map (fun pt => (title pt.1.name, pt.2)) ∧
      a.returnFields.map (fun f => (f.name, f.type)) =
        (if (output.parts.length : Int) > r then (output.parts.zip ots).map (fun pt => (title pt.1.name, shown pt.2)) else []) ∧
      a.inputName = input.name ∧ a.outputName = output.name ∧
      a.inputFields.map (fun f => (f.name, f.type, f.xmlName, f.inputArg)) = (input.parts.zip its).map (fun pt => (title pt.1.name, pt.2, ⟨tns, pt.1.name⟩,
        if (input.parts.length : Int) > m then b!"v." ++ title pt.1.name else paramName pt.1 pt.2)) ∧
      a.outputFields.map (fun f => (f.name, f.type, f.xmlName)) = (output.parts.zip ots).map (fun pt => (title pt.1.name, pt.2, ⟨tns, pt.1.name⟩)) := by
  unfold opArgs argsOf at h
  split at h
  · rename_i ins outs hi ho
    obtain ⟨its, h1, rfl⟩ := (partTypes_iff _ _ _).mp hi
    obtain ⟨ots, h2, rfl⟩ := (partTypes_iff _ _ _).mp ho
    have l1 : (input.parts.zip its).length = input.parts.length := by
      rw [List.length_zip, haveTypes_length h1, Nat.min_self]
    have l2 : (output.parts.zip ots).length = output.parts.length := by
      rw [List.length_zip, haveTypes_length h2, Nat.min_self]
    rw [l1, l2] at h
    simp only [Option.some.injEq] at h
    subst h
    refine ⟨its, ots, h1, h2, ?_, ?_, ?_, ?_, ?_, ?_, ?_, rfl, rfl, ?_, ?_⟩
    · simp only [decide_eq_true_eq, shown_eq]
    · simp only [decide_eq_true_eq, shown_eq, zip_map_snd (haveTypes_length h2)]
    · simp only [decide_eq_true_eq]
    · simp only [decide_eq_true_eq]
    · simp [List.map_map, Function.comp, shown_eq]
    · simp [List.map_map, Function.comp]
    · simp only [decide_eq_true_eq, shown_eq]
      split <;> simp [List.map_map, Function.comp]
    · simp [List.map_map, Function.comp]
    · simp [List.map_map, Function.comp]
  · cases h

/-! ### C58 -/

/-- C58. The parameters and results of a generated function, for every operation and all thresholds.
The parameters come after the context. A wrapper struct has one field per part. -/
theorem C58_thresholds (cfg : GenConfig) (code : Code) (d : Definition) (port : Port) (op : Operation) (f : FuncDecl)
    (h : operation cfg code d port op = some f) :
    ∃ input output its ots, d.message.get op.input = some input ∧ d.message.get op.output = some output ∧
      HaveTypes code input.parts its ∧ HaveTypes code output.parts ots ∧
      f.params.head? = some b!"ctx context.Context" ∧ f.results.getLast? = some b!"error" ∧
      ((input.parts.length : Int) ≤ cfg.maxArgs → f.params.tail.length = input.parts.length ∧
        ∀ (i : Nat) p t, input.parts[i]? = some p → its[i]? = some t →
          ∃ name, f.params.tail[i]? = some (name ++ b!" " ++ shown t) ∧ name ≠ t) ∧
      ((input.parts.length : Int) > cfg.maxArgs → f.params.tail = [b!"v " ++ input.name.loc] ∧
        (input.name.loc ≠ [] → (title input.name.loc, (input.parts.zip its).map fun pt => (title pt.1.name, shown pt.2)) ∈ f.decls)) ∧
      ((output.parts.length : Int) ≤ cfg.maxReturns → f.results.dropLast = ots.map shown) ∧
      ((output.parts.length : Int) > cfg.maxReturns → f.results.dropLast = [title output.name.loc] ∧
        (output.name.loc ≠ [] → (title output.name.loc, (output.parts.zip ots).map fun pt => (title pt.1.name, shown pt.2)) ∈ f.decls)) := by
  obtain ⟨input, output, a, hi, ho, ha, rfl⟩ := operation_some h
  obtain ⟨its, ots, t1, t2, e1, e2, e3, e4, e5, e6, e7, -⟩ := opArgs_some ha
  have htitle : ∀ s : Str, s ≠ [] → title s ≠ [] := by
    intro s hs
    cases s with
    | nil => exact absurd rfl hs
    | cons c s => simp [title, titleLoop]
  refine ⟨input, output, its, ots, hi, ho, t1, t2, rfl, ?_, ?_, ?_, ?_, ?_⟩
  · simp [e2]
  · intro hle
    simp only [List.tail_cons, e1, if_neg (Int.not_lt.mpr hle)]
    refine ⟨by rw [List.length_map, List.length_zip, haveTypes_length t1, Nat.min_self], ?_⟩
    intro i p t hp ht
    refine ⟨paramName p t, ?_, ?_⟩
    · have hz : (input.parts.zip its)[i]? = some (p, t) := List.getElem?_zip_eq_some.mpr ⟨hp, ht⟩
      rw [List.getElem?_map, hz]; rfl
    · unfold paramName
      split
      · rename_i hs
        rw [hs]
        intro e
        have := congrArg List.length e
        simp at this
      · rename_i hs; exact hs
  · intro hgt
    refine ⟨by simp only [List.tail_cons, e1, if_pos hgt], ?_⟩
    intro hn
    simp only [wrapperDecls, e3, if_pos hgt, if_pos (htitle _ hn), e5]
    simp
  · intro hle
    simp only [e2, if_neg (Int.not_lt.mpr hle)]
    simp
  · intro hgt
    refine ⟨by simp only [e2, if_pos hgt]; simp, ?_⟩
    intro hn
    simp only [wrapperDecls, e4, if_pos hgt, if_pos (htitle _ hn), e7]
    simp

/-- C58, success: a function is generated exactly if both messages are known and every part has a
type. -/
theorem C58_success (cfg : GenConfig) (code : Code) (d : Definition) (port : Port) (op : Operation) :
    (operation cfg code d port op).isSome ↔ ∃ input output its ots, d.message.get op.input = some input ∧
      d.message.get op.output = some output ∧ HaveTypes code input.parts its ∧ HaveTypes code output.parts ots := by
  constructor
  · intro h
    obtain ⟨f, hf⟩ := Option.isSome_iff_exists.mp h
    obtain ⟨i, o, its, ots, h1, h2, h3, h4, _⟩ := C58_thresholds cfg code d port op f hf
    exact ⟨i, o, its, ots, h1, h2, h3, h4⟩
  · rintro ⟨i, o, its, ots, h1, h2, h3, h4⟩
    unfold operation opArgs
    rw [h1, h2]
    simp only
    rw [(partTypes_iff code i.parts _).mpr ⟨its, h3, rfl⟩, (partTypes_iff code o.parts _).mpr ⟨ots, h4, rfl⟩]
    rfl

/-- Sample: types keep their local names, messages `get` (three parts) and `Out` (three parts). -/
def sampleCode : Code := ⟨fun n => n.loc, fun _ => none⟩

def sampleDef : Definition :=
  let part (n t : Str) : Part := ⟨n, ⟨b!"u", t⟩, ⟨[], []⟩⟩
  { doc := [], targetNS := b!"urn:t"
    ports := [⟨b!"P", b!"http://x", b!"POST", [⟨[], [], ⟨b!"u", b!"Get"⟩, ⟨b!"u", b!"get"⟩, ⟨b!"u", b!"Out"⟩⟩]⟩]
    message := [(⟨b!"u", b!"get"⟩, ⟨⟨b!"u", b!"get"⟩, [part b!"type" b!"int", part b!"d" b!"xsdDate", part b!"string" b!"string"]⟩),
                (⟨b!"u", b!"Out"⟩, ⟨⟨b!"u", b!"Out"⟩, [part b!"x" b!"int", part b!"y" b!"xsdDate", part b!"z" b!"string"]⟩)] }

example : (genAST ⟨none, 3, 3⟩ sampleCode sampleDef).map (fun fs => fs.map fun f => (f.params, f.results)) =
    some [([b!"ctx context.Context", b!"type_ int", b!"d time.Time", b!"string_ string"],
           [b!"int", b!"time.Time", b!"string", b!"error"])] := by
  decide +kernel

example : (genAST ⟨none, 2, 2⟩ sampleCode sampleDef).map (fun fs => fs.map fun f => (f.params, f.results, f.decls.map (·.1))) =
    some [([b!"ctx context.Context", b!"v get"], [b!"Out", b!"error"], [b!"Get", b!"Out"])] := by
  decide +kernel

/-! ### C59 -/

/-- C59 is false of the code: `OnlyPorts` with no name still generates everything. -/
theorem C59_only_ports_refuted :
    (genAST (onlyPorts [] ⟨none, 3, 3⟩) sampleCode sampleDef).map (fun fs => fs.map (·.port.name)) = some [b!"P"] := by
  decide +kernel

theorem portDecls_some {cfg : GenConfig} {code : Code} {d : Definition} {port : Port} {ops : List Operation}
    {fs : List FuncDecl} (h : portDecls cfg code d port ops = some fs) :
    fs.map (fun f => (f.port, f.op)) = ops.map fun o => (port, o) := by
  induction ops generalizing fs with
  | nil => cases h; rfl
  | cons o ops ih =>
    simp only [portDecls] at h
    split at h
    · rename_i f fs' h1 h2
      cases h
      obtain ⟨i, o', a, _, _, _, rfl⟩ := operation_some h1
      rw [List.map_cons, ih h2]; rfl
    · cases h

theorem genLoop_some {cfg : GenConfig} {code : Code} {d : Definition} {ps : List Port}
    {fs : List FuncDecl} (h : genLoop cfg code d ps = some fs) :
    fs.map (fun f => (f.port, f.op)) = ps.flatMap fun p => p.operations.map fun o => (p, o) := by
  induction ps generalizing fs with
  | nil => cases h; rfl
  | cons p ps ih =>
    simp only [genLoop] at h
    split at h
    · rename_i f fs' h1 h2
      cases h
      rw [List.map_append, ih h2, portDecls_some h1]; rfl
    · cases h

/-- C59, partial: one function per operation of every port, in order, and the generated code does not
depend on the filter. Missing: the filter has no effect. -/
theorem C59_generated_partial (cfg : GenConfig) (code : Code) (d : Definition) (fs : List FuncDecl)
    (h : genAST cfg code d = some fs) :
    fs.map (fun f => (f.port, f.op)) = (d.ports.flatMap fun p => p.operations.map fun o => (p, o)) ∧
    ∀ names, (genAST (onlyPorts names cfg) code d).map (List.map fun f => (f.port, f.op)) =
      some (fs.map fun f => (f.port, f.op)) := by
  refine ⟨genLoop_some h, ?_⟩
  intro names
  have e : ∀ ps, genLoop (onlyPorts names cfg) code d ps = genLoop cfg code d ps := by
    have e1 : ∀ p ops, portDecls (onlyPorts names cfg) code d p ops = portDecls cfg code d p ops := by
      intro p ops
      induction ops with
      | nil => rfl
      | cons o ops ih => simp only [portDecls, ih]; rfl
    intro ps
    induction ps with
    | nil => rfl
    | cons p ps ih => simp only [genLoop, ih, e1]
  unfold genAST at *
  rw [e, h]; rfl

/-! ### C60 -/

/-- C60 is false of parameters: the function takes a `get`, but the type declared is `Get`. -/
theorem C60_input_type_refuted :
    (genAST ⟨none, 2, 3⟩ sampleCode sampleDef).map (fun fs => fs.map fun f => (f.params, f.decls.map (·.1))) =
    some [([b!"ctx context.Context", b!"v get"], [b!"Get"])] := by
  decide +kernel

/-- C60 is false of results: a function with two results returns four values. -/
theorem C60_returns_refuted :
    (genAST ⟨none, 3, 2⟩ sampleCode sampleDef).map (fun fs => fs.map fun f => (f.results.length, f.returns.length)) =
    some [(2, 4)] := by
  decide +kernel

/-- C60, partial. The parameter's wrapper type is declared if the message's name begins with an upper
case letter (is its own title); the result's wrapper type always is. The body returns as many values
as the signature lists exactly if there is no result wrapper or the message has at most one part (a
nameless message aside). Missing: the other cases, where this is false. -/
theorem C60_consistent_partial (cfg : GenConfig) (code : Code) (d : Definition) (port : Port) (op : Operation) (f : FuncDecl)
    (h : operation cfg code d port op = some f) (input output : Message)
    (hi : d.message.get op.input = some input) (ho : d.message.get op.output = some output)
    (hn : input.name.loc ≠ []) (hm : output.name.loc ≠ []) :
    ((input.parts.length : Int) > cfg.maxArgs →
      (f.params.tail = [b!"v " ++ input.name.loc] ∧
        (title input.name.loc = input.name.loc → input.name.loc ∈ f.decls.map (·.1)))) ∧
    ((output.parts.length : Int) > cfg.maxReturns → ∃ t, f.results = [t, b!"error"] ∧ t ∈ f.decls.map (·.1)) ∧
    (f.returns.length = f.results.length ↔ (output.parts.length : Int) ≤ cfg.maxReturns ∨ output.parts.length ≤ 1) := by
  obtain ⟨input', output', its, ots, hi', ho', t1, t2, _, _, _, c1, _, c2⟩ := C58_thresholds cfg code d port op f h
  obtain ⟨input'', output'', a, hi'', ho'', ha, rfl⟩ := operation_some h
  rw [hi] at hi' hi''; cases hi'; cases hi''
  rw [ho] at ho' ho''; cases ho'; cases ho''
  obtain ⟨its', ots', t1', t2', e1, e2, e3, e4, e5, e6, e7⟩ := opArgs_some ha
  refine ⟨?_, ?_, ?_⟩
  · intro hgt
    obtain ⟨p1, p2⟩ := c1 hgt
    refine ⟨p1, fun ht => ?_⟩
    have := List.mem_map_of_mem (f := Prod.fst) (p2 hn)
    rw [ht] at this; exact this
  · intro hgt
    obtain ⟨p1, p2⟩ := c2 hgt
    refine ⟨_, ?_, List.mem_map_of_mem (f := Prod.fst) (p2 hm)⟩
    simp only [e2, if_pos hgt]; rfl
  · have hlen : a.outputFields.length = output.parts.length := by
      have := congrArg List.length e6
      rw [List.length_map, List.length_map, List.length_zip, ← haveTypes_length t2', Nat.min_self] at this
      exact this
    have hnil : a.outputFields = [] ↔ output.parts.length = 0 := by
      rw [← hlen]; exact List.length_eq_zero_iff.symm
    have hrt : a.returnType = [] ↔ ¬ (output.parts.length : Int) > cfg.maxReturns := by
      rw [e4]
      split
      · rename_i hgt
        have : title output.name.loc ≠ [] := by
          cases hc : output.name.loc with
          | nil => exact absurd hc hm
          | cons c s => simp [title, titleLoop]
        simp [this, hgt]
      · rename_i hgt; simp [hgt]
    have hres : a.output.length = (if (output.parts.length : Int) > cfg.maxReturns then 1 else output.parts.length) + 1 := by
      rw [e2, List.length_append]
      split
      · rfl
      · rw [List.length_map, ← haveTypes_length t2']; rfl
    simp only [returnValues, hres]
    by_cases h0 : a.outputFields = []
    · have hz := hnil.mp h0
      rw [if_neg (by simpa using h0)]
      by_cases hg : (output.parts.length : Int) > cfg.maxReturns
      · have : a.returnType ≠ [] := fun e => hrt.mp e hg
        rw [if_pos this, if_pos hg]
        constructor
        · intro _; right; omega
        · intro _; rfl
      · have : a.returnType = [] := hrt.mpr hg
        rw [if_neg (by simpa using this), if_neg hg, hz]
        constructor
        · intro _; right; omega
        · intro _; rfl
    · rw [if_pos h0]
      simp only [List.length_append, List.length_map, List.length_singleton, hlen]
      have hpos : output.parts.length ≠ 0 := fun e => h0 (hnil.mpr e)
      by_cases hg : (output.parts.length : Int) > cfg.maxReturns
      · rw [if_pos hg]; omega
      · rw [if_neg hg]; omega

/-! ### C71 -/

/-- C71 is false of the code: in the second place the signature says `time.Time`, but the value
returned is converted to `xsdDate`. -/
theorem C71_return_types_refuted :
    (genAST ⟨none, 3, 3⟩ sampleCode sampleDef).map (fun fs => fs.map fun f => (f.results[1]?, f.returns[1]?)) =
    some [(some b!"time.Time", some b!"xsdDate(output.Args.Y)")] := by
  decide +kernel

/-- C71, partial: without a wrapper, every value returned is converted to the type in the same place
of the signature if none of the parts has a type that is hidden from users. Missing: hidden types,
for which this is false. -/
theorem C71_return_types_partial (cfg : GenConfig) (code : Code) (d : Definition) (port : Port) (op : Operation)
    (f : FuncDecl) (h : operation cfg code d port op = some f) (output : Message)
    (ho : d.message.get op.output = some output) (hle : (output.parts.length : Int) ≤ cfg.maxReturns)
    (hs : ∀ p ∈ output.parts, ∀ t, HasType code p t → shown t = t) :
    f.results.length = f.returns.length ∧
    ∀ (i : Nat) p, output.parts[i]? = some p → ∃ t, HasType code p t ∧ f.results[i]? = some t ∧
      f.returns[i]? = some (t ++ b!"(output.Args." ++ title p.name ++ b!")") := by
  obtain ⟨input'', output'', a, hi'', ho'', ha, rfl⟩ := operation_some h
  rw [ho] at ho''; cases ho''
  obtain ⟨its, ots, t1, t2, e1, e2, e3, e4, e5, e6, e7, -⟩ := opArgs_some ha
  have hz : ∀ (i : Nat) p t, output.parts[i]? = some p → ots[i]? = some t → HasType code p t := by
    intro i p t hp ht
    unfold HaveTypes at t2
    exact (List.forall₂_iff_get.mp t2).2 i (List.getElem?_eq_some_iff.mp hp).1 (List.getElem?_eq_some_iff.mp ht).1
      |> fun x => by
        have e1 := (List.getElem?_eq_some_iff.mp hp).2
        have e2 := (List.getElem?_eq_some_iff.mp ht).2
        simpa [e1, e2] using x
  have hlen := haveTypes_length t2
  have hshown : ots.map shown = ots := by
    apply List.ext_getElem?
    intro i
    rw [List.getElem?_map]
    cases ht : ots[i]? with
    | none => rfl
    | some t =>
      have hi : i < output.parts.length := by rw [hlen]; exact (List.getElem?_eq_some_iff.mp ht).1
      have hp : output.parts[i]? = some output.parts[i] := List.getElem?_eq_getElem hi
      have := hs _ (List.mem_of_getElem? hp) t (hz i _ t hp ht)
      simp [this]
  have hres : a.output = ots ++ [b!"error"] := by rw [e2, if_neg (Int.not_lt.mpr hle), hshown]
  have hfl : a.outputFields.length = output.parts.length := by
    have := congrArg List.length e6
    rw [List.length_map, List.length_map, List.length_zip, ← hlen, Nat.min_self] at this
    exact this
  have hret : returnValues a = (output.parts.zip ots).map (fun pt => pt.2 ++ b!"(output.Args." ++ title pt.1.name ++ b!")") ++ [b!"err"] := by
    unfold returnValues
    by_cases h0 : a.outputFields = []
    · have hp : output.parts = [] := List.length_eq_zero_iff.mp (by rw [← hfl, h0]; rfl)
      have hr : a.returnType = [] := by rw [e4, if_neg (Int.not_lt.mpr hle)]
      rw [if_neg (by simpa using h0), if_neg (by simpa using hr), hp]; rfl
    · rw [if_pos h0]
      congr 1
      have := congrArg (List.map fun nt : Str × Str => nt.2 ++ b!"(output.Args." ++ nt.1 ++ b!")") e6
      rw [List.map_map, List.map_map] at this
      exact this
  simp only [hres, hret]
  constructor
  · simp [List.length_zip, hlen]
  · intro i p hp
    have hi : i < ots.length := by rw [← hlen]; exact (List.getElem?_eq_some_iff.mp hp).1
    have ht : ots[i]? = some ots[i] := List.getElem?_eq_getElem hi
    refine ⟨ots[i], hz i p _ hp ht, ?_, ?_⟩
    · rw [List.getElem?_append_left hi, ht]
    · have hzz : (output.parts.zip ots)[i]? = some (p, ots[i]) := List.getElem?_zip_eq_some.mpr ⟨hp, ht⟩
      have hl : i < ((output.parts.zip ots).map (fun pt => pt.2 ++ b!"(output.Args." ++ title pt.1.name ++ b!")")).length := by
        rw [List.length_map]; exact (List.getElem?_eq_some_iff.mp hzz).1
      rw [List.getElem?_append_left hl, List.getElem?_map, hzz]; rfl

example : shown b!"int" = b!"int" ∧ shown b!"gYear" = b!"time.Time" := by decide +kernel

end GoXml.Wsdl
