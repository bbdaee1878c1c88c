import Verif.Props.WsdlGen
set_option autoImplicit false

/-! Properties C112-C115: the bodies and the parameters of the functions that wsdlgen generates. -/

namespace GoXml.Wsdl

theorem haveTypes_at {code : Code} {ps : List Part} {ts : List Str} (h : HaveTypes code ps ts) :
    ∀ (i : Nat) p, ps[i]? = some p → ∃ t, ts[i]? = some t ∧ HasType code p t := by
  induction h with
  | nil => intro i p hp; cases hp
  | cons h _ ih =>
    intro i p hp
    cases i with
    | zero => cases hp; exact ⟨_, rfl, h⟩
    | succ i => exact ih i p hp

theorem haveTypes_mem' {code : Code} {ps : List Part} {ts : List Str} (h : HaveTypes code ps ts) : ∀ t ∈ ts, ∃ p ∈ ps, HasType code p t := by
  induction h with
  | nil => intro t ht; cases ht
  | cons h _ ih =>
    intro t ht
    rcases List.mem_cons.mp ht with rfl | ht
    · exact ⟨_, List.mem_cons_self, h⟩
    · obtain ⟨p, hp, hh⟩ := ih t ht
      exact ⟨p, List.mem_cons_of_mem _ hp, hh⟩

theorem haveTypes_zip {code : Code} {ps : List Part} {ts : List Str} (h : HaveTypes code ps ts) : ∀ x ∈ ps.zip ts, x.1 ∈ ps ∧ HasType code x.1 x.2 := by
  induction h with
  | nil => intro t ht; cases ht
  | cons h _ ih =>
    intro t ht
    rw [List.zip_cons_cons] at ht
    rcases List.mem_cons.mp ht with rfl | ht
    · exact ⟨List.mem_cons_self, h⟩
    · exact ⟨List.mem_cons_of_mem _ (ih t ht).1, (ih t ht).2⟩

theorem body_some {cfg : GenConfig} {code : Code} {d : Definition} {port : Port} {op : Operation} {f : FuncDecl}
    (h : operation cfg code d port op = some f) : ∃ input output its ots, d.message.get op.input = some input ∧ d.message.get op.output = some output ∧
      HaveTypes code input.parts its ∧ HaveTypes code output.parts ots ∧
      f.params = b!"ctx context.Context" :: (if (input.parts.length : Int) > cfg.maxArgs then [b!"v " ++ input.name.loc]
        else (input.parts.zip its).map fun pt => paramName pt.1 pt.2 ++ b!" " ++ shown pt.2) ∧
      f.body.msgName = op.name ∧ f.body.inputName = input.name ∧ f.body.outputName = output.name ∧
      f.body.method = port.method ∧ f.body.address = port.address ∧ f.body.soapAction = op.soapAction ∧
      f.body.sent = (input.parts.zip its).map (fun pt => (title pt.1.name, pt.2, ⟨d.targetNS, pt.1.name⟩, pt.2 ++ b!"(" ++
        (if (input.parts.length : Int) > cfg.maxArgs then b!"v." ++ title pt.1.name else paramName pt.1 pt.2) ++ b!")")) ∧
      f.body.received = (output.parts.zip ots).map (fun pt => (title pt.1.name, pt.2, ⟨d.targetNS, pt.1.name⟩)) ∧
      (((input.parts.length : Int) > cfg.maxArgs) → title input.name.loc ≠ [] → (title input.name.loc, (input.parts.zip its).map fun pt => (title pt.1.name, shown pt.2)) ∈ f.decls) := by
  obtain ⟨input, output, a, hi, ho, ha, rfl⟩ := operation_some h
  obtain ⟨its, ots, t1, t2, e1, -, e3, -, e5, -, -, e6, e7, e8, e9⟩ := opArgs_some ha
  refine ⟨input, output, its, ots, hi, ho, t1, t2, by simp only [e1], rfl, e6, e7, rfl, rfl, rfl, ?_, e9, ?_⟩
  · have : (bodyOf port op a).sent = (a.inputFields.map (fun f => (f.name, f.type, f.xmlName, f.inputArg))).map
        (fun y => (y.1, y.2.1, y.2.2.1, y.2.1 ++ b!"(" ++ y.2.2.2 ++ b!")")) := by
      simp [bodyOf, List.map_map, Function.comp_def]
    simp only [this, e8, List.map_map, Function.comp_def]
  · intro hgt hne
    rw [if_pos hgt] at e3
    simp only [wrapperDecls, e3, e5, if_pos hne]
    simp

/-! ### C112 -/

/-- C112. What a generated function sends and receives. The request and the response are named after the operation, their contents
after the messages; there is one field for every part, in order, named after the part and with its type. A field of the request gets the
value of the parameter for the part or, if the parameters are wrapped, of the field of the wrapper for the part. The
request goes to the address of the port, with its method and the SOAP action of the operation. -/
theorem C112_body (cfg : GenConfig) (code : Code) (d : Definition) (port : Port) (op : Operation) (f : FuncDecl)
    (h : operation cfg code d port op = some f) :
    ∃ input output, d.message.get op.input = some input ∧ d.message.get op.output = some output ∧
      f.body.msgName = op.name ∧ f.body.inputName = input.name ∧ f.body.outputName = output.name ∧
      f.body.method = port.method ∧ f.body.address = port.address ∧ f.body.soapAction = op.soapAction ∧
      f.body.sent.length = input.parts.length ∧ f.body.received.length = output.parts.length ∧
      (∀ (i : Nat) p, input.parts[i]? = some p → ∃ t v, HasType code p t ∧
        f.body.sent[i]? = some (title p.name, t, ⟨d.targetNS, p.name⟩, t ++ b!"(" ++ v ++ b!")") ∧
        ((input.parts.length : Int) ≤ cfg.maxArgs → f.params[i + 1]? = some (v ++ b!" " ++ shown t)) ∧
        ((input.parts.length : Int) > cfg.maxArgs → f.params = [b!"ctx context.Context", b!"v " ++ input.name.loc] ∧ v = b!"v." ++ title p.name ∧
          (title input.name.loc ≠ [] → ∃ fields, (title input.name.loc, fields) ∈ f.decls ∧ fields[i]? = some (title p.name, shown t)))) ∧
      (∀ (i : Nat) p, output.parts[i]? = some p → ∃ t, HasType code p t ∧ f.body.received[i]? = some (title p.name, t, ⟨d.targetNS, p.name⟩)) := by
  obtain ⟨input, output, its, ots, hi, ho, t1, t2, e0, e1, e2, e3, e4, e5, e6, e7, e8, e9⟩ := body_some h
  refine ⟨input, output, hi, ho, e1, e2, e3, e4, e5, e6, ?_, ?_, ?_, ?_⟩
  · rw [e7, List.length_map, List.length_zip, haveTypes_length t1, Nat.min_self]
  · rw [e8, List.length_map, List.length_zip, haveTypes_length t2, Nat.min_self]
  · intro i p hp
    obtain ⟨t, ht, hh⟩ := haveTypes_at t1 i p hp
    have hz : (input.parts.zip its)[i]? = some (p, t) := List.getElem?_zip_eq_some.mpr ⟨hp, ht⟩
    refine ⟨t, (if (input.parts.length : Int) > cfg.maxArgs then b!"v." ++ title p.name else paramName p t), hh, ?_, ?_, ?_⟩
    · rw [e7, List.getElem?_map, hz]; rfl
    · intro hle
      rw [e0, if_neg (Int.not_lt.mpr hle), if_neg (Int.not_lt.mpr hle), List.getElem?_cons_succ, List.getElem?_map, hz]; rfl
    · intro hgt
      rw [e0, if_pos hgt, if_pos hgt]
      refine ⟨rfl, rfl, fun hne => ⟨_, e9 hgt hne, ?_⟩⟩
      rw [List.getElem?_map, hz]; rfl
  · intro i p hp
    obtain ⟨t, ht, hh⟩ := haveTypes_at t2 i p hp
    have hz : (output.parts.zip ots)[i]? = some (p, t) := List.getElem?_zip_eq_some.mpr ⟨hp, ht⟩
    exact ⟨t, hh, by rw [e8, List.getElem?_map, hz]; rfl⟩

example : (genAST ⟨none, 3, 3⟩ sampleCode sampleDef).map (fun fs => fs.map fun f => f.body) =
    some [{ msgName := ⟨b!"u", b!"Get"⟩, inputName := ⟨b!"u", b!"get"⟩, outputName := ⟨b!"u", b!"Out"⟩
            sent := [(b!"Type", b!"int", ⟨b!"urn:t", b!"type"⟩, b!"int(type_)"), (b!"D", b!"xsdDate", ⟨b!"urn:t", b!"d"⟩, b!"xsdDate(d)"),
              (b!"String", b!"string", ⟨b!"urn:t", b!"string"⟩, b!"string(string_)")]
            received := [(b!"X", b!"int", ⟨b!"urn:t", b!"x"⟩), (b!"Y", b!"xsdDate", ⟨b!"urn:t", b!"y"⟩), (b!"Z", b!"string", ⟨b!"urn:t", b!"z"⟩)]
            method := b!"POST", address := b!"http://x", soapAction := [] }] := by
  decide +kernel

/-! ### C113 -/

/-- One operation with the given parts; types are named like in the schema, and the document type of u has the element e of type int. -/
def bodyCode : Code := ⟨fun n => n.loc, fun ns => if ns = b!"u" then some [(⟨b!"u", b!"e"⟩, ⟨b!"u", b!"int"⟩)] else none⟩

def bodyDef (ins outs : List Part) : Definition :=
  { doc := [], targetNS := b!"u"
    ports := [⟨b!"P", b!"http://x", b!"POST", [⟨[], [], ⟨b!"u", b!"Get"⟩, ⟨b!"u", b!"In"⟩, ⟨b!"u", b!"Out"⟩⟩]⟩]
    message := [(⟨b!"u", b!"In"⟩, ⟨⟨b!"u", b!"In"⟩, ins⟩), (⟨b!"u", b!"Out"⟩, ⟨⟨b!"u", b!"Out"⟩, outs⟩)] }

def typed (n t : Str) : Part := ⟨n, ⟨b!"u", t⟩, ⟨[], []⟩⟩

/-- C113, when it holds: a part that is given by an element is sent, and received, as that element exactly if the element is in the target
namespace and has the name of the part. The full statement is that it always is. -/
theorem C113_element_partial (cfg : GenConfig) (code : Code) (d : Definition) (port : Port) (op : Operation) (f : FuncDecl)
    (h : operation cfg code d port op = some f) :
    (∀ input, d.message.get op.input = some input → ∀ (i : Nat) p, input.parts[i]? = some p → p.type.loc = [] →
      p.element.loc ≠ [] ∧ ((f.body.sent[i]?.map (·.2.2.1)) = some p.element ↔ p.element = ⟨d.targetNS, p.name⟩)) ∧
    (∀ output, d.message.get op.output = some output → ∀ (i : Nat) p, output.parts[i]? = some p → p.type.loc = [] →
      p.element.loc ≠ [] ∧ ((f.body.received[i]?.map (·.2.2)) = some p.element ↔ p.element = ⟨d.targetNS, p.name⟩)) := by
  obtain ⟨input, output, hi, ho, -, -, -, -, -, -, -, -, h1, h2⟩ := C112_body cfg code d port op f h
  have el : ∀ {p : Part} {t : Str}, HasType code p t → p.type.loc = [] → p.element.loc ≠ [] := by
    intro p t hh hl
    cases hh with
    | type hn => exact absurd hl hn
    | element _ _ _ _ he _ _ => exact he
  refine ⟨?_, ?_⟩
  · intro input' hin i p hp hl
    rw [hi] at hin
    cases hin
    obtain ⟨t, v, hh, hs, -⟩ := h1 i p hp
    refine ⟨el hh hl, ?_⟩
    rw [hs]
    simp only [Option.map_some, Option.some.injEq]
    exact eq_comm
  · intro output' hout i p hp hl
    rw [ho] at hout
    cases hout
    obtain ⟨t, hh, hs⟩ := h2 i p hp
    refine ⟨el hh hl, ?_⟩
    rw [hs]
    simp only [Option.map_some, Option.some.injEq]
    exact eq_comm

/-- A part that is named like its element. -/
example : (genAST ⟨none, 3, 3⟩ bodyCode (bodyDef [⟨b!"e", ⟨[], []⟩, ⟨b!"u", b!"e"⟩⟩] [])).map (fun fs => fs.map fun f => f.body.sent.map (·.2.2.1)) =
    some [[⟨b!"u", b!"e"⟩]] := by
  decide +kernel

/-- C113 is false of the code: a part named parameters for the element e, as most documents have it, is sent and received as an element
named parameters. -/
theorem C113_element_refuted :
    (genAST ⟨none, 3, 3⟩ bodyCode (bodyDef [⟨b!"parameters", ⟨[], []⟩, ⟨b!"u", b!"e"⟩⟩] [⟨b!"parameters", ⟨[], []⟩, ⟨b!"u", b!"e"⟩⟩])).map
      (fun fs => fs.map fun f => (f.body.sent.map (·.2.2.1), f.body.received.map (·.2.2))) =
    some [([⟨b!"u", b!"parameters"⟩], [⟨b!"u", b!"parameters"⟩])] := by
  decide +kernel

/-! ### C114 -/

/-- What `paramName` adds to the name of a part. -/
theorem paramName_eq (p : Part) (t : Str) : ∃ s, paramName p t = p.name ++ s ∧ (s = [] ∨ s = b!"_" ∨ s = b!"__") ∧
    (s = [] → p.name ≠ t ∧ p.name ∉ Gen.sanitizeCases) := by
  unfold paramName Gen.sanitize
  by_cases h : p.name ∈ Gen.sanitizeCases
  · rw [if_pos h]
    split
    · exact ⟨b!"__", by rw [List.append_assoc]; rfl, .inr (.inr rfl), fun h => by cases h⟩
    · exact ⟨b!"_", rfl, .inr (.inl rfl), fun h => by cases h⟩
  · rw [if_neg h]
    split
    · exact ⟨b!"_", rfl, .inr (.inl rfl), fun h => by cases h⟩
    · rename_i hn
      exact ⟨[], by rw [List.append_nil], .inl rfl, fun _ => ⟨hn, h⟩⟩

theorem declaredName_append {x t : Str} (h : (32 : UInt8) ∉ x) : declaredName (x ++ b!" " ++ t) = x := by
  induction x with
  | nil => rfl
  | cons c cs ih =>
    have hc : c ≠ 32 := fun e => h (by rw [e]; exact List.mem_cons_self)
    simp only [declaredName, List.cons_append, List.takeWhile_cons, ne_eq, hc, not_false_eq_true, decide_true, if_true]
    exact congrArg _ (ih fun e => h (List.mem_cons_of_mem _ e))

theorem getLast_underscore (x : Str) (s : Str) (h : s = b!"_" ∨ s = b!"__") : (x ++ s).getLast? = some 95 := by
  rcases h with rfl | rfl
  · rw [List.getLast?_append]; rfl
  · rw [List.getLast?_append]; rfl

/-- Names that do not end with an underscore are the same if they are after one or two are added. -/
theorem suffix_inj {x y s r : Str} (hx : x.getLast? ≠ some 95) (hy : y.getLast? ≠ some 95) (hs : s = [] ∨ s = b!"_" ∨ s = b!"__")
    (hr : r = [] ∨ r = b!"_" ∨ r = b!"__") (h : x ++ s = y ++ r) : x = y := by
  have key : ∀ z : Str, z ++ b!"_" ≠ [] := by intro z; simp
  rcases hs with rfl | rfl | rfl <;> rcases hr with rfl | rfl | rfl
  · simpa using h
  · exact absurd (by rw [← List.append_nil x, h]; exact getLast_underscore _ _ (.inl rfl)) hx
  · exact absurd (by rw [← List.append_nil x, h]; exact getLast_underscore _ _ (.inr rfl)) hx
  · exact absurd (by rw [← List.append_nil y, ← h]; exact getLast_underscore _ _ (.inl rfl)) hy
  · exact List.append_cancel_right h
  · rw [show (b!"__" : Str) = b!"_" ++ b!"_" from rfl, ← List.append_assoc] at h
    have := List.append_cancel_right h
    exact absurd (by rw [this]; exact getLast_underscore _ _ (.inl rfl)) hx
  · exact absurd (by rw [← List.append_nil y, ← h]; exact getLast_underscore _ _ (.inr rfl)) hy
  · rw [show (b!"__" : Str) = b!"_" ++ b!"_" from rfl, ← List.append_assoc] at h
    have := List.append_cancel_right h
    exact absurd (by rw [← this]; exact getLast_underscore _ _ (.inl rfl)) hy
  · exact List.append_cancel_right h

/-- C114, for parts with different names that have no space, do not end with an underscore, and are not those of the context, the
receiver or a variable of the body, and with types that hide nothing: a part may be named like a type used in the function only if that is its own
type. Then the parameters have different names, none is declared again in the function, and none hides a type that the body
mentions. The full statement has no such conditions; it is refuted below. -/
theorem C114_parameters_partial (cfg : GenConfig) (code : Code) (d : Definition) (port : Port) (op : Operation) (f : FuncDecl) (input output : Message)
    (hi : d.message.get op.input = some input) (ho : d.message.get op.output = some output)
    (hnames : (input.parts.map (·.name)).Nodup)
    (hplain : ∀ p ∈ input.parts, (32 : UInt8) ∉ p.name ∧ p.name.getLast? ≠ some 95 ∧ p.name ≠ b!"ctx" ∧ p.name ∉ localNames)
    (htypes : ∀ q ∈ input.parts ++ output.parts, ∀ t, HasType code q t → (rootName t).getLast? ≠ some 95 ∧
      rootName t ≠ b!"ctx" ∧ (∀ p ∈ input.parts, rootName t = p.name → HasType code p p.name) ∧
      ((input.parts.length : Int) > cfg.maxArgs → rootName t ≠ b!"v"))
    (h : operation cfg code d port op = some f) :
    (f.params.map declaredName).Nodup ∧ (∀ x ∈ f.params.map declaredName, x ∉ localNames) ∧
    ∀ t ∈ f.body.sent.map (·.2.1) ++ f.body.received.map (·.2.1), rootName t ∉ f.params.map declaredName := by
  obtain ⟨input', output', its, ots, hi', ho', t1, t2, e0, -, -, -, -, -, -, e7, e8, -⟩ := body_some h
  rw [hi] at hi'
  rw [ho] at ho'
  cases hi'
  cases ho'
  have used : ∀ t ∈ f.body.sent.map (·.2.1) ++ f.body.received.map (·.2.1), ∃ q ∈ input.parts ++ output.parts, HasType code q t := by
    intro t ht
    rcases List.mem_append.mp ht with ht | ht
    · rw [e7, List.map_map] at ht
      obtain ⟨x, hx, rfl⟩ := List.mem_map.mp ht
      exact ⟨x.1, List.mem_append_left _ (haveTypes_zip t1 x hx).1, (haveTypes_zip t1 x hx).2⟩
    · rw [e8, List.map_map] at ht
      obtain ⟨x, hx, rfl⟩ := List.mem_map.mp ht
      exact ⟨x.1, List.mem_append_right _ (haveTypes_zip t2 x hx).1, (haveTypes_zip t2 x hx).2⟩
  by_cases hgt : (input.parts.length : Int) > cfg.maxArgs
  · have en : f.params.map declaredName = [b!"ctx", b!"v"] := by
      rw [e0, if_pos hgt]
      rfl
    rw [en]
    refine ⟨by decide, by decide, ?_⟩
    intro t ht
    obtain ⟨q, hq, hh⟩ := used t ht
    obtain ⟨-, k2, -, k4⟩ := htypes q hq t hh
    simp only [List.mem_cons, List.not_mem_nil, or_false, not_or]
    exact ⟨k2, k4 hgt⟩
  · have en : f.params.map declaredName = b!"ctx" :: (input.parts.zip its).map fun pt => paramName pt.1 pt.2 := by
      rw [e0, if_neg hgt, List.map_cons, List.map_map]
      refine congrArg₂ List.cons rfl (List.map_congr_left ?_)
      intro x hx
      obtain ⟨s, hs, hs', -⟩ := paramName_eq x.1 x.2
      refine declaredName_append ?_
      rw [hs, List.mem_append, not_or]
      refine ⟨(hplain _ (haveTypes_zip t1 x hx).1).1, ?_⟩
      rcases hs' with rfl | rfl | rfl <;> decide
    have other : ∀ y : Str, y.getLast? ≠ some 95 → ∀ x ∈ input.parts.zip its, y ≠ x.1.name → y ≠ paramName x.1 x.2 := by
      intro y hy x hx hne e
      obtain ⟨s, hs, hs', -⟩ := paramName_eq x.1 x.2
      refine hne (suffix_inj hy (hplain _ (haveTypes_zip t1 x hx).1).2.1 (.inl rfl) hs' ?_)
      rw [List.append_nil, e, hs]
    rw [en]
    refine ⟨List.nodup_cons.mpr ⟨?_, ?_⟩, ?_, ?_⟩
    · intro hm
      obtain ⟨x, hx, e⟩ := List.mem_map.mp hm
      exact other b!"ctx" (by decide) x hx (fun e => (hplain _ (haveTypes_zip t1 x hx).1).2.2.1 e.symm) e.symm
    · have hnd : (input.parts.zip its).Pairwise fun x y => x.1.name ≠ y.1.name := by
        have : ((input.parts.zip its).map fun x => x.1.name).Nodup := by
          have e : ((input.parts.zip its).map fun x => x.1.name) = input.parts.map (·.name) := by
            rw [show (fun x : Part × Str => x.1.name) = (·.name) ∘ Prod.fst from rfl, ← List.map_map, List.map_fst_zip]
            rw [haveTypes_length t1]
            exact Nat.le_refl _
          rw [e]; exact hnames
        exact List.pairwise_map.mp this
      refine List.pairwise_map.mpr (List.Pairwise.imp_of_mem ?_ hnd)
      intro x y hx hy hne e
      obtain ⟨s, hs, hs', -⟩ := paramName_eq x.1 x.2
      obtain ⟨r, hr, hr', -⟩ := paramName_eq y.1 y.2
      rw [hs, hr] at e
      exact hne (suffix_inj (hplain _ (haveTypes_zip t1 x hx).1).2.1 (hplain _ (haveTypes_zip t1 y hy).1).2.1 hs' hr' e)
    · intro y hy hl
      rcases List.mem_cons.mp hy with rfl | hy
      · revert hl; decide
      · obtain ⟨x, hx, rfl⟩ := List.mem_map.mp hy
        have hlast : (paramName x.1 x.2).getLast? ≠ some 95 := by
          revert hl
          generalize paramName x.1 x.2 = z
          revert z
          decide
        obtain ⟨s, hs, hs', -⟩ := paramName_eq x.1 x.2
        rcases hs' with rfl | hs'
        · rw [hs, List.append_nil] at hl
          exact (hplain _ (haveTypes_zip t1 x hx).1).2.2.2 hl
        · exact hlast (by rw [hs]; exact getLast_underscore _ _ hs')
    · intro t ht hm
      obtain ⟨q, hq, hh⟩ := used t ht
      obtain ⟨k1, k2, k3, -⟩ := htypes q hq t hh
      rcases List.mem_cons.mp hm with e | hm
      · exact k2 e
      · obtain ⟨x, hx, e⟩ := List.mem_map.mp hm
        obtain ⟨hp, hx2⟩ := haveTypes_zip t1 x hx
        by_cases hr : rootName t = x.1.name
        · obtain ⟨s, hs, hs', hs0⟩ := paramName_eq x.1 x.2
          have hown : x.2 = x.1.name := by
            have a1 := (getPartType_iff code x.1 _).mpr (k3 x.1 hp hr)
            have a2 := (getPartType_iff code x.1 _).mpr hx2
            rw [a1] at a2
            exact (Option.some.inj a2).symm
          rcases hs' with rfl | hs'
          · exact (hs0 rfl).1 hown.symm
          · exact k1 (by rw [← e, hs]; exact getLast_underscore _ _ hs')
        · exact other _ k1 x hx hr e.symm

/-- The parameters of a function with the given parts. -/
def paramsOf (ins outs : List Part) : Option (List (List Str × List Str × List Str)) :=
  (genAST ⟨none, 9, 9⟩ bodyCode (bodyDef ins outs)).map fun fs => fs.map fun f =>
    (f.params.map declaredName, f.body.sent.map (·.2.2.2), (f.body.sent.map (·.2.1) ++ f.body.received.map (·.2.1)).map rootName)

/-- Parts that meet the conditions, one with a keyword for its name and one named like its type. -/
example : paramsOf [typed b!"type" b!"int", typed b!"string" b!"string", typed b!"b" b!"[]byte"] [typed b!"r" b!"string"] =
      some [([b!"ctx", b!"type_", b!"string_", b!"b"], [b!"int(type_)", b!"string(string_)", b!"[]byte(b)"], [b!"int", b!"string", b!"byte", b!"string"])] ∧
    ([typed b!"type" b!"int", typed b!"string" b!"string", typed b!"b" b!"[]byte"].map (·.name)).Nodup ∧
    (∀ p ∈ [typed b!"type" b!"int", typed b!"string" b!"string", typed b!"b" b!"[]byte"],
      (32 : UInt8) ∉ p.name ∧ p.name.getLast? ≠ some 95 ∧ p.name ≠ b!"ctx" ∧ p.name ∉ localNames) ∧
    ∀ q ∈ [typed b!"type" b!"int", typed b!"string" b!"string", typed b!"b" b!"[]byte"] ++ [typed b!"r" b!"string"], ∀ t, HasType bodyCode q t →
      (rootName t).getLast? ≠ some 95 ∧ rootName t ≠ b!"ctx" ∧
      ∀ p ∈ [typed b!"type" b!"int", typed b!"string" b!"string", typed b!"b" b!"[]byte"], rootName t = p.name → HasType bodyCode p p.name := by
  refine ⟨by decide +kernel, by decide, by decide, ?_⟩
  intro q hq t ht
  have hg := (getPartType_iff _ _ _).mpr ht
  have : ∀ q ∈ [typed b!"type" b!"int", typed b!"string" b!"string", typed b!"b" b!"[]byte"] ++ [typed b!"r" b!"string"], ∃ t, getPartType bodyCode q = some t ∧
      (rootName t).getLast? ≠ some 95 ∧ rootName t ≠ b!"ctx" ∧
      ∀ p ∈ [typed b!"type" b!"int", typed b!"string" b!"string", typed b!"b" b!"[]byte"], rootName t = p.name → getPartType bodyCode p = some p.name := by
    intro q hq
    simp only [List.mem_append, List.mem_cons, List.not_mem_nil, or_false] at hq
    rcases hq with (rfl | rfl | rfl) | rfl <;> exact ⟨_, rfl, by decide +kernel, by decide +kernel, by decide +kernel⟩
  obtain ⟨t', h1, h2, h3, h4⟩ := this q hq
  rw [hg] at h1
  cases h1
  exact ⟨h2, h3, fun p hp e => (getPartType_iff _ _ _).mp (h4 p hp e)⟩

/-- C114 is false of the code. Parts named like the receiver, the context or a variable give parameters with those names. Parts type
and type_ give two parameters of the same name. A part named time hides the package that the type time.Time of another part, or its own, is from,
and a part named string hides the type of another. -/
theorem C114_parameters_refuted :
    (∀ x ∈ b!"ctx" :: localNames, paramsOf [typed x b!"int"] [] = some [([b!"ctx", x], [b!"int(" ++ x ++ b!")"], [b!"int"])]) ∧
    paramsOf [typed b!"type" b!"int", typed b!"type_" b!"int"] [] = some [([b!"ctx", b!"type_", b!"type_"], [b!"int(type_)", b!"int(type_)"], [b!"int", b!"int"])] ∧
    paramsOf [typed b!"time" b!"time.Time"] [] = some [([b!"ctx", b!"time"], [b!"time.Time(time)"], [b!"time"])] ∧
    paramsOf [typed b!"string" b!"int", typed b!"b" b!"string"] [] =
      some [([b!"ctx", b!"string", b!"b"], [b!"int(string)", b!"string(b)"], [b!"int", b!"string"])] := by
  refine ⟨?_, by decide +kernel, by decide +kernel, by decide +kernel⟩
  intro x hx
  simp only [localNames, List.mem_cons, List.not_mem_nil, or_false] at hx
  rcases hx with rfl | rfl | rfl | rfl | rfl <;> decide +kernel

/-! ### C115 -/

theorem titleLoop_word : ∀ (s : Str), (∀ c ∈ s, IsWord c) → titleLoop false s = s := by
  intro s
  induction s with
  | nil => intro _; rfl
  | cons c cs ih =>
    intro h
    have hc := h c List.mem_cons_self
    simp only [titleLoop, Bool.false_and, Bool.false_eq_true, if_false]
    have : decide ((48 ≤ c ∧ c ≤ 57) ∨ (65 ≤ c ∧ c ≤ 90) ∨ c = 95 ∨ (97 ≤ c ∧ c ≤ 122) ∨ 128 ≤ c) = true := by
      rw [decide_eq_true_eq]
      rcases hc with h | h | h | h
      · exact .inl h
      · exact .inr (.inl h)
      · exact .inr (.inr (.inl h))
      · exact .inr (.inr (.inr (.inl h)))
    rw [this, Bool.not_true, ih fun x hx => h x (List.mem_cons_of_mem _ hx)]

theorem title_capital (s : Str) (h : ∀ c ∈ s, IsWord c) : title s = capital s := by
  cases s with
  | nil => rfl
  | cons c cs =>
    have hc := h c List.mem_cons_self
    have : decide ((48 ≤ c ∧ c ≤ 57) ∨ (65 ≤ c ∧ c ≤ 90) ∨ c = 95 ∨ (97 ≤ c ∧ c ≤ 122) ∨ 128 ≤ c) = true := by
      rw [decide_eq_true_eq]
      rcases hc with h | h | h | h
      · exact .inl h
      · exact .inr (.inl h)
      · exact .inr (.inr (.inl h))
      · exact .inr (.inr (.inr (.inl h)))
    simp only [title, titleLoop, Bool.true_and, decide_eq_true_eq, capital]
    rw [this, Bool.not_true, titleLoop_word cs fun x hx => h x (List.mem_cons_of_mem _ hx)]

theorem capital_exported (s : Str) (h : ∀ c ∈ s, IsWord c) (h0 : ∃ c, s.head? = some c ∧ ((65 ≤ c ∧ c ≤ 90) ∨ (97 ≤ c ∧ c ≤ 122))) : Exported (capital s) := by
  cases s with
  | nil => obtain ⟨c, hc, -⟩ := h0; cases hc
  | cons c cs =>
    obtain ⟨c', hc', hl⟩ := h0
    cases hc'
    have up : ∀ c : UInt8, ((65 ≤ c ∧ c ≤ 90) ∨ (97 ≤ c ∧ c ≤ 122)) → 65 ≤ (if 97 ≤ c ∧ c ≤ 122 then c - 32 else c) ∧ (if 97 ≤ c ∧ c ≤ 122 then c - 32 else c) ≤ 90 := by
      intro c h
      have hn : ∀ a b : UInt8, a ≤ b ↔ a.toNat ≤ b.toNat := fun _ _ => UInt8.le_iff_toNat_le
      split
      · rename_i hc
        have hs : (c - 32).toNat = c.toNat - 32 := UInt8.toNat_sub_of_le c 32 ((hn _ _).mpr (Nat.le_trans (by decide) ((hn _ _).mp hc.1)))
        have a1 : 97 ≤ c.toNat := (hn _ _).mp hc.1
        have a2 : c.toNat ≤ 122 := (hn _ _).mp hc.2
        exact ⟨(hn _ _).mpr (by rw [hs]; show 65 ≤ _; omega), (hn _ _).mpr (by rw [hs]; show _ ≤ 90; omega)⟩
      · rename_i hc
        exact h.resolve_right hc
    refine ⟨⟨_, rfl, up c hl⟩, ?_⟩
    intro x hx
    rcases List.mem_cons.mp hx with rfl | hx
    · exact .inr (.inl (up c hl))
    · exact h x (List.mem_cons_of_mem _ hx)

/-- C115, for parts whose names begin with an ASCII letter, continue with ASCII letters, digits and underscores, and differ in more than the
case of the first letter: the fields of the request and of the response are different exported identifiers, so that they
can be declared and package encoding/xml writes and reads them. The full statement is for all names that XML allows. -/
theorem C115_fields_partial (cfg : GenConfig) (code : Code) (d : Definition) (port : Port) (op : Operation) (f : FuncDecl) (input output : Message)
    (hi : d.message.get op.input = some input) (ho : d.message.get op.output = some output)
    (hw : ∀ p ∈ input.parts ++ output.parts, (∀ c ∈ p.name, IsWord c) ∧ ∃ c, p.name.head? = some c ∧ ((65 ≤ c ∧ c ≤ 90) ∨ (97 ≤ c ∧ c ≤ 122)))
    (h1 : (input.parts.map fun p => capital p.name).Nodup) (h2 : (output.parts.map fun p => capital p.name).Nodup)
    (h : operation cfg code d port op = some f) :
    (f.body.sent.map (·.1)).Nodup ∧ (f.body.received.map (·.1)).Nodup ∧
    ∀ x ∈ f.body.sent.map (·.1) ++ f.body.received.map (·.1), Exported x := by
  obtain ⟨input', output', its, ots, hi', ho', t1, t2, -, -, -, -, -, -, -, e7, e8, -⟩ := body_some h
  rw [hi] at hi'
  rw [ho] at ho'
  cases hi'
  cases ho'
  have names : ∀ {ps : List Part} {ts : List Str}, HaveTypes code ps ts → (∀ p ∈ ps, ∀ c ∈ p.name, IsWord c) →
      (ps.zip ts).map (fun x => title x.1.name) = ps.map fun p => capital p.name := by
    intro ps ts hh hp
    rw [show (fun x : Part × Str => title x.1.name) = (fun p : Part => title p.name) ∘ Prod.fst from rfl, ← List.map_map, List.map_fst_zip]
    · exact List.map_congr_left fun p hm => title_capital _ (hp p hm)
    · rw [haveTypes_length hh]; exact Nat.le_refl _
  have s1 : f.body.sent.map (·.1) = input.parts.map fun p => capital p.name := by
    rw [e7, List.map_map]
    exact names t1 fun p hp => (hw p (List.mem_append_left _ hp)).1
  have s2 : f.body.received.map (·.1) = output.parts.map fun p => capital p.name := by
    rw [e8, List.map_map]
    exact names t2 fun p hp => (hw p (List.mem_append_right _ hp)).1
  rw [s1, s2, ← List.map_append]
  refine ⟨h1, h2, ?_⟩
  intro x hx
  obtain ⟨p, hp, rfl⟩ := List.mem_map.mp hx
  exact capital_exported _ (hw p hp).1 (hw p hp).2

def fieldsOf (ins : List Part) : Option (List (List Str)) :=
  (genAST ⟨none, 9, 9⟩ bodyCode (bodyDef ins [])).map fun fs => fs.map fun f => f.body.sent.map (·.1)

example : fieldsOf [typed b!"type" b!"int", typed b!"B_2" b!"int", typed b!"userName" b!"int"] = some [[b!"Type", b!"B_2", b!"UserName"]] ∧
    (∀ p ∈ [typed b!"type" b!"int", typed b!"B_2" b!"int", typed b!"userName" b!"int"], ∀ c ∈ p.name, IsWord c) ∧
    ([typed b!"type" b!"int", typed b!"B_2" b!"int", typed b!"userName" b!"int"].map fun p => capital p.name).Nodup := by
  decide +kernel

/-- C115 is false of the code: parts a and A give two fields of the same name, the field for a part with a hyphen or a period in its name is not
an identifier, and the field for a part that begins with an underscore is not exported, so that it is not sent. -/
theorem C115_fields_refuted :
    fieldsOf [typed b!"a" b!"int", typed b!"A" b!"int"] = some [[b!"A", b!"A"]] ∧
    fieldsOf [typed b!"user-name" b!"int", typed b!"v1.2" b!"int"] = some [[b!"User-Name", b!"V1.2"]] ∧ ¬ Exported b!"User-Name" ∧ ¬ Exported b!"V1.2" ∧
    fieldsOf [typed b!"_a" b!"int"] = some [[b!"_a"]] ∧ ¬ Exported b!"_a" := by
  refine ⟨by decide +kernel, by decide +kernel, ?_, ?_, by decide +kernel, ?_⟩
  · exact fun h => absurd (h.2 45 (by decide)) (by decide)
  · exact fun h => absurd (h.2 46 (by decide)) (by decide)
  · rintro ⟨⟨c, hc, h1, h2⟩, -⟩
    cases hc
    revert h2
    decide

end GoXml.Wsdl
