import Verif.Proofs.XsdDecls
set_option autoImplicit false

/-! Properties C81 to C86: declarations of simple types, complex types, attributes and elements. -/

namespace GoXml.Xsd
open Wsdl (attrNamed allNamed denoted refersTo searchEl)

/-! ### C81 -/

/-- C81: enumerated values are kept, in document order, and lengths and digits are those written. -/
theorem C81_facets (env : ParseEnv) (base : Ty) (root : Element) (r : Restriction) (h : parseSimpleRestriction env base root = some r) :
    r.enum = facetValues root [b!"enumeration"] ∧
    NumberFacet (facetValues root [b!"length"]) r.length ∧
    NumberFacet (facetValues root [b!"minLength"]) r.minLength ∧
    NumberFacet (facetValues root [b!"maxLength"]) r.maxLength ∧
    NumberFacet (facetValues root [b!"totalDigits"]) r.totalDigits ∧
    NumberFacet (facetValues root [b!"fractionDigits"]) r.precision ∧ 0 ≤ r.precision := by
  refine ⟨?_, ?_, ?_, ?_, ?_, ?_, ?_⟩
  · have := restriction_proj env base root r (·.enum) (fun t e => if e.name.loc ∈ [b!"enumeration"] then t ++ [attrNamed e b!"value"] else t)
      (fun _ _ => rfl) (by facets) h
    rw [foldl_collect [b!"enumeration"] (fun e => [attrNamed e b!"value"])] at this
    rw [this]
    simp only [List.nil_append, facetValues, kidsNamed]
    exact (List.map_eq_flatMap).symm
  · exact number_facet env base root r _ (·.length) (fun _ _ => rfl) rfl (by facets) (by facetInt) h
  · exact number_facet env base root r _ (·.minLength) (fun _ _ => rfl) rfl (by facets) (by facetInt) h
  · exact number_facet env base root r _ (·.maxLength) (fun _ _ => rfl) rfl (by facets) (by facetInt) h
  · exact number_facet env base root r _ (·.totalDigits) (fun _ _ => rfl) rfl (by facets) (by facetInt) h
  · exact number_facet env base root r _ (·.precision) (fun _ _ => rfl) rfl (by facets) (by facetInt) h
  · unfold parseSimpleRestriction at h
    rw [Option.map_eq_some_iff] at h
    obtain ⟨s, h, rfl⟩ := h
    refine walkFold_keeps _ (fun s : Restriction × Str => 0 ≤ s.1.precision) ?_ _ _ _ (by decide) h
    intro s e s' h0 h
    rcases step_cases h with ⟨hk, rfl⟩ | ⟨hk | hk, d, hd, rfl⟩ | ⟨hk | hk, d, hd, rfl⟩ | ⟨hk, n, hn, rfl⟩ | ⟨hk, n, hn, rfl⟩ |
      ⟨hk, n, hn, rfl⟩ | ⟨hk, rfl⟩ | ⟨hk, n, hn, h1, rfl⟩ | ⟨hk, d, hd, rfl⟩ | ⟨hk, n, hn, rfl⟩ | ⟨hk, rfl⟩ <;>
      first | exact h1 | exact h0

/-- A restriction for the examples. -/
def facetsOf (l : List (Str × Str)) : Element :=
  .mk ⟨w3cSchemaNS, b!"restriction"⟩ [] [] [] (l.map fun f => .mk ⟨w3cSchemaNS, f.1⟩ [⟨⟨[], b!"value"⟩, f.2⟩] [] [] [])

example (env : ParseEnv) : ∃ r, parseSimpleRestriction env (.builtin 38)
      (facetsOf [(b!"enumeration", b!"a"), (b!"maxLength", b!" 3 "), (b!"enumeration", b!"b")]) = some r ∧
    r.enum = [b!"a", b!"b"] ∧ r.maxLength = 3 := ⟨_, rfl, rfl, rfl⟩

/-- C81, partial: bounds are those written, as dates for types of dates, unless they are a time for a type that is
not built in. -/
theorem C81_bounds_partial (env : ParseEnv) (base : Ty) (root : Element) (r : Restriction)
    (hl : ∀ v ∈ facetValues root [b!"minExclusive", b!"minInclusive"] ++ facetValues root [b!"maxExclusive", b!"maxInclusive"],
      ∀ n, base = .link n → env.isDate v = true ∨ env.isDateTime v = false)
    (h : parseSimpleRestriction env base root = some r) :
    Bound env base (facetValues root [b!"minExclusive", b!"minInclusive"]) r.minDate r.min ∧
    Bound env base (facetValues root [b!"maxExclusive", b!"maxInclusive"]) r.maxDate r.max := by
  constructor
  · refine bound_facet env base root r _ _ (fun r => (r.minDate, r.min)) (fun _ _ => rfl) rfl ?_ ?_
      (fun v hv => hl v (List.mem_append_left _ hv)) h
    · intro s e s' h
      rcases step_cases h with ⟨hk, rfl⟩ | ⟨hk | hk, d, hd, rfl⟩ | ⟨hk | hk, d, hd, rfl⟩ | ⟨hk, n, hn, rfl⟩ | ⟨hk, n, hn, rfl⟩ |
        ⟨hk, n, hn, rfl⟩ | ⟨hk, rfl⟩ | ⟨hk, n, hn, h1, rfl⟩ | ⟨hk, d, hd, rfl⟩ | ⟨hk, n, hn, rfl⟩ | ⟨hk, rfl⟩
      all_goals first
        | (rw [hk, if_neg (by decide)]; done)
        | (rw [hk, if_pos (by decide), hd]; rfl)
        | (rw [if_neg]
           intro hm
           apply hk
           rcases List.mem_pair.mp hm with hm | hm <;> (rw [hm]; decide))
    · intro s e s' hm h
      have h1 : e.name.loc = b!"minExclusive" ∨ e.name.loc = b!"minInclusive" := List.mem_pair.mp hm
      unfold restrictionStep at h
      dsimp only at h
      rw [if_neg (by rcases h1 with h1 | h1 <;> (rw [h1]; decide)), if_pos h1, Option.map_eq_some_iff] at h
      obtain ⟨d, hd, _⟩ := h
      exact ⟨d, hd⟩
  · refine bound_facet env base root r _ _ (fun r => (r.maxDate, r.max)) (fun _ _ => rfl) rfl ?_ ?_
      (fun v hv => hl v (List.mem_append_right _ hv)) h
    · intro s e s' h
      rcases step_cases h with ⟨hk, rfl⟩ | ⟨hk | hk, d, hd, rfl⟩ | ⟨hk | hk, d, hd, rfl⟩ | ⟨hk, n, hn, rfl⟩ | ⟨hk, n, hn, rfl⟩ |
        ⟨hk, n, hn, rfl⟩ | ⟨hk, rfl⟩ | ⟨hk, n, hn, h1, rfl⟩ | ⟨hk, d, hd, rfl⟩ | ⟨hk, n, hn, rfl⟩ | ⟨hk, rfl⟩
      all_goals first
        | (rw [hk, if_neg (by decide)]; done)
        | (rw [hk, if_pos (by decide), hd]; rfl)
        | (rw [if_neg]
           intro hm
           apply hk
           rcases List.mem_pair.mp hm with hm | hm <;> (rw [hm]; decide))
    · intro s e s' hm h
      have h1 : e.name.loc = b!"maxExclusive" ∨ e.name.loc = b!"maxInclusive" := List.mem_pair.mp hm
      unfold restrictionStep at h
      dsimp only at h
      rw [if_neg (by rcases h1 with h1 | h1 <;> (rw [h1]; decide)), if_neg (by rcases h1 with h1 | h1 <;> (rw [h1]; decide)), if_pos h1,
        Option.map_eq_some_iff] at h
      obtain ⟨d, hd, _⟩ := h
      exact ⟨d, hd⟩

/-- What `ParseFloat` and `time.Parse` accept in the examples. -/
def boundEnv : ParseEnv where
  annotation _ := some []
  compileError p := if p = b!"[a-z]|\\i" then some b!"bad escape" else none
  isFloat s := decide (s = b!"1.5")
  isDate s := decide (s = b!"2020-01-01")
  isDateTime s := decide (s = b!"2020-01-01T00:00:00Z")

example : (∀ v ∈ facetValues (facetsOf [(b!"minInclusive", b!"2020-01-01")]) [b!"minExclusive", b!"minInclusive"] ++
      facetValues (facetsOf [(b!"minInclusive", b!"2020-01-01")]) [b!"maxExclusive", b!"maxInclusive"],
      ∀ n, Ty.link ⟨[], b!"day"⟩ = .link n → boundEnv.isDate v = true ∨ boundEnv.isDateTime v = false) ∧
    ((parseSimpleRestriction boundEnv (.link ⟨[], b!"day"⟩) (facetsOf [(b!"minInclusive", b!"2020-01-01")])).map fun r => r.minDate) =
      some b!"2020-01-01" := by
  refine ⟨?_, by decide⟩
  intro v hv n _
  have : v = b!"2020-01-01" := by
    have h2 : facetValues (facetsOf [(b!"minInclusive", b!"2020-01-01")]) [b!"minExclusive", b!"minInclusive"] ++
      facetValues (facetsOf [(b!"minInclusive", b!"2020-01-01")]) [b!"maxExclusive", b!"maxInclusive"] = [b!"2020-01-01"] := by decide
    rw [h2] at hv
    simpa using hv
  subst this
  exact Or.inl (by decide)

/-- C81 is false: a time as a bound of a type derived from one that is not built in is accepted and lost. -/
theorem C81_bounds_refuted :
    ((parseSimpleRestriction boundEnv (.link ⟨[], b!"moment"⟩) (facetsOf [(b!"minInclusive", b!"2020-01-01T00:00:00Z")])).map
      fun r => (r.minDate, r.min)) = some ([], []) := by decide

/-- C81, partial: the pattern is the alternation of the patterns written, if all of them can be compiled. -/
theorem C81_pattern_partial (env : ParseEnv) (base : Ty) (root : Element) (r : Restriction)
    (hc : ∀ vs, vs <+: facetValues root [b!"pattern"] → env.compileError (List.intercalate b!"|" vs) = none)
    (h : parseSimpleRestriction env base root = some r) :
    r.pattern = if facetValues root [b!"pattern"] = [] then none else some (List.intercalate b!"|" (facetValues root [b!"pattern"])) := by
  have hp := restriction_proj env base root r (·.pattern)
    (fun t e => if e.name.loc ∈ [b!"pattern"] then (parsePatternFacet env t [] (attrNamed e b!"value")).1 else t) (fun _ _ => rfl) (by
      intro s e s' h
      rcases step_cases h with ⟨hk, rfl⟩ | ⟨hk | hk, d, hd, rfl⟩ | ⟨hk | hk, d, hd, rfl⟩ | ⟨hk, n, hn, rfl⟩ | ⟨hk, n, hn, rfl⟩ |
        ⟨hk, n, hn, rfl⟩ | ⟨hk, rfl⟩ | ⟨hk, n, hn, h1, rfl⟩ | ⟨hk, d, hd, rfl⟩ | ⟨hk, n, hn, rfl⟩ | ⟨hk, rfl⟩
      all_goals first
        | (rw [hk, if_neg (by decide)]; done)
        | (rw [hk, if_pos (by decide)]; exact pattern_fst env _ _ _ _)
        | (rw [if_neg]
           intro hm
           apply hk
           rw [List.mem_singleton.mp hm]; decide)) h
  rw [foldl_kids [b!"pattern"] (fun t e => (parsePatternFacet env t [] (attrNamed e b!"value")).1)] at hp
  rw [hp]
  have hv : facetValues root [b!"pattern"] = (kidsNamed root [b!"pattern"]).map fun c => attrNamed c b!"value" := rfl
  rw [← List.foldl_map (f := fun c => attrNamed c b!"value") (g := fun t v => (parsePatternFacet env t [] v).1)]
  have hk : ((root.children.filter fun c => decide (c.name.space = w3cSchemaNS ∧ c.name.loc ∈ [b!"pattern"])).map fun c => attrNamed c b!"value") =
    facetValues root [b!"pattern"] := rfl
  rw [hk]
  generalize facetValues root [b!"pattern"] = vs at hc
  clear hk hv hp
  induction vs using List.reverseRecOn with
  | nil => rfl
  | append_singleton vs v ih =>
    rw [List.foldl_append, ih fun ws hw => hc ws (hw.trans (List.prefix_append _ _)), List.foldl_cons, List.foldl_nil]
    have hall := hc (vs ++ [v]) (List.prefix_refl _)
    rw [if_neg (by simp : ¬ vs ++ [v] = [])]
    by_cases hn : vs = []
    · subst hn
      simp only [if_true, List.nil_append] at hall ⊢
      rw [show List.intercalate b!"|" [v] = v by simp [List.intercalate]] at hall ⊢
      unfold parsePatternFacet
      dsimp only
      rw [hall]
    · rw [if_neg hn]
      rw [intercalate_append _ _ _ hn] at hall ⊢
      unfold parsePatternFacet
      dsimp only
      rw [hall]

example : (∀ vs, vs <+: facetValues (facetsOf [(b!"pattern", b!"a"), (b!"pattern", b!"b")]) [b!"pattern"] →
      boundEnv.compileError (List.intercalate b!"|" vs) = none) ∧
    ((parseSimpleRestriction boundEnv (.builtin 38) (facetsOf [(b!"pattern", b!"a"), (b!"pattern", b!"b")])).map fun r => r.pattern) =
      some (some b!"a|b") := by
  refine ⟨?_, by decide⟩
  intro vs hvs
  have h2 : facetValues (facetsOf [(b!"pattern", b!"a"), (b!"pattern", b!"b")]) [b!"pattern"] = [b!"a", b!"b"] := by decide
  rw [h2] at hvs
  rcases vs with _ | ⟨x, _ | ⟨y, _ | ⟨z, vs⟩⟩⟩
  · decide
  · obtain ⟨rfl, _⟩ := by simpa using hvs
    decide
  · obtain ⟨rfl, rfl⟩ := by simpa using hvs
    decide
  · simp at hvs

/-- C81 is false: a pattern that Go's regular expressions do not have makes the others disappear. -/
theorem C81_pattern_refuted :
    ((parseSimpleRestriction boundEnv (.builtin 38) (facetsOf [(b!"pattern", b!"[a-z]"), (b!"pattern", b!"\\i")])).map fun r => r.pattern) =
      some none := by decide

/-- C81: parsing fails exactly if one of the facets cannot be read. -/
theorem C81_fails_iff (env : ParseEnv) (base : Ty) (root : Element) :
    parseSimpleRestriction env base root = none ↔ ∃ c ∈ root.children, c.name.space = w3cSchemaNS ∧ BadFacet env base c := by
  unfold parseSimpleRestriction
  rw [Option.map_eq_none_iff]
  exact walkFold_none _ (BadFacet env base) (fun s e _ => step_none env base s e) _ _

/-! ### C82 -/

/-- C82: the name of a simpleType, whether it is a list, and the member types of its unions. -/
theorem C82_simple (env : ParseEnv) (ns : Str) (root : Element) (t : SimpleT) (h : parseSimpleType env ns root = some t) :
    t.name = Wsdl.defines ns root ∧
    (t.anonymous = true ↔ attrNamed root b!"_isAnonymous" = b!"true") ∧
    (t.list = true ↔ kidsNamed root [b!"list"] ≠ []) ∧
    ∃ tss, List.Forall₂ MemberTypes (kidsNamed root [b!"union"]) tss ∧ t.union = tss.flatten := by
  unfold parseSimpleType at h
  rw [Wsdl.resolveDefault_eq, Wsdl.attr_eq, Option.map_eq_some_iff] at h
  obtain ⟨s, h, rfl⟩ := h
  refine ⟨?_, ?_, ?_, ?_⟩
  · refine walkFold_keeps _ (fun s : SimpleT × Str => s.1.name = Wsdl.defines ns root) ?_ _ _ _ rfl h
    intro s e s' h0 h
    rcases simple_cases h with ⟨_, r, _, rfl⟩ | ⟨_, rfl⟩ | ⟨_, rfl⟩ | ⟨_, d, rfl⟩ | ⟨_, rfl⟩ <;> exact h0
  · refine walkFold_keeps _ (fun s : SimpleT × Str => s.1.anonymous = true ↔ attrNamed root b!"_isAnonymous" = b!"true") ?_ _ _ _ (by simp) h
    intro s e s' h0 h
    rcases simple_cases h with ⟨_, r, _, rfl⟩ | ⟨_, rfl⟩ | ⟨_, rfl⟩ | ⟨_, d, rfl⟩ | ⟨_, rfl⟩ <;> exact h0
  · have hp := walkFold_proj _ (fun s : SimpleT × Str => s.1.list) (fun t e => if e.name.loc ∈ [b!"list"] then true else t) (by
      intro s e s' _ h
      rcases simple_cases h with ⟨hk, r, _, rfl⟩ | ⟨hk, rfl⟩ | ⟨hk, rfl⟩ | ⟨hk, d, rfl⟩ | ⟨hk, rfl⟩
      · rw [hk, if_neg (by decide)]
      · rw [hk, if_pos (by decide)]
      · dsimp only
        rw [hk]
        exact (if_neg (by decide)).symm
      · rw [hk, if_neg (by decide)]
      · rw [if_neg]
        intro hm
        apply hk
        rw [List.mem_singleton.mp hm]
        decide) _ _ _ h
    rw [foldl_last [b!"list"] (fun _ => true)] at hp
    dsimp only at hp ⊢
    rw [hp]
    have : (root.children.filter fun c => decide (c.name.space = w3cSchemaNS ∧ c.name.loc ∈ [b!"list"])) = kidsNamed root [b!"list"] := rfl
    rw [this]
    cases hl : (kidsNamed root [b!"list"]).getLast? with
    | none => simp [List.getLast?_eq_none_iff.mp hl]
    | some c =>
      have : kidsNamed root [b!"list"] ≠ [] := by
        intro h0; rw [h0] at hl; cases hl
      simp [this]
  · have hp := walkFold_proj _ (fun s : SimpleT × Str => s.1.union)
      (fun t e => if e.name.loc ∈ [b!"union"] then t ++ (fields (attrNamed e b!"memberTypes")).map fun n => parseType (denoted e.scope n) else t) (by
      intro s e s' _ h
      rcases simple_cases h with ⟨hk, r, _, rfl⟩ | ⟨hk, rfl⟩ | ⟨hk, rfl⟩ | ⟨hk, d, rfl⟩ | ⟨hk, rfl⟩
      · rw [hk, if_neg (by decide)]
      · rw [hk, if_neg (by decide)]
      · dsimp only
        rw [hk]
        exact (if_pos (by decide)).symm
      · dsimp only
        rw [hk]
        exact (if_neg (by decide)).symm
      · rw [if_neg]
        intro hm
        apply hk
        rw [List.mem_singleton.mp hm]
        decide) _ _ _ h
    rw [foldl_collect [b!"union"] (fun e => (fields (attrNamed e b!"memberTypes")).map fun n => parseType (denoted e.scope n))] at hp
    refine ⟨(kidsNamed root [b!"union"]).map fun e => (fields (attrNamed e b!"memberTypes")).map fun n => parseType (denoted e.scope n), ?_, ?_⟩
    · rw [List.forall₂_map_right_iff, List.forall₂_same]
      intro u _
      exact memberTypes_fields u
    · dsimp only at hp ⊢
      rw [hp, List.nil_append, List.flatMap_def]
      rfl

/-- C82: the base of a simpleType with one definition. -/
theorem C82_base (env : ParseEnv) (ns : Str) (root el : Element) (t : SimpleT) (hk : schemaKids root = [el])
    (h : parseSimpleType env ns root = some t) :
    (el.name.loc = b!"restriction" → ∃ b, t.base = some b ∧ Named (refersTo el b!"base") b ∧
      parseSimpleRestriction env b el = some t.restriction) ∧
    (el.name.loc = b!"list" → ∃ b, t.base = some b ∧ Named (refersTo el b!"itemType") b ∧ t.restriction = {}) ∧
    (el.name.loc = b!"union" → t.restriction = {} ∧ t.base = if t.union = [] then none else some (.builtin 49)) := by
  unfold parseSimpleType at h
  rw [Option.map_eq_some_iff] at h
  obtain ⟨r, h, rfl⟩ := h
  obtain ⟨s1, s2, e1, h1, e2⟩ := walkFold_one _ (fun s : SimpleT × Str => s.1) el (by
      intro s e s' _ ha hf
      unfold simpleStep at hf
      rw [if_neg (by rw [ha]; decide), if_neg (by rw [ha]; decide), if_neg (by rw [ha]; decide), if_pos ha, Option.map_eq_some_iff] at hf
      obtain ⟨d, _, rfl⟩ := hf
      rfl) root.children _ r hk h
  dsimp only at e1 e2 ⊢
  rw [e2]
  rcases simple_cases h1 with ⟨hl, x, hx, rfl⟩ | ⟨hl, rfl⟩ | ⟨hl, rfl⟩ | ⟨hl, d, rfl⟩ | ⟨hl, rfl⟩
  · refine ⟨fun _ => ⟨_, rfl, parseType_named _, hx⟩, fun hl' => ?_, fun hl' => ?_⟩ <;>
      (rw [hl] at hl'; exact absurd hl' (by decide))
  · refine ⟨fun hl' => ?_, fun _ => ⟨_, rfl, parseType_named _, ?_⟩, fun hl' => ?_⟩
    · rw [hl] at hl'; exact absurd hl' (by decide)
    · dsimp only; rw [e1]
    · rw [hl] at hl'; exact absurd hl' (by decide)
  · refine ⟨fun hl' => ?_, fun hl' => ?_, fun _ => ⟨?_, ?_⟩⟩
    · rw [hl] at hl'; exact absurd hl' (by decide)
    · rw [hl] at hl'; exact absurd hl' (by decide)
    · dsimp only; rw [e1]
    · dsimp only; rw [e1]; rfl
  · refine ⟨fun hl' => ?_, fun hl' => ?_, fun hl' => ?_⟩ <;> (rw [hl] at hl'; exact absurd hl' (by decide))
  · refine ⟨fun hl' => ?_, fun hl' => ?_, fun hl' => ?_⟩ <;> exact absurd (by rw [hl']; decide) hl

example : let el : Element := .mk ⟨w3cSchemaNS, b!"union"⟩ [⟨⟨[], b!"memberTypes"⟩, b!" xs:int\n xs:token "⟩] [⟨w3cSchemaNS, b!"xs"⟩] [] []
    let root : Element := .mk ⟨w3cSchemaNS, b!"simpleType"⟩ [⟨⟨[], b!"name"⟩, b!"u"⟩] [] [] [el]
    schemaKids root = [el] ∧ (parseSimpleType boundEnv b!"urn:x" root).map (fun t => (t.name, t.union, t.base)) =
      some (⟨b!"urn:x", b!"u"⟩, [.builtin 28, .builtin 40], some (.builtin 49)) := by
  exact ⟨rfl, by decide +kernel⟩

/-! ### C83 -/

/-- C83: a complexType with complex content has the name, base, kind of derivation, flags and attributes written. -/
theorem C83_complex (env : ParseEnv) (ns : Str) (root cc el : Element) (t : ComplexT) (hr : schemaKids root = [cc])
    (hcc : cc.name.loc = b!"complexContent") (hk : schemaKids cc = [el])
    (hel : el.name.loc = b!"extension" ∨ el.name.loc = b!"restriction") (h : parseComplexType env ns root = some t) :
    t.name = Wsdl.defines ns root ∧ (t.anonymous = true ↔ attrNamed root b!"_isAnonymous" = b!"true") ∧
    BoolText (attrNamed root b!"abstract") t.abstract ∧
    BoolText (if attrNamed cc b!"mixed" ≠ [] then attrNamed cc b!"mixed" else attrNamed root b!"mixed") t.mixed ∧
    (∃ b, t.base = some b ∧ Named (refersTo el b!"base") b) ∧ (t.extends_ = true ↔ el.name.loc = b!"extension") ∧
    List.Forall₂ (fun v a => parseAttribute env ns v = some a) (allNamed el w3cSchemaNS b!"attribute") t.attributes := by
  unfold parseComplexType at h
  rw [Wsdl.resolveDefault_eq] at h
  simp only [Wsdl.attr_eq] at h
  split at h
  · rename_i abs mixed habs hmixed
    rw [Option.map_eq_some_iff] at h
    obtain ⟨r, h, rfl⟩ := h
    obtain ⟨s1, s2, e1, h1, e2⟩ := walkFold_one _ (fun s : ComplexT × Str => s.1) cc (by
      intro s e s' _ ha hf
      rw [if_pos ha, Option.map_eq_some_iff] at hf
      obtain ⟨d, _, rfl⟩ := hf
      rfl) root.children _ r hr h
    simp only [hcc] at h1
    rw [if_neg (by decide), if_neg (by decide), if_pos trivial, Option.map_eq_some_iff] at h1
    obtain ⟨t1, h1, rfl⟩ := h1
    dsimp only at e1 e2
    rw [e1] at h1
    unfold parseComplexContent at h1
    simp only [Wsdl.attr_eq] at h1
    split at h1
    · cases h1
    · rename_i mx hmx
      rw [Option.map_eq_some_iff] at h1
      obtain ⟨r2, h1, rfl⟩ := h1
      obtain ⟨s3, s4, e3, h3, e4⟩ := walkFold_one _ (fun s : ComplexT × Str => s.1) el (by
        intro s e s' _ ha hf
        rw [if_neg (by rw [ha]; decide), if_neg (by rw [ha]; decide), if_pos ha, Option.map_eq_some_iff] at hf
        obtain ⟨d, _, rfl⟩ := hf
        rfl) cc.children _ r2 hk h1
      dsimp only at e3 e4
      have hd : ∃ ext t4, complexDerivation env ns ext s3.1 el = some t4 ∧ s4.1 = t4 ∧ (ext = true ↔ el.name.loc = b!"extension") := by
        rcases hel with hel | hel
        · rw [if_pos hel, Option.map_eq_some_iff] at h3
          obtain ⟨t4, h3, rfl⟩ := h3
          exact ⟨_, _, h3, rfl, by simp [hel]⟩
        · rw [if_neg (by rw [hel]; decide), if_pos hel, Option.map_eq_some_iff] at h3
          obtain ⟨t4, h3, rfl⟩ := h3
          refine ⟨_, _, h3, rfl, ?_⟩
          rw [hel]
          decide
      obtain ⟨ext, t4, hd, hs4, hext⟩ := hd
      unfold complexDerivation at hd
      rw [Wsdl.refersTo_eq] at hd
      split at hd
      · cases hd
      · split at hd
        · cases hd
        · split at hd
          · cases hd
          · rename_i attrs hattrs
            have ht4 := Option.some.inj hd
            rw [e2, e4, hs4, ← ht4, e3]
            dsimp only
            refine ⟨rfl, by simp, (parseBool_iff _ _).mp habs, ?_, ⟨_, rfl, parseType_named _⟩, ?_, ?_⟩
            · by_cases hm : attrNamed cc b!"mixed" = []
              · rw [if_neg (by simp [hm])] at hmx ⊢
                have := Option.some.inj hmx
                rw [← this]
                exact (parseBool_iff _ _).mp hmixed
              · rw [if_pos hm] at hmx ⊢
                exact (parseBool_iff _ _).mp hmx
            · rw [Bool.false_or]; exact hext
            · rw [List.nil_append]
              rw [Wsdl.searchEl_eq _ _ _ (by decide)] at hattrs
              exact mapOpt_forall₂ hattrs
  · cases h

example :
    let el : Element := .mk ⟨w3cSchemaNS, b!"extension"⟩ [⟨⟨[], b!"base"⟩, b!"b"⟩] [] [] [
      .mk ⟨w3cSchemaNS, b!"attribute"⟩ [⟨⟨[], b!"name"⟩, b!"id"⟩] [] [] []]
    let cc : Element := .mk ⟨w3cSchemaNS, b!"complexContent"⟩ [⟨⟨[], b!"mixed"⟩, b!"true"⟩] [] [] [el]
    let root : Element := .mk ⟨w3cSchemaNS, b!"complexType"⟩ [⟨⟨[], b!"name"⟩, b!"t"⟩] [] [] [cc]
    schemaKids root = [cc] ∧ schemaKids cc = [el] ∧
    (parseComplexType boundEnv b!"urn:x" root).map (fun t => (t.mixed, t.extends_, t.base, t.attributes.map (·.name.loc))) =
      some (true, true, some (.link ⟨[], b!"b"⟩), [b!"id"]) := by
  exact ⟨rfl, rfl, by decide +kernel⟩

/-- C83, partial: likewise for simple content; but the attributes of a restriction are not kept. -/
theorem C83_simple_partial (env : ParseEnv) (ns : Str) (root el : Element) (t : ComplexT) (hm : SimpleModel root el)
    (h : parseComplexType env ns root = some t) :
    t.name = Wsdl.defines ns root ∧ (t.anonymous = true ↔ attrNamed root b!"_isAnonymous" = b!"true") ∧
    BoolText (attrNamed root b!"abstract") t.abstract ∧ t.mixed = true ∧ t.elements = [] ∧
    (∃ b, t.base = some b ∧ Named (refersTo el b!"base") b) ∧ (t.extends_ = true ↔ el.name.loc = b!"extension") ∧
    (el.name.loc = b!"extension" →
      List.Forall₂ (fun v a => parseAttribute env ns v = some a) (allNamed el w3cSchemaNS b!"attribute") t.attributes) := by
  obtain ⟨sc, hr, hsc, hk, hel⟩ := hm
  unfold parseComplexType at h
  rw [Wsdl.resolveDefault_eq] at h
  simp only [Wsdl.attr_eq] at h
  split at h
  · rename_i abs mixed habs hmixed
    rw [Option.map_eq_some_iff] at h
    obtain ⟨r, h, rfl⟩ := h
    obtain ⟨s1, s2, e1, h1, e2⟩ := walkFold_one _ (fun s : ComplexT × Str => s.1) sc (by
      intro s e s' _ ha hf
      rw [if_pos ha, Option.map_eq_some_iff] at hf
      obtain ⟨d, _, rfl⟩ := hf
      rfl) root.children _ r hr h
    simp only [hsc] at h1
    rw [if_neg (by decide), if_pos trivial, Option.map_eq_some_iff] at h1
    obtain ⟨t1, h1, rfl⟩ := h1
    dsimp only at e1 e2
    rw [e1] at h1
    unfold parseSimpleContent at h1
    rw [Option.map_eq_some_iff] at h1
    obtain ⟨r2, h1, rfl⟩ := h1
    obtain ⟨s3, s4, e3, h3, e4⟩ := walkFold_one _ (fun s : ComplexT × Str => s.1) el (by
      intro s e s' _ ha hf
      rw [if_pos ha, Option.map_eq_some_iff] at hf
      obtain ⟨d, _, rfl⟩ := hf
      rfl) sc.children _ r2 hk h1
    dsimp only at e3 e4
    rw [Wsdl.refersTo_eq] at h3
    rcases hel with hel | hel
    · rw [if_neg (by rw [hel]; decide), if_neg (by rw [hel]; decide), if_pos hel, Option.map_eq_some_iff] at h3
      obtain ⟨as, has, rfl⟩ := h3
      rw [e2, e4]
      dsimp only
      rw [e3]
      refine ⟨rfl, by simp, (parseBool_iff _ _).mp habs, rfl, rfl, ⟨_, rfl, parseType_named _⟩, by simp [hel], fun _ => ?_⟩
      dsimp only
      rw [List.nil_append]
      rw [Wsdl.searchEl_eq _ _ _ (by decide)] at has
      exact mapOpt_forall₂ has
    · rw [if_neg (by rw [hel]; decide), if_pos hel] at h3
      cases h3
      rw [e2, e4]
      dsimp only
      rw [e3]
      refine ⟨rfl, by simp, (parseBool_iff _ _).mp habs, rfl, rfl, ⟨_, rfl, parseType_named _⟩, ?_, ?_⟩
      · dsimp only; rw [hel]; decide
      · intro h; rw [hel] at h; exact absurd h (by decide)
  · cases h

/-- A complexType whose simple content is derived with one attribute. -/
def simpleDerived (kind : Str) : Element :=
  .mk ⟨w3cSchemaNS, b!"complexType"⟩ [⟨⟨[], b!"name"⟩, b!"price"⟩] [] [] [
    .mk ⟨w3cSchemaNS, b!"simpleContent"⟩ [] [] [] [
      .mk ⟨w3cSchemaNS, kind⟩ [⟨⟨[], b!"base"⟩, b!"xs:decimal"⟩] [⟨w3cSchemaNS, b!"xs"⟩] [] [
        .mk ⟨w3cSchemaNS, b!"attribute"⟩ [⟨⟨[], b!"name"⟩, b!"currency"⟩, ⟨⟨[], b!"use"⟩, b!"required"⟩] [] [] []]]]

example : (∃ el, SimpleModel (simpleDerived b!"extension") el) ∧
    ((parseComplexType boundEnv b!"urn:x" (simpleDerived b!"extension")).map fun t => (t.attributes.map (·.name.loc), t.base, t.extends_)) =
      some ([b!"currency"], some (.builtin 18), true) :=
  ⟨⟨_, _, rfl, rfl, rfl, Or.inl rfl⟩, by decide +kernel⟩

/-- C83 is false: attributes declared in a restriction of simple content are dropped. -/
theorem C83_attributes_refuted :
    ((parseComplexType boundEnv b!"urn:x" (simpleDerived b!"restriction")).map fun t => t.attributes) = some [] := by decide +kernel

/-! ### C84 -/

/-- C84, partial: an attribute is optional unless required, and its type and default are those written. -/
theorem C84_attribute_partial (env : ParseEnv) (ns : Str) (el : Element) (a : XAttr) (h : parseAttribute env ns el = some a) :
    (a.optional = false ↔ attrNamed el b!"use" = b!"required") ∧ a.dflt = attrNamed el b!"default" ∧
    Named (refersTo el b!"type") a.type ∧ ((58 : UInt8) ∉ attrNamed el b!"name" → a.name = ⟨ns, attrNamed el b!"name"⟩) := by
  unfold parseAttribute at h
  split at h
  · cases h
  · cases h
    refine ⟨?_, Wsdl.attr_eq _ _, ?_, ?_⟩
    · simp [Wsdl.attr_eq]
    · rw [← Wsdl.refersTo_eq]; exact parseType_named _
    · intro hn
      simp only [Wsdl.attr_eq]
      have hc : colon = 58 := rfl
      rw [hc, if_neg hn]

example : parseAttribute boundEnv b!"urn:x" (.mk ⟨w3cSchemaNS, b!"attribute"⟩ [⟨⟨[], b!"name"⟩, b!"id"⟩] [] [] []) ≠ none := by decide

/-- C84 is false: an attribute that a restriction prohibits is one of the attributes of the type. -/
theorem C84_prohibited_refuted :
    ((parseComplexType boundEnv b!"urn:x" (.mk ⟨w3cSchemaNS, b!"complexType"⟩ [⟨⟨[], b!"name"⟩, b!"plain"⟩] [] [] [
      .mk ⟨w3cSchemaNS, b!"complexContent"⟩ [] [] [] [
        .mk ⟨w3cSchemaNS, b!"restriction"⟩ [⟨⟨[], b!"base"⟩, b!"fancy"⟩] [] [] [
          .mk ⟨w3cSchemaNS, b!"attribute"⟩ [⟨⟨[], b!"name"⟩, b!"colour"⟩, ⟨⟨[], b!"use"⟩, b!"prohibited"⟩] [] [] []]]])).map
      fun t => t.attributes.map fun a => (a.name.loc, a.optional)) = some [(b!"colour", true)] := by decide +kernel

/-- C84 is false: attributes that are not qualified have the target namespace. -/
theorem C84_namespace_refuted :
    ((parseAttribute boundEnv b!"urn:x" (.mk ⟨w3cSchemaNS, b!"attribute"⟩ [⟨⟨[], b!"name"⟩, b!"id"⟩, ⟨⟨[], b!"form"⟩, b!"unqualified"⟩]
      [] [] [])).map fun a => a.name) = some ⟨b!"urn:x", b!"id"⟩ := by decide

/-! ### C85 -/

/-- C85, partial: an element of a built-in type has the name written, in the target namespace. -/
theorem C85_name_partial (env : ParseEnv) (ns : Str) (el : Element) (e : XElem) (h : parseElement env ns el = some e)
    (ht : attrNamed el b!"type" = [] ∨ ∃ b, Named (refersTo el b!"type") (.builtin b)) : e.name = Wsdl.defines ns el := by
  unfold parseElement at h
  rw [Wsdl.resolveDefault_eq, Wsdl.refersTo_eq] at h
  split at h
  · cases h
    dsimp only
    split
    · rename_i n hn
      exfalso
      split at hn
      · cases hn
      · rename_i h1
        rcases ht with ht | ⟨b, hb⟩
        · rw [Wsdl.attr_eq] at h1; exact h1 ht
        · rw [named_unique (parseType_named _) hb] at hn; cases hn
    · rfl
  · cases h

/-- C85: the local part of an element's name and its type are those written. -/
theorem C85_type (env : ParseEnv) (ns : Str) (el : Element) (e : XElem) (h : parseElement env ns el = some e) :
    e.name.loc = (Wsdl.defines ns el).loc ∧
    (attrNamed el b!"type" = [] → e.type = .builtin 0) ∧ (attrNamed el b!"type" ≠ [] → Named (refersTo el b!"type") e.type) := by
  unfold parseElement at h
  rw [Wsdl.resolveDefault_eq, Wsdl.refersTo_eq] at h
  split at h
  · cases h
    dsimp only
    refine ⟨?_, ?_, ?_⟩
    · split <;> rfl
    · intro hn; rw [if_pos (by rw [Wsdl.attr_eq]; exact hn)]; rfl
    · intro hn; rw [if_neg (by rw [Wsdl.attr_eq]; exact hn)]; exact parseType_named _
  · cases h

example : ((parseElement boundEnv b!"urn:x" (.mk ⟨w3cSchemaNS, b!"element"⟩ [⟨⟨[], b!"name"⟩, b!"home"⟩, ⟨⟨[], b!"type"⟩, b!"xs:int"⟩]
      [⟨w3cSchemaNS, b!"xs"⟩] [] [])).map fun e => (e.name, e.type)) = some (⟨b!"urn:x", b!"home"⟩, .builtin 28) := by decide +kernel

/-- C85 is false: an element whose type is from another namespace is moved into that namespace. -/
theorem C85_name_refuted :
    ((parseElement boundEnv b!"urn:x" (.mk ⟨w3cSchemaNS, b!"element"⟩ [⟨⟨[], b!"name"⟩, b!"home"⟩, ⟨⟨[], b!"type"⟩, b!"o:address"⟩]
      [⟨b!"urn:other", b!"o"⟩] [] [])).map fun e => e.name) = some ⟨b!"urn:other", b!"home"⟩ := by decide

/-! ### C86 -/

theorem findType_result (H : THeap) (name : XName) : ∀ (fuel : Nat) (t : Ty) (r : Option Ty), findType H name fuel t = some r →
    (∀ u, r = some u → xmlName H u = name ∧ OnChain H t u) ∧ (r = none → ∀ u, OnChain H t u → xmlName H u ≠ name) := by
  intro fuel
  induction fuel with
  | zero => intro t r h; cases h
  | succ fuel ih =>
    intro t r h
    rw [findType] at h
    split at h
    · rename_i hn
      cases h
      refine ⟨?_, by simp⟩
      rintro u ⟨⟩
      exact ⟨hn, .refl _⟩
    · rename_i hn
      have hstep : ∀ u, OnChain H t u → u = t ∨ ∃ b, baseOf H t = some b ∧ OnChain H b u := by
        intro u hu
        cases hu with
        | refl => exact Or.inl rfl
        | step h1 h2 h3 => exact Or.inr ⟨_, by simp [baseOf, h1, h2], h3⟩
      split at h
      · rename_i b hb
        obtain ⟨i1, i2⟩ := ih b r h
        constructor
        · intro u hu
          obtain ⟨j1, j2⟩ := i1 u hu
          refine ⟨j1, ?_⟩
          cases t with
          | builtin b => cases hb
          | link n => cases hb
          | obj id =>
            simp only [baseOf] at hb
            split at hb
            · exact .step ‹_› hb j2
            · cases hb
        · intro hr u hu
          rcases hstep u hu with rfl | ⟨b', hb', hu'⟩
          · exact hn
          · rw [hb] at hb'
            cases hb'
            exact i2 hr u hu'
      · rename_i hb
        cases h
        refine ⟨by simp, fun _ u hu => ?_⟩
        rcases hstep u hu with rfl | ⟨b', hb', hu'⟩
        · exact hn
        · rw [hb] at hb'; cases hb'

/-- C86: what `FindType` finds has the name that was asked for and is one of the types of the schema or an
ancestor of one; if it finds nothing, there is no such type. -/
theorem C86_find (H : THeap) (name : XName) (fuel : Nat) (es : List (XName × Ty)) (r : Option Ty) (h : findTypeIn H name fuel es = some r) :
    (∀ u, r = some u → xmlName H u = name ∧ ∃ e ∈ es, OnChain H e.2 u) ∧
    (r = none → ∀ e ∈ es, ∀ u, OnChain H e.2 u → xmlName H u ≠ name) := by
  induction es with
  | nil => cases h; simp
  | cons e es ih =>
    rw [findTypeIn] at h
    split at h
    · cases h
    · rename_i t ht
      cases h
      refine ⟨?_, by simp⟩
      rintro u ⟨⟩
      obtain ⟨h1, h2⟩ := (findType_result H name fuel e.2 _ ht).1 _ rfl
      exact ⟨h1, e, by simp, h2⟩
    · rename_i ht
      obtain ⟨i1, i2⟩ := ih h
      refine ⟨fun u hu => ?_, fun hr e' he' => ?_⟩
      · obtain ⟨h1, e', he', h2⟩ := i1 u hu
        exact ⟨h1, e', List.mem_cons_of_mem _ he', h2⟩
      · rcases List.mem_cons.mp he' with rfl | he'
        · exact (findType_result H name fuel _ _ ht).2 rfl
        · exact i2 hr e' he'

example : findTypeIn [.simple { name := ⟨b!"urn:x", b!"code"⟩, base := some (.builtin 38) }] ⟨w3cSchemaNS, b!"string"⟩ 3
    [(⟨b!"urn:x", b!"code"⟩, .obj 0)] = some (some (.builtin 38)) := by decide

end GoXml.Xsd
