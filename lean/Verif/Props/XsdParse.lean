import Verif.Proofs.XsdParse
set_option autoImplicit false

/-! Properties C35 and C36: element declarations in content models. -/

namespace GoXml.Xsd
open Wsdl (attrNamed allNamed searchEl)

/-! ### C36 -/

/-- C36: `Plural`. It is computed iff `minOccurs` is well-formed and, unless that is more than 1,
`maxOccurs` is well-formed too. -/
theorem C36_plural (el : Element) (p : Bool) :
    parsePlural el = some p ↔ ∃ lo, Means (attrNamed el b!"minOccurs") lo ∧
      (1 < lo ∧ p = true ∨
       lo ≤ 1 ∧ ∃ hi, Means (attrNamed el b!"maxOccurs") hi ∧ (p = true ↔ hi < 0 ∨ 1 < hi)) := by
  unfold parsePlural
  rw [Wsdl.attr_eq, Wsdl.attr_eq]
  cases h1 : parseInt (attrNamed el b!"minOccurs") with
  | none =>
    have := (parseInt_none _).mp h1
    constructor
    · intro h; cases h
    · rintro ⟨lo, h, _⟩; exact absurd h (this lo)
  | some lo =>
    simp only
    have hlo : ∀ n, Means (attrNamed el b!"minOccurs") n ↔ n = lo := by
      intro n; rw [← parseInt_iff, h1]; simp [eq_comm]
    simp only [hlo, exists_eq_left]
    by_cases hl : lo > 1
    · rw [if_pos hl]
      have : ¬ lo ≤ 1 := by omega
      simp [hl, this, eq_comm]
    · rw [if_neg hl]
      have hl' : lo ≤ 1 := by omega
      cases h2 : parseInt (attrNamed el b!"maxOccurs") with
      | none =>
        have := (parseInt_none _).mp h2
        constructor
        · intro h; cases h
        · rintro (⟨h, _⟩ | ⟨_, hi, h, _⟩)
          · omega
          · exact absurd h (this hi)
      | some hi =>
        have hhi : ∀ n, Means (attrNamed el b!"maxOccurs") n ↔ n = hi := by
          intro n; rw [← parseInt_iff, h2]; simp [eq_comm]
        have hl2 : ¬ 1 < lo := by omega
        simp only [hhi, exists_eq_left, hl', hl2, false_and, false_or, true_and, Option.some.injEq]
        rw [Bool.eq_iff_iff, decide_eq_true_iff]
        exact iff_comm

example : parsePlural (.mk ⟨w3cSchemaNS, b!"element"⟩ [⟨⟨[], b!"maxOccurs"⟩, b!" 2 "⟩] [] [] []) = some true ∧
    parsePlural (.mk ⟨w3cSchemaNS, b!"element"⟩ [⟨⟨[], b!"maxOccurs"⟩, b!"2x"⟩] [] [] []) = none := by decide

/-- C36: the flags of an element that could be parsed. -/
theorem C36_flags (env : ParseEnv) (ns : Str) (el : Element) (e : XElem) (h : parseElement env ns el = some e) :
    parsePlural el = some e.plural ∧
    (e.optional = true ↔
      attrNamed el b!"minOccurs" ≠ [] ∧ Means (attrNamed el b!"minOccurs") 0 ∨ attrNamed el b!"default" ≠ []) ∧
    BoolText (attrNamed el b!"abstract") e.abstract ∧ BoolText (attrNamed el b!"nillable") e.nillable ∧
    e.dflt = attrNamed el b!"default" := by
  unfold parseElement at h
  split at h
  · rename_i abs nil pl opt doc h1 h2 h3 h4 h5
    cases h
    refine ⟨h3, ?_, ?_, ?_, Wsdl.attr_eq _ _⟩
    · simp only
      unfold parseOptional at h4
      rw [Wsdl.attr_eq, Wsdl.attr_eq] at h4
      split at h4
      · rename_i hne
        split at h4
        · cases h4
        · rename_i n hn
          cases h4
          rw [← parseInt_iff, hn]
          simp [hne]
      · rename_i hne
        cases h4
        simp only [decide_eq_true_eq]
        have : attrNamed el b!"minOccurs" = [] := by simpa using hne
        simp [this]
    · rw [Wsdl.attr_eq] at h1
      exact (parseBool_iff _ _).mp h1
    · rw [Wsdl.attr_eq] at h2
      exact (parseBool_iff _ _).mp h2
  · cases h

/-- C36, partial: exactly when parsing an element fails. A malformed `maxOccurs` is only reported if
`minOccurs` is at most 1, and a blank value or, for `minOccurs`, `unbounded` is not considered
malformed; see the refutation. -/
theorem C36_reported_partial (env : ParseEnv) (ns : Str) (el : Element) :
    parseElement env ns el = none ↔
      Malformed (attrNamed el b!"minOccurs") ∨
      (∃ lo, Means (attrNamed el b!"minOccurs") lo ∧ lo ≤ 1) ∧ Malformed (attrNamed el b!"maxOccurs") ∨
      (∀ b, ¬ BoolText (attrNamed el b!"abstract") b) ∨ (∀ b, ¬ BoolText (attrNamed el b!"nillable") b) ∨
      BadAnnotation env el := by
  rw [← parseBool_none, ← parseBool_none, ← childDocs_none, ← parseInt_none, ← parseInt_none]
  simp only [← parseInt_iff]
  unfold parseElement parsePlural parseOptional
  simp only [Wsdl.attr_eq]
  cases hmin : parseInt (attrNamed el b!"minOccurs") with
  | none => simp only [true_or, iff_true]; split <;> simp_all
  | some lo =>
    cases ha : parseBool (attrNamed el b!"abstract") with
    | none => simp
    | some a =>
      cases hn : parseBool (attrNamed el b!"nillable") with
      | none => simp
      | some n =>
        by_cases hl : lo > 1
        · have hl' : ¬ lo ≤ 1 := by omega
          simp only [if_pos hl]
          cases hd : childDocs env el with
          | none => simp
          | some d => by_cases hm : attrNamed el b!"minOccurs" = [] <;> simp [hm, hl']
        · have hl' : lo ≤ 1 := by omega
          simp only [if_neg hl]
          cases hmax : parseInt (attrNamed el b!"maxOccurs") with
          | none => simp [hl']
          | some hi =>
            cases hd : childDocs env el with
            | none => simp
            | some d => by_cases hm : attrNamed el b!"minOccurs" = [] <;> simp [hm, hl']

/-- C36, the claim that malformed numbers are always reported, is false: `maxOccurs="many"` is ignored
if `minOccurs` is more than 1. -/
theorem C36_reported_refuted :
    ∃ el : Element, Malformed (attrNamed el b!"maxOccurs") ∧ ∀ env ns, ∃ e, parseElement env ns el = some e := by
  refine ⟨.mk ⟨w3cSchemaNS, b!"element"⟩ [⟨⟨[], b!"minOccurs"⟩, b!"2"⟩, ⟨⟨[], b!"maxOccurs"⟩, b!"many"⟩] [] [] [], ?_, ?_⟩
  · rw [← parseInt_none]; decide
  · intro env ns
    refine ⟨_, rfl⟩

/-! ### C35 -/

/-- C35: the elements of a complexType with complex content. They start with the wildcard, if there is
one; after it, each name that is declared occurs once, in the order of first declarations, and stands
for all the declarations of that name. -/
theorem C35_merged (env : ParseEnv) (ns : Str) (root el : Element) (hc : ContentModel root el) (t : ComplexT)
    (h : parseComplexType env ns root = some t) :
    ∃ any ds ms, t.elements = any ++ ms ∧
      (∀ w ∈ any, w.wildcard = true) ∧ any.length ≤ 1 ∧ (any = [] ↔ allNamed el w3cSchemaNS b!"any" = []) ∧
      List.Forall₂ (fun v d => parseElement env ns v = some d) (allNamed el w3cSchemaNS b!"element") ds ∧
      ms.map (·.name) = firsts (ds.map (·.name)) ∧ (ms.map (·.name)).Nodup ∧
      (∀ m ∈ ms, IsMerge (ds.filter fun d => decide (d.name = m.name)) m) ∧
      ∀ w ∈ any, ∃ v, (allNamed el w3cSchemaNS b!"any").head? = some v ∧ parseAnyElement v = some w := by
  obtain ⟨cc, hr, hcc, hk, hel⟩ := hc
  unfold parseComplexType at h
  split at h
  · rename_i abs mixed _ _
    rw [Option.map_eq_some_iff] at h
    obtain ⟨r, h, rfl⟩ := h
    obtain ⟨s1, s2, e1, h1, e2⟩ := walkFold_one _ (fun s : ComplexT × Str => s.1.elements) cc (by
      intro s e s' _ ha hf
      rw [if_pos ha, Option.map_eq_some_iff] at hf
      obtain ⟨d, _, rfl⟩ := hf
      rfl) root.children _ r hr h
    simp only [hcc] at h1
    rw [if_neg (by decide), if_neg (by decide), if_pos trivial, Option.map_eq_some_iff] at h1
    obtain ⟨t1, h1, rfl⟩ := h1
    simp only at e1 e2
    unfold parseComplexContent at h1
    split at h1
    · cases h1
    · rename_i mx _
      rw [Option.map_eq_some_iff] at h1
      obtain ⟨r2, h1, rfl⟩ := h1
      obtain ⟨s3, s4, e3, h3, e4⟩ := walkFold_one _ (fun s : ComplexT × Str => s.1.elements) el (by
        intro s e s' _ ha hf
        rw [if_neg (by rw [ha]; decide), if_neg (by rw [ha]; decide), if_pos ha, Option.map_eq_some_iff] at hf
        obtain ⟨d, _, rfl⟩ := hf
        rfl) cc.children _ r2 hk h1
      simp only at e3 e4
      have hd : ∃ ext t4, complexDerivation env ns ext s3.1 el = some t4 ∧ s4.1 = t4 := by
        rcases hel with hel | hel
        · rw [if_pos hel, Option.map_eq_some_iff] at h3
          obtain ⟨t4, h3, rfl⟩ := h3
          exact ⟨_, _, h3, rfl⟩
        · rw [if_neg (by rw [hel]; decide), if_pos hel, Option.map_eq_some_iff] at h3
          obtain ⟨t4, h3, rfl⟩ := h3
          exact ⟨_, _, h3, rfl⟩
      obtain ⟨ext, t4, hd, rfl⟩ := hd
      have hz : s3.1.elements = [] := by rw [e3, e1]
      unfold complexDerivation at hd
      simp only [hz, List.nil_append] at hd
      split at hd
      · cases hd
      · rename_i any hany
        split at hd
        · cases hd
        · rename_i elements hels
          split at hd
          · cases hd
          · rename_i attrs _
            have hfin : r.1.elements = elements := by
              rw [e2, e4]
              simp only [Option.some.injEq] at hd
              rw [← hd]
            have hels' := elementLoop_eq env ns (searchEl el schemaNS b!"element") [] any [] (by simp) (by simp [GoMap.get_nil])
            rw [List.append_nil, hels] at hels'
            rw [eq_comm, Option.map_eq_some_iff] at hels'
            obtain ⟨ds, hds, rfl⟩ := hels'
            obtain ⟨f1, f2⟩ := foldl_addDecl ds
            have hanyp : (∀ w ∈ any, w.wildcard = true) ∧ any.length ≤ 1 ∧ (any = [] ↔ searchEl el schemaNS b!"any" = []) ∧
                ∀ w ∈ any, ∃ v, (searchEl el schemaNS b!"any").head? = some v ∧ parseAnyElement v = some w := by
              cases hs : searchEl el schemaNS b!"any" with
              | nil => rw [hs] at hany; cases hany; simp
              | cons v vs =>
                rw [hs, parseAny, Option.map_eq_some_iff] at hany
                obtain ⟨w, hw, rfl⟩ := hany
                have hw' := hw
                unfold parseAnyElement at hw
                split at hw
                · cases hw
                · cases hw
                  refine ⟨by simp, by simp, by simp, ?_⟩
                  intro w hm
                  rw [List.mem_singleton.mp hm]
                  exact ⟨v, rfl, hw'⟩
            refine ⟨any, ds, _, hfin, hanyp.1, hanyp.2.1, ?_, ?_, f1, ?_, f2, ?_⟩
            · rw [hanyp.2.2.1, Wsdl.searchEl_eq _ _ _ (by decide)]; rfl
            · rw [Wsdl.searchEl_eq _ _ _ (by decide)] at hds
              exact mapOpt_forall₂ hds
            · rw [f1]; exact firsts_nodup _
            · have := hanyp.2.2.2
              rw [Wsdl.searchEl_eq _ _ _ (by decide)] at this
              exact this
  · cases h

/-- A type in which `a` is declared twice, for the hypotheses of the theorem. -/
def twiceType : Element :=
  let q (l : Str) : XName := ⟨w3cSchemaNS, l⟩
  let at_ (k v : Str) : Attr := ⟨⟨[], k⟩, v⟩
  .mk (q b!"complexType") [at_ b!"name" b!"t"] [] [] [
    .mk (q b!"annotation") [] [] [] [],
    .mk (q b!"complexContent") [] [] [] [
      .mk (q b!"restriction") [] [] [] [
        .mk (q b!"choice") [] [] [] [
          .mk (q b!"element") [at_ b!"name" b!"a", at_ b!"minOccurs" b!"0"] [] [] [],
          .mk (q b!"element") [at_ b!"name" b!"b"] [] [] [],
          .mk (q b!"element") [at_ b!"name" b!"a", at_ b!"maxOccurs" b!"unbounded"] [] [] []]]]]

example (env : ParseEnv) (ha : ∀ e, env.annotation e = some b!"doc") :
    (∃ el, ContentModel twiceType el) ∧
    ∃ t, parseComplexType env b!"urn:x" twiceType = some t ∧
      t.elements.map (fun e => (e.name.loc, e.plural, e.optional)) = [(b!"a", true, true), (b!"b", false, false)] := by
  refine ⟨⟨_, _, rfl, rfl, rfl, Or.inr rfl⟩, ?_⟩
  have : parseComplexType env b!"urn:x" twiceType = parseComplexType ⟨fun _ => some b!"doc", env.compileError, env.isFloat, env.isDate, env.isDateTime⟩ b!"urn:x" twiceType := by
    congr 1
    cases env; simp only [ParseEnv.mk.injEq, and_true]; funext e; exact ha e
  rw [this]
  exact ⟨_, rfl, rfl⟩

end GoXml.Xsd
