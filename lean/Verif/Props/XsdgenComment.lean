import Verif.Proofs.XsdgenFlatten
import Verif.Props.XsdgenDecls
import Verif.Props.EndToEnd
import Verif.Model.Cli
set_option autoImplicit false

/-! Property C139: what the comment of the declaration of a simple type says. -/

namespace GoXml.Xsdgen
open Xsd GoMap

theorem infix_join (sep : Str) : ∀ (l : List Str), ∀ v ∈ l, v <:+: joinStr sep l
  | [], v, h => by cases h
  | [x], v, h => by
    rw [List.mem_singleton] at h
    subst h
    exact List.infix_rfl
  | x :: y :: l, v, h => by
    have e : joinStr sep (x :: y :: l) = x ++ (sep ++ joinStr sep (y :: l)) := by simp [joinStr]
    rw [e]
    rcases List.mem_cons.mp h with rfl | h
    · exact (List.prefix_append ..).isInfix
    · exact (infix_join sep (y :: l) v h).trans (((List.suffix_append sep _).trans (List.suffix_append x _)).isInfix)

/-- What the comment on a simple type `s` that is neither list nor union and derived from a builtin without methods of
its own tells: all values if they are enumerated; else the pattern; else the greatest length; else the least. -/
def Tells (s : SimpleT) (doc : Str) : Prop :=
  (∀ v ∈ s.restriction.enum, v <:+: doc) ∧
  (s.restriction.enum = [] → ∀ p, s.restriction.pattern = some p → p <:+: doc) ∧
  (s.restriction.enum = [] → s.restriction.pattern = none → s.restriction.maxLength ≠ 0 → intStr s.restriction.maxLength <:+: doc) ∧
  (s.restriction.enum = [] → s.restriction.pattern = none → s.restriction.maxLength = 0 → s.restriction.minLength ≠ 0 →
    intStr s.restriction.minLength <:+: doc)

theorem keptDoc_tells {s : SimpleT} {d : Str} (h : keptDoc s.restriction = some d) : Tells s d := by
  unfold keptDoc at h
  by_cases h1 : s.restriction.enum = []
  · rw [if_neg (by simpa using h1)] at h
    cases h2 : s.restriction.pattern with
    | some p =>
      rw [h2] at h
      cases h
      refine ⟨by simp [h1], fun _ q hq => ?_, fun _ hf => by simp [h2] at hf, fun _ hf => by simp [h2] at hf⟩
      rw [h2] at hq
      cases hq
      exact (List.suffix_append ..).isInfix
    | none =>
      rw [h2] at h
      simp only at h
      refine ⟨by simp [h1], fun _ q hq => by simp [h2] at hq, fun _ _ h3 => ?_, fun _ _ h3 h4 => ?_⟩
      · rw [if_pos h3] at h
        cases h
        exact List.infix_append ..
      · rw [if_neg (by simpa using h3), if_pos h4] at h
        cases h
        exact List.infix_append ..
  · rw [if_pos h1] at h
    cases h
    refine ⟨fun v hv => ?_, fun hf => absurd hf h1, fun hf => absurd hf h1, fun hf => absurd hf h1⟩
    exact (infix_join _ _ v hv).trans (List.suffix_append ..).isInfix

/-- C139, partial: if a simple type that is derived from the builtin `b` gets a declaration, the comment on it is the
documentation in the schema if the type is a union or `b` has methods of its own; for other types that are no lists it
tells the enumerated values, or else the pattern, or else the greatest length, or else the least. That the
documentation is there as well is refuted by `C139_documentation_refuted`, that all restrictions are told by
`C139_restrictions_refuted` and `C139_base_refuted`; for lists see `C95_doc_refuted`. -/
theorem C139_comment_partial (env : Env) (cfg : Config) (n m : Nat) (H : THeap) (id : Nat) (ids : List Nat) (b : Builtin)
    (s : SimpleT) (hc : SimpleChain H id ids b) (hs : H[id]? = some (.simple s)) (hn : ids.length < n)
    (hl : s.list = false) {F : THeap} {pushed : List Ty}
    (hf : flattenSimple n H id s = .ok (F, pushed, some (.obj id)))
    {G : THeap} {specs : List Spec} (hg : genTypeSpec env cfg m F (.obj id) = .ok (G, specs)) :
    ∃ sp, specs = [sp] ∧ sp.name = publicName env cfg s.name ∧
      (s.union ≠ [] ∨ Special (.builtin b) → sp.doc = s.doc) ∧
      (¬ (s.union ≠ [] ∨ Special (.builtin b)) → Tells s sp.doc) := by
  obtain ⟨H', d, r, h1, -, -, -, h2, h3⟩ := flattenSimple_chain n H id ids b s hc hs hn
  rw [h1] at hf
  cases hf
  simp only [genTypeSpec, h2] at hg
  obtain ⟨q, hq, hg⟩ := bind_ok hg
  cases hg
  obtain ⟨sp, rfl, hname, -, hdoc, -⟩ := C95_simple_partial env cfg m F id _ _ hq
  have hdoc := hdoc hl
  refine ⟨sp, rfl, hname, ?_, ?_⟩
  all_goals
    rw [hdoc]
    rw [← special_iff]
    intro hk
  · rcases h3 with ⟨-, rfl, -⟩ | ⟨hnk, -⟩ | ⟨-, -, -, hr⟩
    · rfl
    · exact absurd (Or.inr hk) hnk
    · cases hr
  · rcases h3 with ⟨hk', -⟩ | ⟨-, hd, -⟩ | ⟨-, -, -, hr⟩
    · rcases hk' with hk' | hk'
      · rw [hl] at hk'; cases hk'
      · exact absurd hk' hk
    · exact keptDoc_tells hd
    · cases hr

/-- A size, derived from a token, with its values; a code with a pattern; a day with its documentation. -/
example :
    let H : THeap := [.simple { name := ⟨[], b!"size"⟩, base := some (.obj 1), restriction := { enum := [b!"small", b!"large"] } },
      .simple { name := ⟨[], b!"word"⟩, base := some (.builtin 40) }]
    SimpleChain H 0 [1] 40 ∧
    ((flattenSimple 5 H 0 { name := ⟨[], b!"size"⟩, base := some (.obj 1), restriction := { enum := [b!"small", b!"large"] } }).toOption.bind fun r =>
      (genTypeSpec asciiEnv {} 5 r.1 (.obj 0)).toOption.map fun q => (r.2.2, q.2.map fun s => (s.name, s.doc))) =
      some (some (.obj 0), [(b!"Size", b!"May be one of small, large")]) := by
  intro H
  exact ⟨.step rfl rfl (.last rfl rfl), by decide +kernel⟩

/-- The comments on the declarations of the types in a schema document that has only the declarations `body`. -/
def commentsFrom (body : Str) : Option (List (Str × Str)) :=
  (generated Cli.xDefaults (b!"<schema xmlns=\"http://www.w3.org/2001/XMLSchema\" xmlns:t=\"u\" targetNamespace=\"u\">" ++
    body ++ b!"</schema>")).map fun r => r.2.filterMap fun d => match d with
      | .type doc name _ => some (name, doc)
      | .func _ => none

/-- The values of an enumeration are told. -/
example : commentsFrom (b!"<simpleType name=\"size\"><restriction base=\"string\"><enumeration value=\"small\"/>" ++
    b!"<enumeration value=\"large\"/></restriction></simpleType>") = some [(b!"Size", b!"May be one of small, large")] := by
  decide +kernel

/-- C139 is false: the documentation of a type with a pattern is lost. -/
theorem C139_documentation_refuted :
    commentsFrom (b!"<simpleType name=\"code\"><annotation><documentation>Three digits.</documentation></annotation>" ++
      b!"<restriction base=\"string\"><pattern value=\"[0-9]{3}\"/></restriction></simpleType>") =
      some [(b!"Code", b!"Must match the pattern [0-9]{3}")] ∧
    ¬ b!"Three digits." <:+: b!"Must match the pattern [0-9]{3}" := by
  refine ⟨by decide +kernel, by decide +kernel⟩

/-- C139 is false: of the greatest and the least length, only the greatest is told. -/
theorem C139_restrictions_refuted :
    commentsFrom (b!"<simpleType name=\"word\"><restriction base=\"string\"><minLength value=\"3\"/><maxLength value=\"9\"/>" ++
      b!"</restriction></simpleType>") = some [(b!"Word", b!"May be no more than 9 items long")] ∧
    ¬ b!"3" <:+: b!"May be no more than 9 items long" := by
  refine ⟨by decide +kernel, by decide +kernel⟩

/-- C139 is false: what a type has from its base is not told: a restriction of an enumeration by a length. -/
theorem C139_base_refuted :
    commentsFrom (b!"<simpleType name=\"size\"><restriction base=\"string\"><enumeration value=\"small\"/>" ++
      b!"<enumeration value=\"xl\"/></restriction></simpleType>" ++
      b!"<simpleType name=\"short\"><restriction base=\"t:size\"><maxLength value=\"4\"/></restriction></simpleType>") =
      some [(b!"Short", b!"May be no more than 4 items long"), (b!"Size", b!"May be one of small, xl")] ∧
    ¬ b!"xl" <:+: b!"May be no more than 4 items long" := by
  refine ⟨by decide +kernel, by decide +kernel⟩

/-- C139 is false: a derived type without restrictions of its own gets no declaration, its documentation is lost. -/
theorem C139_declaration_refuted :
    commentsFrom (b!"<simpleType name=\"colour\"><annotation><documentation>A name.</documentation></annotation>" ++
      b!"<restriction base=\"string\"/></simpleType>") = some [] := by
  decide +kernel

end GoXml.Xsdgen
