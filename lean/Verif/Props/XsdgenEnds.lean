import Verif.Spec.XsdgenEnds
import Verif.Props.XsdgenDerivable
set_option autoImplicit false

/-! C158: `GenCode` neither panics nor runs on. -/

namespace GoXml.Xsdgen
open Xsd GoMap
open Wsdl (attrNamed allNamed below defines refersTo)

/-- C158 in full: for schemas that `Parse` accepts, if no option changes the types before code is generated, `GenCode` answers. -/
def C158_answers_full : Prop :=
  ∀ (env : Env) (srt : Sorter strLt) (parse : List Doc → Outcome (List Schema × THeap)) (penv : ParseEnv) (ord : MapOrder) (roots : List Element)
    (cfg : Config) (docs : List Doc) (schemas : List Schema) (H : THeap), parse docs = parseSchemas penv ord roots →
    parseSchemas penv ord roots = .ok (schemas, H) → Untouched cfg H schemas → ∃ n, Answers (genCode env srt n parse cfg docs).2

/-- C158, partial: `GenCode` answers for orderly and regular schemas whose types are derived from built-in types. There is an answer other than code
only if a namespace is asked for twice or has no schema, or if a type is a list of items that xsdgen makes no lists of. -/
theorem C158_answers_partial (env : Env) (srt : Sorter strLt) (n : Nat) (parse : List Doc → Outcome (List Schema × THeap)) (penv : ParseEnv)
    (ord : MapOrder) (roots : List Element) (cfg : Config) (docs : List Doc) (schemas : List Schema) (H : THeap)
    (hparse : parse docs = parseSchemas penv ord roots) (hp : parseSchemas penv ord roots = .ok (schemas, H)) (ho : Orderly roots)
    (hr : Regular roots) (hg : Grounded roots) (hpre : Untouched cfg H schemas) (hn : H.length + 3 ≤ n) :
    Answers (genCode env srt n parse cfg docs).2 ∧
    ((∀ r, (genCode env srt n parse cfg docs).2 ≠ .done (.ok r)) →
      ¬ (wanted cfg docs).Nodup ∨ (∃ x ∈ wanted cfg docs, ∀ r ∈ roots, target r ≠ x) ∨ ∃ r e, Unlisted roots r e) := by
  obtain ⟨h1, h2, h3⟩ := parse_grounded ho hr hg hp
  rcases genCode_ends env srt (hparse.trans hp) h1 hn h2 hpre (cfg := cfg) with ⟨cfg', r, e⟩ | ⟨cfg', ns, e, hsel⟩ | ⟨cfg', e, hl⟩
  · rw [e]
    exact ⟨trivial, fun h => absurd rfl (h r)⟩
  · rw [e]
    refine ⟨trivial, fun _ => ?_⟩
    by_contra hno
    rw [not_or, not_or, not_not] at hno
    obtain ⟨hd, hf, -⟩ := hno
    obtain ⟨l, hl, -⟩ := selectSchemas_found (ss := schemas) hd (by
      intro x hx
      by_contra hne
      refine hf ⟨x, hx, fun r hr' e => hne ?_⟩
      subst e
      obtain ⟨s, hs, hn, -⟩ := parse_linked ho.targets ho.types ho.unnamed hp r hr'
      exact ⟨s, hs, hn⟩)
    rw [hl] at hsel
    cases hsel
  · rw [e]
    refine ⟨trivial, fun _ => Or.inr (Or.inr ?_)⟩
    by_contra hno
    exact hl (h3 fun r e hu => hno ⟨r, e, hu⟩)

/-- What `Parse` makes of a document. -/
def typesOf (doc : Str) : Option (List Element × List Schema × THeap) := ((parseDocs [doc]).bind (normalize doubling 40)).bind fun roots =>
  match parseSchemas testEnv Xsd.inOrder roots with
  | .ok r => some (roots, r)
  | _ => none

theorem typesOf_parse {doc : Str} {roots : List Element} {schemas : List Schema} {H : THeap} (h : typesOf doc = some (roots, schemas, H)) :
    parseSchemas testEnv Xsd.inOrder roots = .ok (schemas, H) := by
  unfold typesOf at h
  obtain ⟨roots', -, h⟩ := Option.bind_eq_some_iff.mp h
  split at h
  · rename_i r hr
    cases h
    exact hr
  · cases h

/-- A list of booleans, and a restriction of it. -/
def switchesDoc : Str :=
  b!"<xs:schema xmlns:xs=\"http://www.w3.org/2001/XMLSchema\" xmlns=\"urn:u\" targetNamespace=\"urn:u\">" ++
  b!"<xs:simpleType name=\"S\"><xs:list itemType=\"xs:boolean\"/></xs:simpleType>" ++
  b!"<xs:simpleType name=\"T\"><xs:restriction base=\"S\"><xs:maxLength value=\"2\"/></xs:restriction></xs:simpleType></xs:schema>"

/-- `Grounded`, where `rank` is greater for derived types. -/
def groundedOk (rank : XName → Nat) (roots : List Element) : Bool :=
  roots.all fun r =>
    (allNamed r w3cSchemaNS b!"complexType").all (fun e => (modelOf e).isSome || (simpleModelOf e).isSome) &&
    (below r).all (fun d => decide ((refersTo d b!"type").space ≠ b!"http://www.w3.org/2009/01/xml.xsd")) &&
    (typeDecls r).all (fun e => (derivedNames e).all fun m => decide (rank m < rank (defines (target r) e)))

theorem grounded_of {rank : XName → Nat} {roots : List Element} (h : groundedOk rank roots = true) : Grounded roots := by
  simp only [groundedOk, Bool.and_eq_true, List.all_eq_true, decide_eq_true_eq, Bool.or_eq_true] at h
  have hrank : ∀ m n, ComesFrom roots m n → rank n ≤ rank m := by
    intro m n hmn
    induction hmn with
    | self => exact le_refl _
    | step hr he hd _ ih => exact le_of_lt (lt_of_le_of_lt ih ((h _ hr).2 _ he _ (mem_derivedNames hd)))
  refine ⟨?_, fun r hr => (h r hr).1.2, ?_⟩
  · intro r hr e he
    rcases (h r hr).1.1 e he with h1 | h1
    · obtain ⟨el, hel⟩ := Option.isSome_iff_exists.mp h1
      exact ⟨el, Or.inl (modelOf_model hel)⟩
    · obtain ⟨el, hel⟩ := Option.isSome_iff_exists.mp h1
      exact ⟨el, Or.inr (simpleModelOf_model hel)⟩
  · intro r hr e he m hd hc
    exact absurd (hrank _ _ hc) (not_le_of_gt ((h r hr).2 e he m (mem_derivedNames hd)))

/-- Lists of booleans meet the conditions; the answer is an error. -/
example : ∃ roots schemas H, Orderly roots ∧ Regular roots ∧ Grounded roots ∧ parseSchemas testEnv Xsd.inOrder roots = .ok (schemas, H) ∧
    (∀ env srt, Answers (genCode env srt 6 (fun _ => parseSchemas testEnv Xsd.inOrder roots) { namespaces := [b!"urn:u"] } []).2) ∧
    ∃ r e, Unlisted roots r e := by
  have : (typesOf switchesDoc).map (fun (x : List Element × List Schema × THeap) => orderlyOk x.1 && regularOk x.1 &&
      groundedOk (fun n => if n.space = w3cSchemaNS then 0 else if n.loc = b!"S" then 1 else 2) x.1 && decide (x.2.2.length = 3) &&
      x.1.any fun r => (allNamed r w3cSchemaNS b!"simpleType").any fun e => e.children.any fun c =>
        decide (c.name = ⟨w3cSchemaNS, b!"list"⟩) && decide (refersTo c b!"itemType" = ⟨w3cSchemaNS, b!"boolean"⟩)) = some true := by decide +kernel
  obtain ⟨⟨roots, schemas, H⟩, hx, h⟩ := Option.map_eq_some_iff.mp this
  simp only [Bool.and_eq_true, List.any_eq_true, decide_eq_true_eq] at h
  obtain ⟨⟨⟨⟨h1, h2⟩, h3⟩, h4⟩, r, hr, e, he, c, hc, hn, hi⟩ := h
  have hp := typesOf_parse hx
  refine ⟨roots, schemas, H, orderly_of h1, regular_of h2, grounded_of h3, hp, fun env srt => ?_, r, e, hr, he, ⟨c, hc, hn⟩, b!"boolean", by decide, ?_⟩
  · exact (C158_answers_partial env srt 6 _ testEnv Xsd.inOrder roots { namespaces := [b!"urn:u"] } [] schemas H rfl hp (orderly_of h1) (regular_of h2) (grounded_of h3)
      (fun pre e => (nomatch e)) (le_of_eq (by rw [h4]))).1
  · rw [← hi]
    exact .step hr (List.mem_append_right _ he) (.list c hc hn) (.self _)

/-- The types of the schemas that code is generated for. -/
def selectedTypes (schemas : List Schema) : Option (List (List Ty)) :=
  match selectSchemas [b!"urn:u"] schemas with
  | .ok l => some (l.map fun s => s.types.map (·.2))
  | .error _ => none

/-- If generating code for the types does not end well, neither does `GenCode`. -/
theorem genCode_stuck {env : Env} {srt : Sorter strLt} {n : Nat} {schemas : List Schema} {H : THeap} {tss : List (List Ty)}
    (hs : selectedTypes schemas = some tss)
    (hg : genSchemas env (addStandardHelpers { namespaces := [b!"urn:u"] }) n H tss = .panic ∨
      genSchemas env (addStandardHelpers { namespaces := [b!"urn:u"] }) n H tss = .running) :
    ¬ Answers (genCode env srt n (fun _ => .ok (schemas, H)) { namespaces := [b!"urn:u"] } []).2 := by
  unfold selectedTypes at hs
  split at hs
  · rename_i l hl
    cases hs
    have hns : ({ namespaces := [b!"urn:u"] } : Config).namespaces ≠ [] := by decide
    unfold genCode
    simp only [if_neg hns, hl, gen]
    rcases hg with hg | hg
    · rw [show (addStandardHelpers { namespaces := [b!"urn:u"] }).preprocessType = none from rfl]
      dsimp only
      rw [hg]
      exact id
    · rw [show (addStandardHelpers { namespaces := [b!"urn:u"] }).preprocessType = none from rfl]
      dsimp only
      rw [hg]
      exact id
  · cases hs

/-- A simple type that is not defined by anything, and an attribute of that type. -/
def emptyDoc : Str :=
  b!"<xs:schema xmlns:xs=\"http://www.w3.org/2001/XMLSchema\" xmlns=\"urn:u\" targetNamespace=\"urn:u\">" ++
  b!"<xs:simpleType name=\"T\"/>" ++
  b!"<xs:complexType name=\"C\"><xs:attribute name=\"a\" type=\"T\"/></xs:complexType></xs:schema>"

/-- Two simple types that are restrictions of each other. -/
def circleDoc : Str :=
  b!"<xs:schema xmlns:xs=\"http://www.w3.org/2001/XMLSchema\" xmlns=\"urn:u\" targetNamespace=\"urn:u\">" ++
  b!"<xs:simpleType name=\"T\"><xs:restriction base=\"U\"/></xs:simpleType>" ++
  b!"<xs:simpleType name=\"U\"><xs:restriction base=\"T\"/></xs:simpleType></xs:schema>"

def emptyHeap : THeap :=
  [.complex { name := ⟨b!"urn:u", b!"C"⟩, base := some (.builtin 0), attributes :=
      [{ name := ⟨b!"urn:u", b!"a"⟩, type := .obj 1, optional := true,
         attr := [⟨⟨[], b!"name"⟩, b!"a"⟩, ⟨⟨[], b!"type"⟩, b!"T"⟩], scope := [⟨w3cSchemaNS, b!"xs"⟩, ⟨b!"urn:u", []⟩] }] },
   .simple { name := ⟨b!"urn:u", b!"T"⟩, base := none }, .complex { name := ⟨b!"urn:u", b!"_self"⟩, base := some (.builtin 0) }]

def circleHeap : THeap :=
  [.simple { name := ⟨b!"urn:u", b!"T"⟩, base := some (.obj 1) }, .simple { name := ⟨b!"urn:u", b!"U"⟩, base := some (.obj 0) },
   .complex { name := ⟨b!"urn:u", b!"_self"⟩, base := some (.builtin 0) }]

theorem empty_panics (env : Env) (n : Nat) : ∃ r, (r = .panic ∨ r = .running) ∧
    genSchemas env (addStandardHelpers { namespaces := [b!"urn:u"] }) n emptyHeap [[.obj 0, .obj 1, .obj 2]] = r := by
  cases n with
  | zero => exact ⟨.running, Or.inr rfl, rfl⟩
  | succ n => exact ⟨.panic, Or.inl rfl, rfl⟩

theorem circle_chain : ∀ (n : Nat) (b : Option Builtin), baseChain circleHeap n b (some (.obj 0)) = .running ∧ baseChain circleHeap n b (some (.obj 1)) = .running
  | 0, _ => ⟨rfl, rfl⟩
  | n + 1, _ => by
    obtain ⟨h1, h2⟩ := circle_chain n (some AnyType)
    have e0 : baseOf circleHeap (.obj 0) = some (.obj 1) := rfl
    have e1 : baseOf circleHeap (.obj 1) = some (.obj 0) := rfl
    simp only [baseChain, e0, e1, h1, h2, Run.bind, and_self]

theorem circle_flat (cfg : Config) (n d : Nat) : flatten1 cfg n (d + 1) circleHeap (some (.obj 0)) = .running := by
  have e1 : circleHeap[0]? = some (.simple { name := ⟨b!"urn:u", b!"T"⟩, base := some (.obj 1) }) := rfl
  simp only [flatten1, e1, flattenSimple, (circle_chain n none).2, Run.bind]

theorem circle_runs (env : Env) (n : Nat) :
    genSchemas env (addStandardHelpers { namespaces := [b!"urn:u"] }) n circleHeap [[.obj 0, .obj 1, .obj 2]] = .running := by
  have hs : skipped (addStandardHelpers { namespaces := [b!"urn:u"] }) (xmlName circleHeap (.obj 0)) = false := rfl
  have hl : ∀ ts, flattenLoop (addStandardHelpers { namespaces := [b!"urn:u"] }) n circleHeap (.obj 0 :: ts) = .running := by
    intro ts
    unfold flattenLoop
    rw [hs, if_neg Bool.false_ne_true, show (1001 : Nat) = 1000 + 1 from rfl, circle_flat]
    rfl
  unfold genSchemas flatten
  rw [hl]
  rfl

/-- C158 is false as it stands: `Parse` accepts a simple type that is not defined by anything, and `GenCode` panics if something is of that type. -/
theorem C158_panic_refuted : ¬ C158_answers_full := by
  intro hall
  have : (typesOf emptyDoc).map (fun (x : List Element × List Schema × THeap) => decide (x.2.2 = emptyHeap) &&
      decide (selectedTypes x.2.1 = some [[.obj 0, .obj 1, .obj 2]])) = some true := by decide +kernel
  obtain ⟨⟨roots, schemas, H⟩, hx, h⟩ := Option.map_eq_some_iff.mp this
  rw [Bool.and_eq_true, decide_eq_true_iff, decide_eq_true_iff] at h
  obtain ⟨rfl, hsel⟩ := h
  obtain ⟨n, hn⟩ := hall asciiEnv (Sorter.byKey fun s => s) (fun _ => .ok (schemas, emptyHeap)) testEnv Xsd.inOrder roots { namespaces := [b!"urn:u"] } []
    schemas emptyHeap (typesOf_parse hx).symm (typesOf_parse hx) (fun pre e => (nomatch e))
  obtain ⟨r, hr, hg⟩ := empty_panics asciiEnv n
  exact genCode_stuck hsel (by rw [hg]; exact hr) hn

/-- C158 is false for another reason: `Parse` accepts simple types that are derived from each other, and `GenCode` does not end for them. -/
theorem C158_runs_refuted : ¬ C158_answers_full := by
  intro hall
  have : (typesOf circleDoc).map (fun (x : List Element × List Schema × THeap) => decide (x.2.2 = circleHeap) &&
      decide (selectedTypes x.2.1 = some [[.obj 0, .obj 1, .obj 2]])) = some true := by decide +kernel
  obtain ⟨⟨roots, schemas, H⟩, hx, h⟩ := Option.map_eq_some_iff.mp this
  rw [Bool.and_eq_true, decide_eq_true_iff, decide_eq_true_iff] at h
  obtain ⟨rfl, hsel⟩ := h
  obtain ⟨n, hn⟩ := hall asciiEnv (Sorter.byKey fun s => s) (fun _ => .ok (schemas, circleHeap)) testEnv Xsd.inOrder roots { namespaces := [b!"urn:u"] } []
    schemas circleHeap (typesOf_parse hx).symm (typesOf_parse hx) (fun pre e => (nomatch e))
  exact genCode_stuck hsel (Or.inr (circle_runs asciiEnv n)) hn

end GoXml.Xsdgen
