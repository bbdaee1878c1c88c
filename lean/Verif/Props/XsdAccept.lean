import Verif.Proofs.XsdAcceptDocs
import Verif.Props.XsdAnon
set_option autoImplicit false

/-! Property C151: `Parse` accepts sound schemas. -/

namespace GoXml.Xsd
open Wsdl

/-- C151, partial: `Parse` accepts schemas of any number and size in which flags, counts and facets can be read, complex types
have the content that XML Schema allows, types are known, and no type is derived from one of a later schema; declarations may
have anonymous types, and may refer to global declarations (C149 says how). Missing for C151: what it is false for, references to
declarations with contents of their own and to groups, anonymous types of global declarations, schemas without a prefix for their
target namespace. -/
theorem C151_accepts_partial (env : ParseEnv) (grow : Nat → Nat → Nat) (n : Nat) (ord : MapOrder) (docs : List Element) (hdoc : ReadsNotes env)
    (hn : ∀ t ∈ docs, depth t ≤ n) (hap : ∀ t ∈ docs, SchemasApart t) (hd : ∀ t ∈ docs.flatMap schemasIn, Neat t ∧ 3 * depth t ≤ n)
    (hl : Linked (docs.flatMap schemasIn)) (hs : SoundSet env (docs.flatMap schemasIn)) : ∃ ss H, parse grow n env ord docs = .ok (ss, H) := by
  obtain ⟨⟨ss, H⟩, h⟩ := accept_docs grow n ord docs hdoc hn hap hd hl hs
  exact ⟨ss, H, h⟩

/-! ### Deciding whether schemas are sound -/

theorem built_iff {n : XName} : BuiltIn n ↔ ∃ i ∈ List.range 50, builtinName (Int.ofNat i) = n := by
  constructor
  · rintro ⟨b, h1, h2, h3⟩
    refine ⟨b.toNat, by rw [List.mem_range]; omega, ?_⟩
    rw [show Int.ofNat b.toNat = b by simp; omega]
    exact h3
  · rintro ⟨i, h1, h2⟩
    rw [List.mem_range] at h1
    exact ⟨Int.ofNat i, by simp, by simp; omega, h2⟩

instance (n : XName) : Decidable (BuiltIn n) := decidable_of_iff _ built_iff.symm

instance (s : Str) : Decidable (∃ b, BoolText s b) :=
  decidable_of_iff (parseBool s ≠ none) (by rw [Ne, parseBool_none, not_forall]; exact exists_congr fun b => not_not)

instance (s : Str) : Decidable (∃ n, Means s n) :=
  decidable_of_iff ((parseInt s).isSome = true) (by
    rw [Option.isSome_iff_exists]
    exact exists_congr fun n => parseInt_iff s n)

instance (s : Str) : Decidable (∃ n, 0 ≤ n ∧ Means s n) :=
  decidable_of_iff (∃ n ∈ parseInt s, 0 ≤ n) (exists_congr fun n => by rw [Option.mem_def, parseInt_iff, and_comm])

instance (env : ParseEnv) (v : Str) : Decidable (Numeric env v) :=
  decidable_of_iff (trimSpace v = [] ∨ env.isFloat (trimSpace v) = true)
    ⟨fun h => ⟨_, Gen.trimSpace_spec v, h⟩, fun ⟨t, h1, h2⟩ => by rw [Gen.trimmedTo_unique (Gen.trimSpace_spec v) h1]; exact h2⟩

instance (env : ParseEnv) (base : XName) (v : Str) : Decidable (Readable env base v) := by
  unfold Readable
  infer_instance

instance (known : XName → Prop) [DecidablePred known] (v : Str) (sc : Scope) : Decidable (∀ ws, Words v ws → ∀ q ∈ ws, known (denoted sc q)) :=
  decidable_of_iff (∀ q ∈ fields v, known (denoted sc q))
    ⟨fun h ws hw => by rw [words_fields hw]; exact h, fun h => h _ (fields_words v)⟩

instance (t : Element) (n : XName) : Decidable (Offers t n) := inferInstanceAs (Decidable (∃ k ∈ typesOf t, n = _))

/-- The parts of `SoundAt` that are about values. -/
def ValuesAt (env : ParseEnv) (x : Element) : Prop :=
  (∀ a ∈ [b!"abstract", b!"nillable", b!"mixed"], ∃ b, BoolText (attrNamed x a) b) ∧
  (∀ a ∈ [b!"minOccurs", b!"maxOccurs"], ∃ n, Means (attrNamed x a) n) ∧
  (∀ loc ∈ [b!"length", b!"minLength", b!"maxLength", b!"totalDigits", b!"fractionDigits"], IsXs loc x → ∃ n, 0 ≤ n ∧ Means (attrNamed x b!"value") n) ∧
  (IsXs b!"restriction" x → ∀ k ∈ x.children, Limit k → Readable env (refersTo x b!"base") (attrNamed k b!"value")) ∧
  (∀ d ∈ x.scope, ∀ c ∈ d.loc, isSpace c = false)

/-- Those about content. -/
def ContentAt (x : Element) : Prop :=
  (IsXs b!"complexType" x → ∀ k ∈ x.children, ¬ Limit k ∧
    (Shorthand x ∨ (k.name.space = w3cSchemaNS → k.name.loc ∈ [b!"annotation", b!"simpleContent", b!"complexContent"]))) ∧
  (IsXs b!"complexContent" x → ∀ k ∈ x.children, k.name.space = w3cSchemaNS → k.name.loc ∈ [b!"annotation", b!"restriction", b!"extension"]) ∧
  (IsXs b!"complexType" x ∨ IsXs b!"simpleType" x → (58 : UInt8) ∉ attrNamed x b!"name") ∧
  (IsXs b!"restriction" x ∨ IsXs b!"extension" x → attrNamed x b!"base" = [] → HasAnon x) ∧
  (IsXs b!"list" x → attrNamed x b!"itemType" = [] → HasAnon x) ∧
  (IsXs b!"element" x ∨ IsXs b!"attribute" x → attrNamed x b!"base" = [] ∧ attrNamed x b!"itemType" = [])

/-- Those about references. -/
def RefsAt (known before : XName → Prop) (x : Element) : Prop :=
  (IsXs b!"element" x ∨ IsXs b!"attribute" x ∨ IsXs b!"any" x → attrNamed x b!"type" ≠ [] → known (refersTo x b!"type")) ∧
  (attrNamed x b!"base" ≠ [] → before (refersTo x b!"base")) ∧
  (attrNamed x b!"itemType" ≠ [] → before (refersTo x b!"itemType")) ∧
  (IsXs b!"union" x → ∀ ws, Words (attrNamed x b!"memberTypes") ws → ∀ q ∈ ws, known (denoted x.scope q))

instance (env : ParseEnv) (x : Element) : Decidable (ValuesAt env x) := by unfold ValuesAt; infer_instance
instance (x : Element) : Decidable (ContentAt x) := by
  unfold ContentAt
  refine @instDecidableAnd _ _ ?_ ?_
  · infer_instance
  · refine @instDecidableAnd _ _ ?_ ?_ <;> infer_instance
instance (known before : XName → Prop) [DecidablePred known] [DecidablePred before] (x : Element) : Decidable (RefsAt known before x) := by
  unfold RefsAt
  infer_instance

instance (env : ParseEnv) (known before : XName → Prop) [DecidablePred known] [DecidablePred before] (x : Element) : Decidable (SoundAt env known before x) :=
  decidable_of_iff (ValuesAt env x ∧ ContentAt x ∧ RefsAt known before x)
    ⟨fun ⟨⟨a1, a2, a3, a4, a5⟩, ⟨b1, b2, b3, b4, b5, b6⟩, c1, c2, c3, c4⟩ => ⟨a1, a2, a3, a4, b1, b2, b3, c1, c2, b4, c3, b5, a5, c4, b6⟩,
     fun ⟨a1, a2, a3, a4, b1, b2, b3, c1, c2, b4, c3, b5, a5, c4, b6⟩ => ⟨⟨a1, a2, a3, a4, a5⟩, ⟨b1, b2, b3, b4, b5, b6⟩, c1, c2, c3, c4⟩⟩

theorem own_iff {tns : Str} : (∀ n, BuiltIn n → n.space ≠ tns) ↔ ∀ i ∈ List.range 50, (builtinName (Int.ofNat i)).space ≠ tns :=
  ⟨fun h i hi => h _ (built_iff.mpr ⟨i, hi, rfl⟩), fun h n hn => by obtain ⟨i, hi, rfl⟩ := built_iff.mp hn; exact h i hi⟩

instance (env : ParseEnv) (known before : XName → Prop) [DecidablePred known] [DecidablePred before] (t : Element) : Decidable (SoundSchema env known before t) :=
  decidable_of_iff ((∀ a ∈ [b!"abstract", b!"mixed"], ∃ b, BoolText (attrNamed t a) b) ∧
    (∀ x ∈ t :: below t, Clear x.scope (attrNamed t b!"targetNamespace") ∧ Clear x.scope w3cSchemaNS) ∧
    (∀ i ∈ List.range 50, (builtinName (Int.ofNat i)).space ≠ attrNamed t b!"targetNamespace") ∧
    (∀ k ∈ typesOf t, attrNamed k b!"name" ≠ []) ∧
    (∀ k ∈ t.children, IsXs b!"element" k → attrNamed k b!"type" ≠ [] → before (refersTo k b!"type")) ∧
    (∀ x ∈ below t, SoundAt env known before x))
    ⟨fun ⟨h1, h2, h3, h4, h5, h6⟩ => ⟨h1, h2, own_iff.mpr h3, h4, h5, h6⟩, fun h => ⟨h.1, h.2, own_iff.mp h.3, h.4, h.5, h.6⟩⟩

/-- To be sound, schemas may refer to what can be checked. -/
theorem sound_set {env : ParseEnv} {ss : List Element} (h1 : (ss.map target).Nodup)
    (h2 : ∀ i ∈ List.range ss.length, ∀ t ∈ ss[i]?, SoundSchema env (fun n => BuiltIn n ∨ ∃ s ∈ ss, Offers s n) (fun n => BuiltIn n ∨ ∃ s ∈ ss.take (i + 1), Offers s n) t) :
    SoundSet env ss := by
  refine ⟨h1, fun i t ht => ?_⟩
  have hi : i < ss.length := (List.getElem?_eq_some_iff.mp ht).1
  have h := h2 i (List.mem_range.mpr hi) t ht
  have hB : ∀ n, (BuiltIn n ∨ ∃ s ∈ ss.take (i + 1), Offers s n) → BuiltIn n ∨ ∃ (j : Nat) (s : Element), j ≤ i ∧ ss[j]? = some s ∧ Offers s n := by
    rintro n (h | ⟨s, hs, ho⟩)
    · exact .inl h
    · obtain ⟨j, hj⟩ := List.getElem?_of_mem hs
      rw [List.getElem?_take] at hj
      split at hj
      · exact .inr ⟨j, s, by omega, hj, ho⟩
      · cases hj
  exact ⟨h.flags, h.clear, h.own, h.named, fun k a b c => hB _ (h.top k a b c), fun x hx => (h.each x hx).mono (fun _ a => a) hB⟩

/-! ### Schemas that are accepted -/

/-- An element of a schema that knows two namespaces. -/
def xu (loc : Str) (attrs : List (Str × Str)) (kids : List Element) : Element :=
  .mk ⟨schemaNS, loc⟩ (attrs.map fun (k, v) => ⟨⟨[], k⟩, v⟩) [⟨schemaNS, b!"xs"⟩, ⟨b!"urn:t", b!"t"⟩, ⟨b!"urn:u", b!"u"⟩] [] kids

/-- A schema with facets, a union, a list and types derived from those of another schema. -/
def secondDoc : Element := xu b!"schema" [(b!"targetNamespace", b!"urn:u")] [
  xu b!"simpleType" [(b!"name", b!"rate")] [xu b!"restriction" [(b!"base", b!"xs:decimal")] [xu b!"minInclusive" [(b!"value", b!" 1.5")] [], xu b!"totalDigits" [(b!"value", b!"3")] []]],
  xu b!"simpleType" [(b!"name", b!"day")] [xu b!"restriction" [(b!"base", b!"xs:date")] [xu b!"maxExclusive" [(b!"value", b!"2020-01-01")] []]],
  xu b!"simpleType" [(b!"name", b!"both")] [xu b!"union" [(b!"memberTypes", b!"u:rate u:day")] []],
  xu b!"complexType" [(b!"name", b!"large"), (b!"mixed", b!"true")] [xu b!"complexContent" [] [xu b!"extension" [(b!"base", b!"t:order")] [xu b!"sequence" [] [
    xu b!"element" [(b!"name", b!"rates"), (b!"maxOccurs", b!"unbounded")] [xu b!"simpleType" [] [xu b!"list" [(b!"itemType", b!"u:both")] []]]]]]],
  xu b!"element" [(b!"name", b!"l"), (b!"type", b!"u:large")] []]

example : ([neatDoc, secondDoc].flatMap schemasIn).map (attrNamed · b!"targetNamespace") = [b!"urn:t", b!"urn:u"] ∧ (∀ t ∈ [neatDoc, secondDoc], depth t ≤ 30) ∧
    (∀ t ∈ [neatDoc, secondDoc], SchemasApart t) ∧ ∀ t ∈ [neatDoc, secondDoc].flatMap schemasIn, Neat t ∧ 3 * depth t ≤ 30 := by decide +kernel

theorem bound_documented : ReadsNotes boundEnv := fun _ _ => rfl

/-- Both together are sound, and so are accepted. -/
theorem second_sound : SoundSet boundEnv ([neatDoc, secondDoc].flatMap schemasIn) := sound_set (by decide +kernel) (by decide +kernel)

example (grow : Nat → Nat → Nat) (ord : MapOrder) : ∃ ss H, parse grow 30 boundEnv ord [neatDoc, secondDoc] = .ok (ss, H) :=
  C151_accepts_partial boundEnv grow 30 ord _ bound_documented (by decide +kernel) (by decide +kernel) (by decide +kernel) (by decide +kernel) second_sound

/-- A schema with references to declarations of the first one. -/
def thirdDoc : Element := xu b!"schema" [(b!"targetNamespace", b!"urn:u")] [
  xu b!"complexType" [(b!"name", b!"pair")] [
    xu b!"sequence" [] [xu b!"element" [(b!"ref", b!"t:e"), (b!"maxOccurs", b!"unbounded")] [], xu b!"element" [(b!"ref", b!"u:own"), (b!"type", b!"u:pair")] []],
    xu b!"attribute" [(b!"ref", b!"t:a")] []],
  xu b!"element" [(b!"name", b!"own"), (b!"nillable", b!"true")] []]

example : ([refsDoc, thirdDoc].flatMap schemasIn).map (attrNamed · b!"targetNamespace") = [b!"urn:t", b!"urn:u"] ∧ (∀ t ∈ [refsDoc, thirdDoc], depth t ≤ 30) ∧
    (∀ t ∈ [refsDoc, thirdDoc], SchemasApart t) ∧ (∀ t ∈ [refsDoc, thirdDoc].flatMap schemasIn, Neat t ∧ 3 * depth t ≤ 30) ∧
    ((below thirdDoc).filter fun x => decide (IsRef x)).length = 3 := by decide +kernel

theorem third_linked : Linked ([refsDoc, thirdDoc].flatMap schemasIn) := by decide +kernel

theorem third_sound : SoundSet boundEnv ([refsDoc, thirdDoc].flatMap schemasIn) := sound_set (by decide +kernel) (by decide +kernel)

example (grow : Nat → Nat → Nat) (ord : MapOrder) : ∃ ss H, parse grow 30 boundEnv ord [refsDoc, thirdDoc] = .ok (ss, H) :=
  C151_accepts_partial boundEnv grow 30 ord _ bound_documented (by decide +kernel) (by decide +kernel) (by decide +kernel) third_linked third_sound

/-! ### Schemas that are not -/

/-- A number of days: `P1D`. -/
def Days (v : Str) : Prop := v.head? = some 80 ∧ v.getLast? = some 68 ∧ 3 ≤ v.length ∧ ∀ c ∈ v.tail.dropLast, 48 ≤ c ∧ c ≤ 57

instance (v : Str) : Decidable (Days v) := inferInstanceAs (Decidable (_ ∧ _ ∧ _ ∧ _))

/-- The limits that XML Schema allows: those that can be read, times without a time zone, and durations. -/
def Allowed (env : ParseEnv) (base : XName) (v : Str) : Prop :=
  Readable env base v ∨ base = ⟨w3cSchemaNS, b!"dateTime"⟩ ∧ env.isDateTime (v ++ b!"Z") = true ∨ base = ⟨w3cSchemaNS, b!"duration"⟩ ∧ Days v

instance (env : ParseEnv) (base : XName) (v : Str) : Decidable (Allowed env base v) := inferInstanceAs (Decidable (_ ∨ _ ∧ _ ∨ _ ∧ _))

/-- All limits can be read. -/
def readingAll (env : ParseEnv) : ParseEnv := { env with isFloat := fun _ => true, isDate := fun _ => true, isDateTime := fun _ => true }

/-- C151 as stated, for schemas that `Normalize` can handle (C149): limits need only be allowed. -/
def C151_accepts_full : Prop := ∀ (env : ParseEnv) (grow : Nat → Nat → Nat) (n : Nat) (ord : MapOrder) (docs : List Element), ReadsNotes env →
  (∀ t ∈ docs, depth t ≤ n) → (∀ t ∈ docs, SchemasApart t) → (∀ t ∈ docs.flatMap schemasIn, Neat t ∧ 3 * depth t ≤ n) → Linked (docs.flatMap schemasIn) →
  SoundSet (readingAll env) (docs.flatMap schemasIn) →
  (∀ t ∈ docs.flatMap schemasIn, ∀ x ∈ below t, IsXs b!"restriction" x → ∀ k ∈ x.children, Limit k → Allowed env (refersTo x b!"base") (attrNamed k b!"value")) →
  ∃ ss H, parse grow n env ord docs = .ok (ss, H)

/-- A simple type with one limit. -/
def limited (base limit : Str) : Element := xs b!"schema" [(b!"targetNamespace", b!"urn:t")] [
  xs b!"simpleType" [(b!"name", b!"a")] [xs b!"restriction" [(b!"base", base)] [xs b!"minInclusive" [(b!"value", limit)] []]]]

theorem parse_stops {env : ParseEnv} {grow : Nat → Nat → Nat} {n : Nat} {ord : MapOrder} {docs : List Element}
    (h : (normalize grow n docs).all (fun roots => (parseRoots env [] [] roots).isNone) = true) : parse grow n env ord docs = .error := by
  unfold parse
  cases hn : normalize grow n docs with
  | none => rfl
  | some roots =>
    rw [hn] at h
    show parseSchemas env ord roots = .error
    rw [parseSchemas, Option.isNone_iff_eq_none.mp h]

/-- C151 is false for limits of times without a time zone. -/
theorem C151_zone_refuted (ord : MapOrder) : parse doubling 20 boundEnv ord [limited b!"xs:dateTime" b!"2020-01-01T00:00:00"] = .error ∧ ¬ C151_accepts_full := by
  have h : parse doubling 20 boundEnv ord [limited b!"xs:dateTime" b!"2020-01-01T00:00:00"] = .error := by
    exact parse_stops (by decide +kernel)
  refine ⟨h, fun hf => ?_⟩
  obtain ⟨ss, H, h2⟩ := hf boundEnv doubling 20 ord [limited b!"xs:dateTime" b!"2020-01-01T00:00:00"] bound_documented (by decide +kernel) (by decide +kernel) (by decide +kernel) (by decide +kernel)
    (sound_set (by decide +kernel) (by decide +kernel)) (by decide +kernel)
  rw [h] at h2
  cases h2

/-- C151 is false for limits of durations. -/
theorem C151_duration_refuted (ord : MapOrder) : parse doubling 20 boundEnv ord [limited b!"xs:duration" b!"P1D"] = .error ∧ ¬ C151_accepts_full := by
  have h : parse doubling 20 boundEnv ord [limited b!"xs:duration" b!"P1D"] = .error := by
    exact parse_stops (by decide +kernel)
  refine ⟨h, fun hf => ?_⟩
  obtain ⟨ss, H, h2⟩ := hf boundEnv doubling 20 ord [limited b!"xs:duration" b!"P1D"] bound_documented (by decide +kernel) (by decide +kernel) (by decide +kernel) (by decide +kernel)
    (sound_set (by decide +kernel) (by decide +kernel)) (by decide +kernel)
  rw [h] at h2
  cases h2

end GoXml.Xsd
