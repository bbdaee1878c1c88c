import Verif.Proofs.XsdMissing
import Verif.Props.XsdErrors
set_option autoImplicit false

/-! Property C147: the error for a type that is not defined names it.

The full statement is: if a type that a schema refers to is not defined, the error of `Parse` names this type and where the schema
refers to it; the documents alone determine it. -/

namespace GoXml.Xsd
open Wsdl (attrNamed)

/-- C147, partial: if the types of the schemas can be read, `Parse` fails exactly if there is an error for a missing type. This error
names a type that neither is built in nor was read, and where it is used: the type with the kind and name of the use, as they were
read, or the top-level element. -/
theorem C147_named_partial (quote : Str → Str) (grow : Nat → Nat → Nat) (n : Nat) (env : ParseEnv) (ee : ErrEnv) (ord : MapOrder) (docs roots : List Element)
    (p0 : GoMap Str Schema) (H0 : THeap) (hn : normalize grow n docs = some roots) (hp : parseRoots env [] [] roots = some (p0, H0)) :
    (parse grow n env ord docs = .error ↔ parseErrorText quote grow n env ee ord docs ≠ none) ∧
    ∀ text, parseErrorText quote grow n env ee ord docs = some text →
      ∃ m, Undefined p0 H0 m ∧
        ((∃ k s key id o, p0.get k = some s ∧ s.types.get key = some (.obj id) ∧ H0[id]? = some o ∧ TellsUse quote o m text) ∨
          ∃ r ∈ roots, TellsElement (target r) r m text) := by
  have hf : firstFault (typesFault env ee) roots = none := by
    cases h : firstFault (typesFault env ee) roots with
    | none => rfl
    | some f => rw [(rootsFault_iff (env := env) (ee := ee) roots [] []).mpr (by simp [h])] at hp; cases hp
  obtain ⟨hpar, _, _, hin⟩ := parsed_roots roots parsed_nil hp
  have hsome : ∀ r ∈ roots, p0.get (target r) ≠ none := by
    intro r hr
    obtain ⟨_, _, _, s, _, _, hs, _⟩ := hin _ (List.mem_map.mpr ⟨r, hr, rfl⟩)
    rw [hs]; simp
  obtain ⟨h1, h2⟩ := finishFault_spec (quote := quote) (ord := ord) hpar roots [] p0 H0 0 (fun r hr => ⟨hr, hsome r hr⟩) (inv_start hpar roots)
    (fun _ o ho => ⟨o, ho, later_refl o⟩)
  unfold parseErrorText parse parseSchemas
  simp only [hn, hf, hp]
  refine ⟨?_, h2⟩
  rw [show collectAll ord H0 [] 0 (ord.run 0 0 (p0.map (·.2))) = extOf ord p0 H0 from rfl, ← h1]
  cases finishRoots ord (extOf ord p0 H0) p0 H0 0 roots with
  | ok q => simp
  | error => simp
  | panic => simp

/-- C147, partial: with C146, every document that can be normalized and makes `Parse` fail gives an error text. -/
theorem C147_some_partial (quote : Str → Str) (grow : Nat → Nat → Nat) (n : Nat) (env : ParseEnv) (ee : ErrEnv) (ord : MapOrder) (docs roots : List Element)
    (hn : normalize grow n docs = some roots) : parse grow n env ord docs = .error ↔ parseErrorText quote grow n env ee ord docs ≠ none := by
  cases hp : parseRoots env [] [] roots with
  | some q =>
    obtain ⟨p0, H0⟩ := q
    exact (C147_named_partial quote grow n env ee ord docs roots p0 H0 hn hp).1
  | none =>
    have hf := (rootsFault_iff (env := env) (ee := ee) roots [] []).mp hp
    unfold parseErrorText parse parseSchemas
    simp only [hn, hp]
    cases h : firstFault (typesFault env ee) roots with
    | none => exact absurd h hf
    | some f => simp

/-- C146, partial: if the types of the schemas cannot be read, the text of the error of `Parse` is about one element of a
schema, as in `C146_place_partial`. -/
theorem C146_told_partial (quote : Str → Str) (grow : Nat → Nat → Nat) (n : Nat) (env : ParseEnv) (ee : ErrEnv) (ord : MapOrder) (docs roots : List Element)
    (hn : normalize grow n docs = some roots) (hp : parseRoots env [] [] roots = none) :
    ∃ root ∈ roots, ∃ w trail msg, Wrong env ee w msg ∧
      ((∃ T, TypeDef root T ∧ Trail T trail w ∧ parseErrorText quote grow n env ee ord docs = some (errorText (trail.map called) msg)) ∨
       (∃ e ∈ root.children, e.name = ⟨w3cSchemaNS, b!"element"⟩ ∧ ∃ d, (d = e ∨ d ∈ Wsdl.below e) ∧ Trail d trail w ∧
          parseErrorText quote grow n env ee ord docs = some (errorText (b!"complexType(_self)" :: b!"complexContent" :: trail.map called) msg)) ∨
       (w = root ∧ parseErrorText quote grow n env ee ord docs = some (errorText [] msg))) := by
  have hf := (rootsFault_iff (env := env) (ee := ee) roots [] []).mp hp
  obtain ⟨f, hf⟩ := Option.ne_none_iff_exists'.mp hf
  obtain ⟨roots', root, w, trail, msg, h1, h2, h3, h4⟩ := C146_place_partial grow n env ee docs f (by rw [parseFault, hn]; exact hf)
  obtain rfl : roots = roots' := Option.some.inj (hn.symm.trans h1)
  have ht : parseErrorText quote grow n env ee ord docs = some f.text := by
    unfold parseErrorText
    simp only [hn, hf]
  rw [ht]
  refine ⟨root, h2, w, trail, msg, h3, ?_⟩
  simpa only [Option.some.injEq] using h4

example : ∃ roots, normalize doubling 20 [xs b!"schema" [(b!"targetNamespace", b!"urn:t")] [facet b!"xs:string" b!"maxLength" b!" x "]] = some roots ∧
    parseRoots plainEnv [] [] roots = none := by
  have h : (normalize doubling 20 [xs b!"schema" [(b!"targetNamespace", b!"urn:t")] [facet b!"xs:string" b!"maxLength" b!" x "]]).any
      (fun roots => (parseRoots plainEnv [] [] roots).isNone) = true := by decide +kernel
  obtain ⟨roots, h1, h2⟩ := (Option.any_eq_true _ _).mp h
  exact ⟨roots, h1, Option.isNone_iff_eq_none.mp h2⟩

/-! ### Documents -/

/-- The text for a schema, with the types of a map in their order or in the reverse order. -/
def missingText (ord : MapOrder) (parts : List Element) : Option Str :=
  parseErrorText (fun s => b!"\"" ++ s ++ b!"\"") doubling 20 boundEnv plainErr ord [xs b!"schema" [(b!"targetNamespace", b!"urn:t")] parts]

def firstToLast : MapOrder := ⟨fun _ _ _ l => l, fun _ _ _ l => List.Perm.refl l⟩
def lastToFirst : MapOrder := ⟨fun _ _ _ l => l.reverse, fun _ _ _ l => List.reverse_perm l⟩

def holding (name el type : Str) : Element :=
  xs b!"complexType" [(b!"name", name)] [xs b!"sequence" [] [xs b!"element" [(b!"name", el), (b!"type", type)] []]]

/-- C147 is false if two types are missing: which one is reported depends on the order in which a map is visited. -/
theorem C147_order_refuted :
    missingText firstToLast [holding b!"A" b!"a" b!"t:x", holding b!"B" b!"b" b!"t:y"] =
      some b!"complexType A: could not find type \"x\" in namespace urn:t for element a" ∧
    missingText lastToFirst [holding b!"A" b!"a" b!"t:x", holding b!"B" b!"b" b!"t:y"] =
      some b!"complexType B: could not find type \"y\" in namespace urn:t for element b" := by
  constructor <;> decide +kernel

/-- C147 is false for types without a name and for top-level elements: the error names types that the schema does not contain. -/
theorem C147_invented_refuted :
    missingText firstToLast [strEl b!"a" [], xs b!"element" [(b!"name", b!"b"), (b!"type", b!"t:x")] []] =
      some b!"complexType _self: could not find type \"x\" in namespace urn:t for element b" ∧
    missingText firstToLast [xs b!"simpleType" [(b!"name", b!"A")] [xs b!"list" [] [xs b!"simpleType" [] [xs b!"restriction" [(b!"base", b!"t:x")] []]]]] =
      some b!"simpleType _anon1: could not find base type x in namespace urn:t" := by
  constructor <;> decide +kernel

example : missingText firstToLast [xs b!"simpleType" [(b!"name", b!"S")] [xs b!"union" [(b!"memberTypes", b!"xs:string t:x")] []]] =
    some b!"simpleType S: could not find union memberType x in namespace urn:t" := by decide +kernel
example : missingText firstToLast [xs b!"complexType" [(b!"name", b!"A")] [xs b!"attribute" [(b!"name", b!"n"), (b!"type", b!"t:x")] []]] =
    some b!"complexType A: could not find type x in namespace urn:t for attribute n" := by decide +kernel
example : missingText firstToLast [xs b!"complexType" [(b!"name", b!"A")] [xs b!"complexContent" [] [xs b!"extension" [(b!"base", b!"t:x")] []]]] =
    some b!"complexType A: could not find base type x in namespace urn:t" := by decide +kernel
example : missingText lastToFirst [holding b!"A" b!"a" b!"t:B", holding b!"B" b!"b" b!"xs:string"] = none := by decide +kernel

end GoXml.Xsd
