import Verif.Proofs.XsdErrors
import Verif.Props.XsdCanonical
import Verif.Props.XsdDeref
set_option autoImplicit false

/-! Property C146: the error of `Parse` says where the schema is wrong.

The full statement is: if `Parse` cannot read a type, the text of its error names elements of the schema, each inside the one
before, from the definition of the type down to the element at fault, and says what is wrong with that element. -/

namespace GoXml.Xsd
open Wsdl (attrNamed allNamed below belows searchEl)

/-- C146, partial: for documents that can be normalized, there is such an error exactly if the types cannot be read, and then
`Parse` returns an error. -/
theorem C146_error_partial (grow : Nat → Nat → Nat) (n : Nat) (env : ParseEnv) (ee : ErrEnv) (ord : MapOrder) (docs roots : List Element)
    (hn : normalize grow n docs = some roots) :
    (parseFault grow n env ee docs = none ↔ ∃ r, parseRoots env [] [] roots = some r) ∧
    (parseFault grow n env ee docs ≠ none → parse grow n env ord docs = .error) := by
  unfold parseFault
  rw [hn, Option.bind_some]
  have h := rootsFault_iff (env := env) (ee := ee) roots [] []
  constructor
  · cases hp : parseRoots env [] [] roots with
    | none => simp [h.mp hp]
    | some r =>
      simp only [Option.some.injEq, exists_eq', iff_true]
      cases hf : firstFault (typesFault env ee) roots with
      | none => rfl
      | some f => rw [h.mpr (by simp [hf])] at hp; cases hp
  · intro hf
    unfold parse parseSchemas
    rw [hn]
    simp only [h.mpr hf]

theorem boolFault_message {s : Str} {f : Fault} (h : boolFault s = some f) : f = ⟨b!"Invalid boolean value " ++ s, []⟩ ∧ ∀ b, ¬ BoolText s b := by
  unfold boolFault stop at h
  cases hp : parseBool s with
  | some b => rw [hp] at h; cases h
  | none => rw [hp] at h; cases h; exact ⟨rfl, (parseBool_none _).mp hp⟩

theorem selfTree_attr (root : Element) (k : Str) (hk : k ≠ b!"name") : (selfTree root).attr [] k = attrNamed root k := by
  rw [← Wsdl.attr_eq root k]
  exact attr_attrSet_other root.attrs [] b!"name" b!"_self" [] k hk

theorem called_self (root : Element) : called (selfTree root) = b!"complexType(_self)" := by
  unfold called
  rw [← Wsdl.attr_eq, show (selfTree root).attr [] b!"name" = b!"_self" from attr_attrSet_same root.attrs [] b!"name" b!"_self"]
  rfl

theorem mem_belows_child {x : Element} {cs : List Element} (h : x ∈ belows cs) : ∃ c ∈ cs, x = c ∨ x ∈ below c := by
  induction cs with
  | nil => cases h
  | cons c cs ih =>
    rw [belows, List.mem_cons, List.mem_append] at h
    rcases h with h | h | h
    · exact ⟨c, by simp, Or.inl h⟩
    · exact ⟨c, by simp, Or.inr h⟩
    · obtain ⟨d, hd, h⟩ := ih h
      exact ⟨d, List.mem_cons_of_mem _ hd, h⟩

/-- A walk over an element with one child. -/
theorem walkFault_one (g : Element → Option Fault) (n : XName) (as : List Attr) (sc : Scope) (ct : Str) (c : Element)
    (hc : c.name.space = schemaNS) :
    walkFault g (.mk n as sc ct [c]) = (g c).map fun x => { x with path := x.path ++ [.mk n as sc ct [c]] } := by
  unfold walkFault
  rw [show (Element.mk n as sc ct [c]).children = [c] from rfl, firstFault, if_neg (by simp [hc])]
  cases g c <;> simp [firstFault]

/-- What can be wrong with the top-level elements. -/
theorem self_wrong {env : ParseEnv} {ee : ErrEnv} {root : Element} {f : Fault} (h : complexTypeFault env ee (selfTree root) = some f) :
    (Wrong env ee root f.message ∧ f.path = []) ∨
    ∃ e ∈ root.children, e.name = ⟨w3cSchemaNS, b!"element"⟩ ∧ ∃ d, (d = e ∨ d ∈ below e) ∧ ∃ trail w, Trail d trail w ∧
      Wrong env ee w f.message ∧ f.path.reverse.map called = b!"complexType(_self)" :: b!"complexContent" :: trail.map called := by
  unfold complexTypeFault at h
  rcases or_some h with h | h
  · rw [selfTree_attr _ _ (by decide)] at h
    obtain ⟨rfl, hb⟩ := boolFault_message h
    exact Or.inl ⟨.boolean _ (Or.inl rfl) hb, rfl⟩
  rcases or_some h with h | h
  · rw [selfTree_attr _ _ (by decide)] at h
    obtain ⟨rfl, hb⟩ := boolFault_message h
    exact Or.inl ⟨.boolean _ (Or.inr (Or.inr rfl)) hb, rfl⟩
  right
  have hself : ∀ g : Element → Option Fault, walkFault g (selfTree root) = _ := fun g => walkFault_one g _ _ _ _ _ rfl
  rw [hself, if_neg (by show ¬ (b!"complexContent" : Str) = b!"annotation"; decide),
    if_neg (by show ¬ (b!"complexContent" : Str) = b!"simpleContent"; decide), if_pos (by rfl)] at h
  obtain ⟨x, hx, rfl⟩ := Option.map_eq_some_iff.mp h
  unfold complexContentFault at hx
  rw [if_neg (by show ¬ ([] : Str) ≠ []; decide), Option.none_or, walkFault_one _ _ _ _ _ _ rfl,
    if_neg (by show ¬ (b!"restriction" : Str) = b!"extension"; decide), if_pos (by rfl)] at hx
  obtain ⟨y, hy, rfl⟩ := Option.map_eq_some_iff.mp hx
  obtain ⟨d, hd, w, ht, hw⟩ := derivation_wrong hy
  obtain ⟨e, he, hd⟩ := mem_belows_child hd
  rw [List.mem_filter] at he
  refine ⟨e, he.1, of_decide_eq_true he.2, d, hd, y.path.reverse, w, ht, hw, ?_⟩
  simp only [List.reverse_append, List.reverse_cons, List.reverse_nil, List.nil_append, List.singleton_append, List.cons_append,
    List.map_cons, List.cons.injEq, and_true]
  exact ⟨called_self root, rfl⟩

/-- C146, partial: the error is about one element `w` of a normalized schema and says what is wrong with it. The place consists of
elements around `w`, each inside the one before; it begins with the definition of a type, unless it is empty and the definition
itself is at fault. Or `w` is in a top-level element, and the place begins with a type `_self`; or it is the schema itself. -/
theorem C146_place_partial (grow : Nat → Nat → Nat) (n : Nat) (env : ParseEnv) (ee : ErrEnv) (docs : List Element) (f : Fault)
    (h : parseFault grow n env ee docs = some f) :
    ∃ roots root w trail msg, normalize grow n docs = some roots ∧ root ∈ roots ∧ Wrong env ee w msg ∧
      ((∃ T, TypeDef root T ∧ Trail T trail w ∧ f.text = errorText (trail.map called) msg) ∨
       (∃ e ∈ root.children, e.name = ⟨w3cSchemaNS, b!"element"⟩ ∧ ∃ d, (d = e ∨ d ∈ below e) ∧ Trail d trail w ∧
          f.text = errorText (b!"complexType(_self)" :: b!"complexContent" :: trail.map called) msg) ∨
       (w = root ∧ f.text = errorText [] msg)) := by
  unfold parseFault at h
  obtain ⟨roots, hn, h⟩ := Option.bind_eq_some_iff.mp h
  obtain ⟨root, hr, h⟩ := firstFault_some h
  rw [text_eq]
  unfold typesFault at h
  rcases or_some h with h | h
  · obtain ⟨T, hT, h⟩ := firstFault_some h
    rw [Wsdl.searchEl_eq _ _ _ (by decide)] at hT
    obtain ⟨w, ht, hw⟩ := complexType_wrong h
    exact ⟨roots, root, w, _, _, hn, hr, hw, Or.inl ⟨T, Or.inl hT, ht, rfl⟩⟩
  rcases or_some h with h | h
  · obtain ⟨T, hT, h⟩ := firstFault_some h
    rw [Wsdl.searchEl_eq _ _ _ (by decide)] at hT
    obtain ⟨w, ht, hw⟩ := simpleType_wrong h
    exact ⟨roots, root, w, _, _, hn, hr, hw, Or.inl ⟨T, Or.inr hT, ht, rfl⟩⟩
  rcases self_wrong h with ⟨hw, hp⟩ | ⟨e, he, hne, d, hd, trail, w, ht, hw, hp⟩
  · exact ⟨roots, root, root, [], _, hn, hr, hw, Or.inr (Or.inr ⟨rfl, by rw [hp]; rfl⟩)⟩
  · exact ⟨roots, root, w, trail, _, hn, hr, hw, Or.inr (Or.inl ⟨e, he, hne, d, hd, ht, by rw [hp]⟩)⟩

mutual
theorem below_size (x : Element) : ∀ e : Element, x ∈ below e → sizeOf x < sizeOf e
  | .mk n a s c cs, h => by
    rw [below] at h
    have := belows_size x cs h
    simp only [Element.mk.sizeOf_spec]
    omega
theorem belows_size (x : Element) : ∀ cs : List Element, x ∈ belows cs → sizeOf x < sizeOf cs
  | [], h => by cases h
  | c :: cs, h => by
    rw [belows, List.mem_cons, List.mem_append] at h
    simp only [List.cons.sizeOf_spec]
    rcases h with rfl | h | h
    · omega
    · have := below_size x c h; omega
    · have := belows_size x cs h; omega
end

theorem trail_size {T w : Element} {trail : List Element} (h : Trail T trail w) : sizeOf w ≤ sizeOf T ∧ ∀ x ∈ trail, sizeOf w < sizeOf x := by
  induction h with
  | here e => exact ⟨Nat.le_refl _, by simp⟩
  | @inside top next e trail h1 _ ih =>
    have := below_size _ _ h1
    refine ⟨by omega, ?_⟩
    intro x hx
    rcases List.mem_cons.mp hx with rfl | hx
    · omega
    · exact ih.2 x hx

/-- C146 is false for all documents: the element at fault is never part of the place, which only consists of elements around it. -/
theorem C146_never_refuted {T w : Element} {trail : List Element} (h : Trail T trail w) : w ∉ trail :=
  fun hw => absurd ((trail_size h).2 w hw) (Nat.lt_irrefl _)

/-! ### Documents -/

/-- Errors of other packages. -/
def plainErr : ErrEnv where
  annotation _ := b!"EOF"
  number s := b!"strconv.Atoi: parsing \"" ++ s ++ b!"\": invalid syntax"
  float s := b!"strconv.ParseFloat: parsing \"" ++ s ++ b!"\": invalid syntax"
  time f s := b!"parsing time \"" ++ s ++ b!"\" as \"" ++ f ++ b!"\""

/-- The text of the error for a schema with the given components. -/
def errorOf (parts : List Element) : Option Str :=
  (parseFault doubling 20 { boundEnv with annotation := fun e => if e.content = b!"bad" then none else some [] } plainErr
    [xs b!"schema" [(b!"targetNamespace", b!"urn:t")] parts]).map Fault.text

def strEl (name : Str) (attrs : List (Str × Str)) : Element :=
  xs b!"element" ([(b!"name", name), (b!"type", b!"xs:string")] ++ attrs) []

def typeOf (parts : List Element) : Element := xs b!"complexType" [(b!"name", b!"T")] parts

def badNote : Element := .mk ⟨schemaNS, b!"annotation"⟩ [] [] b!"bad" []

def facet (base k v : Str) : Element :=
  xs b!"simpleType" [(b!"name", b!"S")] [xs b!"restriction" [(b!"base", base)] [xs k [(b!"value", v)] []]]

/-- C146 is false for the declarations in a type: the error is the same, no matter which of them is wrong. -/
theorem C146_same_refuted :
    errorOf [typeOf [xs b!"sequence" [] [strEl b!"a" [(b!"nillable", b!"maybe")], strEl b!"b" []]]] =
      some b!"Error at complexType(T)>complexContent: Invalid boolean value maybe" ∧
    errorOf [typeOf [xs b!"sequence" [] [strEl b!"a" [], strEl b!"b" [(b!"abstract", b!"maybe")]]]] =
      some b!"Error at complexType(T)>complexContent: Invalid boolean value maybe" := by
  constructor <;> decide +kernel

/-- C146 is false for attributes of the definition of a type: the error does not say which type it is in. -/
theorem C146_nowhere_refuted :
    errorOf [typeOf [], xs b!"complexType" [(b!"name", b!"U"), (b!"mixed", b!"maybe")] []] = some b!"Error at : Invalid boolean value maybe" := by
  decide +kernel

/-- C146 is false for top-level elements: the error is about a type that the schema does not define. -/
theorem C146_self_refuted :
    errorOf [typeOf [], strEl b!"a" [(b!"abstract", b!"maybe")]] =
      some b!"Error at complexType(_self)>complexContent: Invalid boolean value maybe" := by
  decide +kernel

/-! Further errors. The first one in the order of reading is reported. -/

example : errorOf [facet b!"xs:string" b!"maxLength" b!" x "] =
    some b!"Error at simpleType(S)>restriction: strconv.Atoi: parsing \"x\": invalid syntax" := by decide +kernel
example : errorOf [facet b!"xs:date" b!"maxInclusive" b!"soon"] =
    some b!"Error at simpleType(S)>restriction: parsing time \"soon\" as \"2006-01-02\"" := by decide +kernel
example : errorOf [facet b!"xs:dateTime" b!"minInclusive" b!"soon"] =
    some b!"Error at simpleType(S)>restriction: parsing time \"soon\" as \"2006-01-02T15:04:05Z07:00\"" := by decide +kernel
example : errorOf [facet b!"xs:decimal" b!"minExclusive" b!"few"] =
    some b!"Error at simpleType(S)>restriction: strconv.ParseFloat: parsing \"few\": invalid syntax" := by decide +kernel
example : errorOf [facet b!"xs:decimal" b!"fractionDigits" b!"-2"] =
    some b!"Error at simpleType(S)>restriction: Invalid fractionDigits value -2" := by decide +kernel
example : errorOf [typeOf [badNote, strEl b!"a" [(b!"abstract", b!"maybe")]]] = some b!"Error at complexType(T): EOF" := by decide +kernel
example : errorOf [typeOf [xs b!"sequence" [] [xs b!"element" [(b!"name", b!"a"), (b!"type", b!"xs:string")] [badNote]]]] =
    some b!"Error at complexType(T)>complexContent>element(a): EOF" := by decide +kernel
example : errorOf [typeOf [xs b!"sequence" [] [strEl b!"a" [(b!"nillable", b!"p"), (b!"abstract", b!"q"), (b!"minOccurs", b!"r")]]]] =
    some b!"Error at complexType(T)>complexContent: Invalid boolean value q" := by decide +kernel
example : errorOf [facet b!"xs:string" b!"length" b!"x", typeOf [xs b!"complexContent" [] [xs b!"sequence" [] []]]] =
    some b!"Error at complexType(T)>complexContent: unexpected element sequence" := by decide +kernel
example : errorOf [facet b!"xs:string" b!"length" b!"7", typeOf []] = none := by decide +kernel

end GoXml.Xsd
