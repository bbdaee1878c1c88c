import Verif.Spec.XsdErrors
import Verif.Proofs.XsdParse
import Verif.Proofs.XsdContent
set_option autoImplicit false

/-! Lemmas about the errors of `Parse`. -/

namespace GoXml.Xsd
open Wsdl (attrNamed allNamed below belows searchEl)

/-! ### There is an error exactly if parsing fails -/

theorem or_none {α : Type} {a b : Option α} : a.or b = none ↔ a = none ∧ b = none := by
  cases a <;> simp

theorem firstFault_none {α : Type} (f : α → Option Fault) (xs : List α) : firstFault f xs = none ↔ ∀ x ∈ xs, f x = none := by
  induction xs with
  | nil => simp [firstFault]
  | cons x xs ih =>
    rw [firstFault]
    cases h : f x <;> simp [h, ih]

theorem walkFault_none (f : Element → Option Fault) (root : Element) :
    walkFault f root = none ↔ ∀ e ∈ root.children, e.name.space = schemaNS → f e = none := by
  unfold walkFault
  rw [Option.map_eq_none_iff, firstFault_none]
  constructor
  · intro h e he hs
    have := h e he
    rwa [if_neg (by simp [hs])] at this
  · intro h e he
    split
    · rfl
    · rename_i hs
      exact h e he (by simpa using hs)

/-- A walk succeeds exactly if its body finds no fault. -/
theorem walk_agrees {σ : Type} (g : σ → Element → Option σ) (f : Element → Option Fault) (root : Element)
    (hf : ∀ s e, e ∈ root.children → e.name.space = schemaNS → (g s e = none ↔ f e ≠ none)) (s : σ) :
    walkFold g s root.children = none ↔ walkFault f root ≠ none := by
  rw [ne_eq, walkFault_none]
  revert hf s
  generalize root.children = es
  intro hf
  induction es with
  | nil => intro s; simp [walkFold]
  | cons e es ih =>
    intro s
    have ih := ih fun s x hx => hf s x (List.mem_cons_of_mem _ hx)
    rw [walkFold]
    split
    · rename_i h
      rw [ih]; simp [h]
    · rename_i h
      have h : e.name.space = schemaNS := by simpa using h
      have := hf s e (by simp) h
      cases hg : g s e with
      | none => simp only [true_iff]; exact fun hn => this.mp hg (hn e (by simp) h)
      | some s' =>
        have hfe : f e = none := by
          cases hfe : f e with
          | none => rfl
          | some x => rw [this.mpr (by simp [hfe])] at hg; cases hg
        simp [ih, hfe]

theorem mapOpt_none {α β : Type} (g : α → Option β) (f : α → Option Fault) (hf : ∀ x, g x = none ↔ f x ≠ none) (xs : List α) :
    mapOpt g xs = none ↔ firstFault f xs ≠ none := by
  induction xs with
  | nil => simp [mapOpt, firstFault]
  | cons x xs ih =>
    rw [mapOpt, firstFault]
    have := hf x
    cases hg : g x with
    | none => cases hx : f x with
      | none => exact absurd hx (this.mp hg)
      | some e => simp
    | some y => cases hx : f x with
      | some e => rw [this.mpr (by simp [hx])] at hg; cases hg
      | none => cases hm : mapOpt g xs <;> simp [hm] at ih ⊢ <;> exact ih

variable {env : ParseEnv} {ee : ErrEnv}

theorem intFault_iff (s : Str) : parseInt s = none ↔ intFault ee s ≠ none := by
  unfold intFault stop
  cases parseInt s <;> simp

theorem decimalFault_iff (s : Str) : parseDecimal env s = none ↔ decimalFault env ee s ≠ none := by
  unfold decimalFault stop
  cases parseDecimal env s <;> simp

theorem boolFault_iff (s : Str) : parseBool s = none ↔ boolFault s ≠ none := by
  unfold boolFault stop
  cases parseBool s <;> simp

theorem annotationFault_iff (el : Element) : env.annotation el = none ↔ annotationFault env ee el ≠ none := by
  unfold annotationFault stop
  cases env.annotation el <;> simp

theorem pluralFault_iff (el : Element) : parsePlural el = none ↔ pluralFault ee el ≠ none := by
  unfold parsePlural pluralFault
  cases h : parseInt (el.attr [] b!"minOccurs") with
  | none => simp [(intFault_iff (ee := ee) _).mp h]
  | some n =>
    simp only
    split
    · simp
    · rw [← intFault_iff]
      cases parseInt (el.attr [] b!"maxOccurs") <;> simp

theorem docsFault_iff (el : Element) : childDocs env el = none ↔ docsFault env ee el ≠ none := by
  unfold childDocs docsFault
  apply walk_agrees
  intro s e _ _
  split
  · rw [Option.map_eq_none_iff, annotationFault_iff]
  · simp

theorem ne_none_or {α : Type} {a b : Option α} : a.or b ≠ none ↔ a ≠ none ∨ b ≠ none := by
  cases a <;> simp

theorem elementFault_iff (ns : Str) (el : Element) : parseElement env ns el = none ↔ elementFault env ee el ≠ none := by
  unfold elementFault
  rw [ne_none_or, ne_none_or, ne_none_or, ne_none_or, ← boolFault_iff, ← boolFault_iff, ← pluralFault_iff, ← docsFault_iff]
  have ho : parseOptional el = none ↔
      (if el.attr [] b!"minOccurs" ≠ [] then intFault ee (el.attr [] b!"minOccurs") else none) ≠ none := by
    unfold parseOptional
    split
    · rw [← intFault_iff]; cases parseInt (el.attr [] b!"minOccurs") <;> simp
    · simp
  rw [← ho]
  unfold parseElement
  cases parseBool (el.attr [] b!"abstract") <;> cases parseBool (el.attr [] b!"nillable") <;> cases parsePlural el <;>
    cases parseOptional el <;> cases childDocs env el <;> simp

theorem attributeFault_iff (ns : Str) (el : Element) : parseAttribute env ns el = none ↔ docsFault env ee el ≠ none := by
  rw [← docsFault_iff]
  unfold parseAttribute
  cases childDocs env el <;> simp

theorem elementLoop_none (ns : Str) (vs : List Element) : ∀ used es, elementLoop env ns used es vs = none ↔
    firstFault (elementFault env ee) vs ≠ none := by
  induction vs with
  | nil => intro used es; simp [elementLoop, firstFault]
  | cons v vs ih =>
    intro used es
    rw [elementLoop, firstFault]
    have := elementFault_iff (ee := ee) (env := env) ns v
    cases hp : parseElement env ns v with
    | none => cases hf : elementFault env ee v with
      | none => exact absurd hf (this.mp hp)
      | some e => simp
    | some elt => cases hf : elementFault env ee v with
      | some e => rw [this.mpr (by simp [hf])] at hp; cases hp
      | none =>
        simp only
        split
        · exact ih _ _
        · exact ih _ _

theorem parseAny_none (vs : List Element) : parseAny vs = none ↔ firstFault (pluralFault ee) (vs.take 1) ≠ none := by
  cases vs with
  | nil => simp [parseAny, firstFault]
  | cons v vs =>
    rw [parseAny, Option.map_eq_none_iff, List.take_succ_cons, List.take_zero, firstFault]
    have : parseAnyElement v = none ↔ parsePlural v = none := by
      unfold parseAnyElement; cases parsePlural v <;> simp
    rw [this, pluralFault_iff (ee := ee)]
    cases pluralFault ee v <;> simp [firstFault]

theorem derivationFault_iff (ns : Str) (ext : Bool) (t : ComplexT) (el : Element) :
    complexDerivation env ns ext t el = none ↔ derivationFault env ee el ≠ none := by
  unfold derivationFault
  rw [ne_none_or, ne_none_or, ← parseAny_none]
  unfold complexDerivation
  cases h1 : parseAny (searchEl el schemaNS b!"any") with
  | none => simp
  | some any =>
    simp only [reduceCtorEq, false_or]
    rw [← elementLoop_none (ee := ee) ns _ [] (t.elements ++ any), ← mapOpt_none (parseAttribute env ns) _ (attributeFault_iff ns)]
    cases elementLoop env ns [] (t.elements ++ any) (searchEl el schemaNS b!"element") with
    | none => simp
    | some es =>
      simp only [reduceCtorEq, false_or]
      cases mapOpt (parseAttribute env ns) (searchEl el schemaNS b!"attribute") <;> simp

theorem complexContentFault_iff (ns : Str) (t : ComplexT) (root : Element) :
    parseComplexContent env ns t root = none ↔ complexContentFault env ee root ≠ none := by
  unfold complexContentFault
  rw [ne_none_or]
  have hm : (if root.attr [] b!"mixed" ≠ [] then parseBool (root.attr [] b!"mixed") else some t.mixed) = none ↔
      (if root.attr [] b!"mixed" ≠ [] then boolFault (root.attr [] b!"mixed") else none) ≠ none := by
    split
    · exact boolFault_iff _
    · simp
  rw [← hm]
  unfold parseComplexContent
  cases (if root.attr [] b!"mixed" ≠ [] then parseBool (root.attr [] b!"mixed") else some t.mixed) with
  | none => simp
  | some mixed =>
    simp only [reduceCtorEq, false_or]
    rw [Option.map_eq_none_iff]
    apply walk_agrees
    intro s e _ _
    split
    · rw [Option.map_eq_none_iff, derivationFault_iff]
    · split
      · rw [Option.map_eq_none_iff, derivationFault_iff]
      · split
        · rw [Option.map_eq_none_iff, annotationFault_iff]
        · simp [stop]

theorem simpleContentFault_iff (ns : Str) (t : ComplexT) (root : Element) :
    parseSimpleContent env ns t root = none ↔ simpleContentFault env ee root ≠ none := by
  unfold simpleContentFault parseSimpleContent
  rw [Option.map_eq_none_iff]
  apply walk_agrees
  intro s e _ _
  split
  · rw [Option.map_eq_none_iff, annotationFault_iff]
  · split
    · simp
    · split
      · rw [Option.map_eq_none_iff, mapOpt_none (parseAttribute env ns) _ (attributeFault_iff ns)]
      · simp

theorem complexTypeFault_iff (ns : Str) (root : Element) : parseComplexType env ns root = none ↔ complexTypeFault env ee root ≠ none := by
  unfold complexTypeFault
  rw [ne_none_or, ne_none_or, ← boolFault_iff, ← boolFault_iff]
  unfold parseComplexType
  cases parseBool (root.attr [] b!"abstract") with
  | none => simp
  | some a =>
    cases parseBool (root.attr [] b!"mixed") with
    | none => simp
    | some m =>
      simp only [reduceCtorEq, false_or]
      rw [Option.map_eq_none_iff]
      apply walk_agrees
      intro s e _ _
      split
      · rw [Option.map_eq_none_iff, annotationFault_iff]
      · split
        · rw [Option.map_eq_none_iff, simpleContentFault_iff]
        · split
          · rw [Option.map_eq_none_iff, complexContentFault_iff]
          · simp [stop]

theorem minMaxFault_iff (base : Ty) (el : Element) : parseMinMax env base el = none ↔ minMaxFault env ee base el ≠ none := by
  unfold parseMinMax minMaxFault
  cases base with
  | builtin b =>
    simp only
    split
    · split <;> simp [stop]
    · split
      · split <;> simp [stop]
      · rw [Option.map_eq_none_iff, decimalFault_iff]
  | link n =>
    simp only
    split
    · simp
    · split
      · simp
      · rw [Option.map_eq_none_iff, decimalFault_iff]
  | obj i => simp only; rw [Option.map_eq_none_iff, decimalFault_iff]

theorem ite_agrees {α : Type} {c : Prop} [Decidable c] {a b : Option α} {x y : Option Fault} (h1 : a = none ↔ x ≠ none)
    (h2 : b = none ↔ y ≠ none) : (if c then a else b) = none ↔ (if c then x else y) ≠ none := by
  split
  · exact h1
  · exact h2

theorem facetFault_iff (base : Ty) (s : Restriction × Str) (el : Element) :
    restrictionStep env base s el = none ↔ facetFault env ee base el ≠ none := by
  unfold restrictionStep facetFault
  refine ite_agrees (by simp) (ite_agrees ?_ (ite_agrees ?_ (ite_agrees ?_ (ite_agrees ?_ (ite_agrees ?_ (ite_agrees (by simp)
    (ite_agrees ?_ (ite_agrees ?_ (ite_agrees ?_ (by simp))))))))))
  · rw [Option.map_eq_none_iff, minMaxFault_iff]
  · rw [Option.map_eq_none_iff, minMaxFault_iff]
  · rw [Option.map_eq_none_iff, intFault_iff]
  · rw [Option.map_eq_none_iff, intFault_iff]
  · rw [Option.map_eq_none_iff, intFault_iff]
  · cases h : parseInt (el.attr [] b!"value") with
    | none => simp only [true_iff]; exact (intFault_iff _).mp h
    | some n => simp only; split <;> simp [stop]
  · rw [Option.map_eq_none_iff, annotationFault_iff]
  · rw [Option.map_eq_none_iff, intFault_iff]

theorem simpleTypeFault_iff (ns : Str) (root : Element) : parseSimpleType env ns root = none ↔ simpleTypeFault env ee root ≠ none := by
  unfold parseSimpleType simpleTypeFault
  rw [Option.map_eq_none_iff]
  apply walk_agrees
  intro s e _ _
  unfold simpleStep
  split
  · simp only
    rw [Option.map_eq_none_iff]
    unfold parseSimpleRestriction
    rw [Option.map_eq_none_iff]
    apply walk_agrees
    intro s e _ _
    exact facetFault_iff _ _ _
  split
  · simp
  split
  · simp
  split
  · rw [Option.map_eq_none_iff, annotationFault_iff]
  · simp

theorem allocLoop_none (g : Element → Option TObj) (f : Element → Option Fault) (hf : ∀ x, g x = none ↔ f x ≠ none)
    (els : List Element) : ∀ m H, allocLoop g m H els = none ↔ firstFault f els ≠ none := by
  induction els with
  | nil => intro m H; simp [allocLoop, firstFault]
  | cons x els ih =>
    intro m H
    rw [allocLoop, firstFault]
    have := hf x
    cases hg : g x with
    | none => cases hx : f x with
      | none => exact absurd hx (this.mp hg)
      | some e => simp
    | some y => cases hx : f x with
      | some e => rw [this.mpr (by simp [hx])] at hg; cases hg
      | none => simp only; exact ih _ _

theorem typesFault_iff (root : Element) (H : THeap) : parseTypes env root H = none ↔ typesFault env ee root ≠ none := by
  unfold typesFault parseTypes
  simp only
  rw [ne_none_or, ne_none_or,
    ← allocLoop_none (fun el => (parseComplexType env (root.attr [] b!"targetNamespace") el).map .complex) _
      (fun x => by rw [Option.map_eq_none_iff, complexTypeFault_iff]) _ [] H]
  cases allocLoop (fun el => (parseComplexType env (root.attr [] b!"targetNamespace") el).map .complex) [] H
      (searchEl root schemaNS b!"complexType") with
  | none => simp
  | some q =>
    obtain ⟨m, H⟩ := q
    simp only [reduceCtorEq, false_or]
    rw [← allocLoop_none (fun el => (parseSimpleType env (root.attr [] b!"targetNamespace") el).map .simple) _
      (fun x => by rw [Option.map_eq_none_iff, simpleTypeFault_iff]) _ m H]
    cases allocLoop (fun el => (parseSimpleType env (root.attr [] b!"targetNamespace") el).map .simple) m H
        (searchEl root schemaNS b!"simpleType") with
    | none => simp
    | some q =>
      obtain ⟨m, H⟩ := q
      simp only [reduceCtorEq, false_or]
      rw [← complexTypeFault_iff (root.attr [] b!"targetNamespace")]
      cases parseComplexType env (root.attr [] b!"targetNamespace") (selfTree root) <;> simp

theorem rootsFault_iff (roots : List Element) : ∀ parsed H, parseRoots env parsed H roots = none ↔
    firstFault (typesFault env ee) roots ≠ none := by
  induction roots with
  | nil => intro p H; simp [parseRoots, firstFault]
  | cons r rs ih =>
    intro p H
    rw [parseRoots, firstFault]
    have := typesFault_iff (env := env) (ee := ee) r H
    cases hp : parseTypes env r H with
    | none => cases hf : typesFault env ee r with
      | none => exact absurd hf (this.mp hp)
      | some e => simp
    | some q => cases hf : typesFault env ee r with
      | some e => rw [this.mpr (by simp [hf])] at hp; cases hp
      | none => simp only; exact ih _ _

/-! ### What the error tells -/

theorem firstFault_some {α : Type} {f : α → Option Fault} {xs : List α} {x : Fault} (h : firstFault f xs = some x) :
    ∃ a ∈ xs, f a = some x := by
  induction xs with
  | nil => cases h
  | cons a xs ih =>
    rw [firstFault] at h
    cases ha : f a with
    | some e => rw [ha] at h; cases h; exact ⟨a, by simp, ha⟩
    | none =>
      rw [ha] at h
      obtain ⟨b, hb, h⟩ := ih h
      exact ⟨b, List.mem_cons_of_mem _ hb, h⟩

theorem walkFault_some {f : Element → Option Fault} {root : Element} {x : Fault} (h : walkFault f root = some x) :
    ∃ e ∈ root.children, e.name.space = w3cSchemaNS ∧ ∃ y, f e = some y ∧ x = ⟨y.message, y.path ++ [root]⟩ := by
  unfold walkFault at h
  obtain ⟨y, hy, rfl⟩ := Option.map_eq_some_iff.mp h
  obtain ⟨e, he, hf⟩ := firstFault_some hy
  split at hf
  · cases hf
  · rename_i hs
    exact ⟨e, he, by simpa [schemaNS_eq] using hs, y, hf, rfl⟩

theorem or_some {α : Type} {a b : Option α} {x : α} (h : a.or b = some x) : a = some x ∨ b = some x := by
  cases a <;> simp_all

theorem child_below {e root : Element} (h : e ∈ root.children) : e ∈ below root := by
  obtain ⟨i, hi⟩ := List.mem_iff_getElem?.mp h
  exact (mem_below_iff root e).mpr ⟨[i], by simp, by simp [Element.at?, hi]⟩

theorem at?_trans {a b : Element} {p : List Nat} (q : List Nat) (h : a.at? p = some b) : a.at? (p ++ q) = b.at? q := by
  induction p generalizing a with
  | nil => cases h; rfl
  | cons i p ih =>
    rw [List.cons_append]
    rw [Element.at?] at h ⊢
    cases hc : a.children[i]? with
    | none => rw [hc] at h; cases h
    | some c => rw [hc] at h; exact ih h

theorem inside_trans {a b c : Element} (h1 : b ∈ below a) (h2 : c ∈ below b) : c ∈ below a := by
  obtain ⟨p, hp, h1⟩ := (mem_below_iff _ _).mp h1
  obtain ⟨q, hq, h2⟩ := (mem_below_iff _ _).mp h2
  exact (mem_below_iff _ _).mpr ⟨p ++ q, by simp [hp], by rw [at?_trans q h1, h2]⟩

theorem mem_search {e root : Element} {k : Str} (h : e ∈ searchEl root schemaNS k) : e ∈ below root ∧ e.name = ⟨w3cSchemaNS, k⟩ := by
  rw [Wsdl.searchEl_eq _ _ _ (by decide)] at h
  unfold allNamed at h
  rw [List.mem_filter] at h
  exact ⟨h.1, of_decide_eq_true h.2⟩

/-- An error about the element itself or, after the element, something inside it. -/
def Tells (env : ParseEnv) (ee : ErrEnv) (e : Element) (x : Fault) : Prop :=
  ∃ w, Trail e x.path.reverse w ∧ Wrong env ee w x.message

theorem Tells.own {e : Element} {m : Str} (h : Wrong env ee e m) : Tells env ee e ⟨m, []⟩ := ⟨e, .here e, h⟩

/-- A walk adds its root. -/
theorem Tells.walk {root e : Element} {y : Fault} (he : e ∈ below root) (h : Tells env ee e y) :
    Tells env ee root ⟨y.message, y.path ++ [root]⟩ := by
  obtain ⟨w, h1, h2⟩ := h
  refine ⟨w, ?_, h2⟩
  simp only [List.reverse_append, List.reverse_cons, List.reverse_nil, List.nil_append, List.singleton_append]
  exact .inside he h1

theorem walk_tells {f : Element → Option Fault} {root : Element} {x : Fault} (h : walkFault f root = some x)
    (hf : ∀ e y, e ∈ root.children → e.name.space = w3cSchemaNS → f e = some y → ∃ d, (d = e ∨ d ∈ below e) ∧ Tells env ee d y) :
    Tells env ee root x := by
  obtain ⟨e, he, hs, y, hy, rfl⟩ := walkFault_some h
  obtain ⟨d, hd, ht⟩ := hf e y he hs hy
  refine Tells.walk ?_ ht
  rcases hd with rfl | hd
  · exact child_below he
  · exact inside_trans (child_below he) hd

theorem bool_wrong {e : Element} {k : Str} {x : Fault} (hk : k = b!"abstract" ∨ k = b!"nillable" ∨ k = b!"mixed")
    (h : boolFault (e.attr [] k) = some x) : Tells env ee e x := by
  unfold boolFault stop at h
  cases hp : parseBool (e.attr [] k) with
  | some b => rw [hp] at h; cases h
  | none =>
    rw [hp] at h
    cases h
    rw [Wsdl.attr_eq] at hp ⊢
    exact Tells.own (.boolean k hk ((parseBool_none _).mp hp))

theorem int_wrong {e : Element} {k : Str} {x : Fault} (hk : k = b!"minOccurs" ∨ k = b!"maxOccurs" ∨ k = b!"value")
    (h : intFault ee (e.attr [] k) = some x) : Tells env ee e x := by
  unfold intFault stop at h
  cases hp : parseInt (e.attr [] k) with
  | some b => rw [hp] at h; cases h
  | none =>
    rw [hp] at h
    cases h
    rw [Wsdl.attr_eq] at hp ⊢
    exact Tells.own (.number k _ hk ((parseInt_none _).mp hp) (Gen.trimSpace_spec _))

theorem decimal_wrong {e : Element} {x : Fault} (h : decimalFault env ee (e.attr [] b!"value") = some x) : Tells env ee e x := by
  unfold decimalFault stop at h
  cases hp : parseDecimal env (e.attr [] b!"value") with
  | some b => rw [hp] at h; cases h
  | none =>
    rw [hp] at h
    cases h
    rw [Wsdl.attr_eq] at hp ⊢
    unfold parseDecimal at hp
    split at hp
    · cases hp
    · rename_i h1
      split at hp
      · cases hp
      · rename_i h2
        exact Tells.own (.decimal _ (Gen.trimSpace_spec _) h1 (by simpa using h2))

theorem xname_eq {n : XName} {s l : Str} (h1 : n.space = s) (h2 : n.loc = l) : n = ⟨s, l⟩ := by
  cases n; simp_all

theorem annotation_wrong {e : Element} {x : Fault} (hs : e.name.space = w3cSchemaNS) (hl : e.name.loc = b!"annotation")
    (h : annotationFault env ee e = some x) : Tells env ee e x := by
  unfold annotationFault stop at h
  cases hp : env.annotation e with
  | some b => rw [hp] at h; cases h
  | none =>
    rw [hp] at h
    cases h
    exact Tells.own (.annotation (xname_eq hs hl) hp)

theorem docs_wrong {e : Element} {x : Fault} (h : docsFault env ee e = some x) : Tells env ee e x := by
  apply walk_tells h
  intro c y _ hs hc
  split at hc
  · rename_i hl
    exact ⟨c, Or.inl rfl, annotation_wrong hs hl hc⟩
  · cases hc

theorem plural_wrong {e : Element} {x : Fault} (h : pluralFault ee e = some x) : Tells env ee e x := by
  unfold pluralFault at h
  cases hp : parseInt (e.attr [] b!"minOccurs") with
  | none => rw [hp] at h; exact int_wrong (Or.inl rfl) h
  | some n =>
    rw [hp] at h
    simp only at h
    split at h
    · cases h
    · exact int_wrong (Or.inr (Or.inl rfl)) h

theorem element_wrong {e : Element} {x : Fault} (h : elementFault env ee e = some x) : Tells env ee e x := by
  unfold elementFault at h
  rcases or_some h with h | h
  · exact bool_wrong (Or.inl rfl) h
  rcases or_some h with h | h
  · exact bool_wrong (Or.inr (Or.inl rfl)) h
  rcases or_some h with h | h
  · exact plural_wrong h
  rcases or_some h with h | h
  · split at h
    · exact int_wrong (Or.inl rfl) h
    · cases h
  · exact docs_wrong h

theorem attributes_wrong {e : Element} {x : Fault} (h : firstFault (docsFault env ee) (searchEl e schemaNS b!"attribute") = some x) :
    ∃ d ∈ below e, Tells env ee d x := by
  obtain ⟨d, hd, h⟩ := firstFault_some h
  exact ⟨d, (mem_search hd).1, docs_wrong h⟩

theorem derivation_wrong {e : Element} {x : Fault} (h : derivationFault env ee e = some x) : ∃ d ∈ below e, Tells env ee d x := by
  unfold derivationFault at h
  rcases or_some h with h | h
  · obtain ⟨d, hd, h⟩ := firstFault_some h
    exact ⟨d, (mem_search (List.mem_of_mem_take hd)).1, plural_wrong h⟩
  rcases or_some h with h | h
  · obtain ⟨d, hd, h⟩ := firstFault_some h
    exact ⟨d, (mem_search hd).1, element_wrong h⟩
  · exact attributes_wrong h

theorem complexContent_wrong {e : Element} {x : Fault} (h : complexContentFault env ee e = some x) : Tells env ee e x := by
  unfold complexContentFault at h
  rcases or_some h with h | h
  · split at h
    · exact bool_wrong (Or.inr (Or.inr rfl)) h
    · cases h
  · apply walk_tells h
    intro c y _ hs hc
    split at hc
    · obtain ⟨d, hd, h⟩ := derivation_wrong hc; exact ⟨d, Or.inr hd, h⟩
    rename_i n1
    split at hc
    · obtain ⟨d, hd, h⟩ := derivation_wrong hc; exact ⟨d, Or.inr hd, h⟩
    rename_i n2
    split at hc
    · rename_i hl; exact ⟨c, Or.inl rfl, annotation_wrong hs hl hc⟩
    rename_i n3
    cases hc
    exact ⟨c, Or.inl rfl, Tells.own (.unexpected hs (Or.inr (by simp only [List.mem_cons, List.not_mem_nil, or_false, not_or]; exact ⟨n3, n1, n2⟩)))⟩

theorem simpleContent_wrong {e : Element} {x : Fault} (h : simpleContentFault env ee e = some x) : Tells env ee e x := by
  apply walk_tells h
  intro c y _ hs hc
  split at hc
  · rename_i hl; exact ⟨c, Or.inl rfl, annotation_wrong hs hl hc⟩
  split at hc
  · cases hc
  split at hc
  · obtain ⟨d, hd, h⟩ := attributes_wrong hc; exact ⟨d, Or.inr hd, h⟩
  · cases hc

theorem complexType_wrong {e : Element} {x : Fault} (h : complexTypeFault env ee e = some x) : Tells env ee e x := by
  unfold complexTypeFault at h
  rcases or_some h with h | h
  · exact bool_wrong (Or.inl rfl) h
  rcases or_some h with h | h
  · exact bool_wrong (Or.inr (Or.inr rfl)) h
  · apply walk_tells h
    intro c y _ hs hc
    split at hc
    · rename_i hl; exact ⟨c, Or.inl rfl, annotation_wrong hs hl hc⟩
    rename_i n1
    split at hc
    · exact ⟨c, Or.inl rfl, simpleContent_wrong hc⟩
    rename_i n2
    split at hc
    · exact ⟨c, Or.inl rfl, complexContent_wrong hc⟩
    rename_i n3
    cases hc
    exact ⟨c, Or.inl rfl, Tells.own (.unexpected hs (Or.inl (by simp only [List.mem_cons, List.not_mem_nil, or_false, not_or]; exact ⟨n1, n2, n3⟩)))⟩

theorem minMax_wrong {base : Ty} {e : Element} {x : Fault} (h : minMaxFault env ee base e = some x) : Tells env ee e x := by
  unfold minMaxFault at h
  cases base with
  | builtin b =>
    simp only [stop] at h
    split at h
    · split at h
      · cases h
      · rename_i hd
        cases h
        rw [Wsdl.attr_eq] at hd ⊢
        exact Tells.own (.date (by simpa using hd))
    · split at h
      · split at h
        · cases h
        · rename_i hd
          cases h
          rw [Wsdl.attr_eq] at hd ⊢
          exact Tells.own (.dateTime (by simpa using hd))
      · exact decimal_wrong h
  | link n =>
    simp only at h
    split at h
    · cases h
    · split at h
      · cases h
      · exact decimal_wrong h
  | obj i => exact decimal_wrong h

theorem facet_wrong {base : Ty} {e : Element} {x : Fault} (hs : e.name.space = w3cSchemaNS) (h : facetFault env ee base e = some x) :
    Tells env ee e x := by
  unfold facetFault at h
  extract_lets v k at h
  split at h
  · cases h
  split at h
  · exact minMax_wrong h
  split at h
  · exact minMax_wrong h
  split at h
  · exact int_wrong (Or.inr (Or.inr rfl)) h
  split at h
  · exact int_wrong (Or.inr (Or.inr rfl)) h
  split at h
  · exact int_wrong (Or.inr (Or.inr rfl)) h
  split at h
  · cases h
  split at h
  · rename_i hl
    cases hp : parseInt (e.attr [] b!"value") with
    | none => rw [hp] at h; exact int_wrong (Or.inr (Or.inr rfl)) h
    | some n =>
      rw [hp] at h
      simp only [stop] at h
      split at h
      · rename_i hn
        cases h
        rw [Wsdl.attr_eq] at hp
        rw [show v = attrNamed e b!"value" from Wsdl.attr_eq _ _]
        exact Tells.own (.negative n (xname_eq hs hl) ((parseInt_iff _ _).mp hp) hn)
      · cases h
  split at h
  · rename_i hl; exact annotation_wrong hs hl h
  split at h
  · exact int_wrong (Or.inr (Or.inr rfl)) h
  · cases h

theorem simpleType_wrong {e : Element} {x : Fault} (h : simpleTypeFault env ee e = some x) : Tells env ee e x := by
  apply walk_tells h
  intro c y _ hs hc
  split at hc
  · refine ⟨c, Or.inl rfl, ?_⟩
    apply walk_tells hc
    intro d z _ hs hd
    exact ⟨d, Or.inl rfl, facet_wrong hs hd⟩
  split at hc
  · cases hc
  split at hc
  · cases hc
  split at hc
  · rename_i hl; exact ⟨c, Or.inl rfl, annotation_wrong hs hl hc⟩
  · cases hc

/-! ### The text -/

theorem joinWith_eq (sep : Str) (l : List Str) : Gen.joinWith sep l = List.intercalate sep l := by
  induction l with
  | nil => rfl
  | cons a l ih =>
    cases l with
    | nil => simp [Gen.joinWith, List.intercalate]
    | cons b l =>
      rw [Gen.joinWith, ih]
      simp [List.intercalate]

theorem crumb_eq (e : Element) : crumb e = called e := by
  unfold crumb called
  rw [Wsdl.attr_eq]
  by_cases h : attrNamed e b!"name" = [] <;> simp [h]

theorem text_eq (f : Fault) : f.text = errorText (f.path.reverse.map called) f.message := by
  unfold Fault.text errorText
  rw [joinWith_eq, show crumb = called from funext crumb_eq]

end GoXml.Xsd
