import Verif.Proofs.XsdResolve
import Verif.Proofs.XsdMixed
import Verif.Spec.XsdSchema
set_option autoImplicit false

/-! Helper lemmas about `Parse` as a whole. -/

namespace GoXml.Xsd
open Wsdl (attrNamed allNamed searchEl)

/-! ### What parsing puts into types -/

/-- A link or a built-in type. -/
def Raw (t : Ty) : Prop := t.isLink = true ∨ ∃ b, t = .builtin b

theorem raw_parseType (n : XName) : Raw (parseType n) := by
  unfold parseType
  split
  · exact Or.inr ⟨_, rfl⟩
  · exact Or.inl rfl

theorem raw_builtin (b : Builtin) : Raw (.builtin b) := Or.inr ⟨b, rfl⟩

theorem walkFold_inv {σ : Type} (P : σ → Prop) (f : σ → Element → Option σ) (hf : ∀ s e s', P s → f s e = some s' → P s')
    (es : List Element) : ∀ s r, P s → walkFold f s es = some r → P r := by
  induction es with
  | nil => intro s r hs h; cases h; exact hs
  | cons e es ih =>
    intro s r hs h
    rw [walkFold] at h
    split at h
    · exact ih s r hs h
    · split at h
      · cases h
      · rename_i s' hs'
        exact ih s' r (hf s e s' hs hs') h

/-- All types mentioned are raw. -/
def RawC (c : ComplexT) : Prop := ∀ t ∈ (TObj.complex c).tys, Raw t

theorem rawC_iff (c : ComplexT) : RawC c ↔ (∀ b, c.base = some b → Raw b) ∧ (∀ e ∈ c.elements, Raw e.type) ∧
    ∀ a ∈ c.attributes, Raw a.type := by
  unfold RawC TObj.tys
  simp only [List.mem_append, Option.mem_toList, List.mem_map]
  constructor
  · intro h
    exact ⟨fun b hb => h b (Or.inl (Or.inl hb)), fun e he => h _ (Or.inl (Or.inr ⟨e, he, rfl⟩)), fun a ha => h _ (Or.inr ⟨a, ha, rfl⟩)⟩
  · rintro ⟨h1, h2, h3⟩ t ((h | ⟨e, he, rfl⟩) | ⟨a, ha, rfl⟩)
    · exact h1 t h
    · exact h2 e he
    · exact h3 a ha

theorem raw_parseElement {env : ParseEnv} {ns : Str} {el : Element} {e : XElem} (h : parseElement env ns el = some e) : Raw e.type := by
  unfold parseElement at h
  split at h
  · cases h
    simp only
    split
    · exact raw_builtin _
    · exact raw_parseType _
  · cases h

theorem raw_parseAttribute {env : ParseEnv} {ns : Str} {el : Element} {a : XAttr} (h : parseAttribute env ns el = some a) : Raw a.type := by
  unfold parseAttribute at h
  split at h
  · cases h
  · cases h; exact raw_parseType _

theorem raw_attributes {env : ParseEnv} {ns : Str} {els : List Element} {as : List XAttr}
    (h : mapOpt (parseAttribute env ns) els = some as) : ∀ a ∈ as, Raw a.type := by
  intro a ha
  have := mapOpt_forall₂ h
  obtain ⟨el, _, he⟩ := (List.forall₂_iff_get.mp this |> fun ⟨hl, hg⟩ => by
    obtain ⟨i, hi, rfl⟩ := List.getElem_of_mem ha
    exact ⟨els[i]'(by omega), List.getElem_mem _, hg i (by omega) hi⟩ : ∃ el ∈ els, parseAttribute env ns el = some a)
  exact raw_parseAttribute he

theorem raw_elementLoop (env : ParseEnv) (ns : Str) (vs : List Element) : ∀ (used : GoMap XName Nat) (elements out : List XElem),
    (∀ e ∈ elements, Raw e.type) → elementLoop env ns used elements vs = some out → ∀ e ∈ out, Raw e.type := by
  induction vs with
  | nil => intro used elements out he h; cases h; exact he
  | cons v vs ih =>
    intro used elements out he h
    rw [elementLoop] at h
    split at h
    · cases h
    · rename_i elt helt
      split at h
      · apply ih _ _ out _ h
        intro e hm
        rcases List.mem_append.mp hm with hm | hm
        · exact he e hm
        · simp only [List.mem_singleton] at hm
          subst hm; exact raw_parseElement helt
      · rename_i i _
        apply ih _ _ out _ h
        intro e hm
        obtain ⟨j, hj⟩ := List.mem_iff_getElem?.mp hm
        rw [List.getElem?_modify] at hj
        cases hx : elements[j]? with
        | none => rw [hx] at hj; cases hj
        | some x =>
          have hxm := he x (List.mem_of_getElem? hx)
          rw [hx] at hj
          simp only [Option.map_eq_map, Option.map_some, Option.some.injEq] at hj
          split at hj
          · subst hj; exact hxm
          · subst hj; exact hxm

theorem raw_derivation {env : ParseEnv} {ns : Str} {ext : Bool} {t t' : ComplexT} {el : Element} (ht : RawC t)
    (h : complexDerivation env ns ext t el = some t') : RawC t' := by
  rw [rawC_iff] at ht
  unfold complexDerivation at h
  split at h
  · cases h
  · rename_i any hany
    split at h
    · cases h
    · rename_i elements hels
      split at h
      · cases h
      · rename_i attrs hattrs
        cases h
        rw [rawC_iff]
        refine ⟨fun b hb => by cases hb; exact raw_parseType _, ?_, ?_⟩
        · refine raw_elementLoop env ns _ _ _ elements ?_ hels
          intro e he
          rcases List.mem_append.mp he with he | he
          · exact ht.2.1 e he
          · cases hs : searchEl el schemaNS b!"any" with
            | nil => rw [hs] at hany; cases hany; cases he
            | cons v vs =>
              rw [hs, parseAny, Option.map_eq_some_iff] at hany
              obtain ⟨w, hw, rfl⟩ := hany
              simp only [List.mem_singleton] at he
              subst he
              unfold parseAnyElement at hw
              split at hw
              · cases hw
              · cases hw
                simp only
                split
                · exact raw_parseType _
                · exact raw_builtin _
        · intro a ha
          rcases List.mem_append.mp ha with ha | ha
          · exact ht.2.2 a ha
          · exact raw_attributes hattrs a ha

theorem raw_complexContent {env : ParseEnv} {ns : Str} {t t' : ComplexT} {el : Element} (ht : RawC t)
    (h : parseComplexContent env ns t el = some t') : RawC t' := by
  unfold parseComplexContent at h
  split at h
  · cases h
  · rename_i mixed _
    rw [Option.map_eq_some_iff] at h
    obtain ⟨r, h, rfl⟩ := h
    have := walkFold_inv (fun s : ComplexT × Str => RawC s.1) _ (by
      intro s e s' hs hf
      split at hf
      · rw [Option.map_eq_some_iff] at hf
        obtain ⟨t1, h1, rfl⟩ := hf
        exact raw_derivation hs h1
      · split at hf
        · rw [Option.map_eq_some_iff] at hf
          obtain ⟨t1, h1, rfl⟩ := hf
          exact raw_derivation hs h1
        · split at hf
          · rw [Option.map_eq_some_iff] at hf
            obtain ⟨t1, h1, rfl⟩ := hf
            exact hs
          · cases hf) _ _ r (by exact ht) h
    exact this

theorem raw_simpleContent {env : ParseEnv} {ns : Str} {t t' : ComplexT} {el : Element} (ht : RawC t)
    (h : parseSimpleContent env ns t el = some t') : RawC t' := by
  unfold parseSimpleContent at h
  rw [Option.map_eq_some_iff] at h
  obtain ⟨r, h, rfl⟩ := h
  have := walkFold_inv (fun s : ComplexT × Str => RawC s.1) _ (by
    intro s e s' hs hf
    split at hf
    · rw [Option.map_eq_some_iff] at hf
      obtain ⟨t1, h1, rfl⟩ := hf
      exact hs
    · split at hf
      · cases hf
        rw [rawC_iff] at hs ⊢
        exact ⟨fun b hb => by cases hb; exact raw_parseType _, hs.2.1, hs.2.2⟩
      · split at hf
        · rw [Option.map_eq_some_iff] at hf
          obtain ⟨as, h1, rfl⟩ := hf
          rw [rawC_iff] at hs ⊢
          refine ⟨fun b hb => by cases hb; exact raw_parseType _, hs.2.1, ?_⟩
          intro a ha
          rcases List.mem_append.mp ha with ha | ha
          · exact hs.2.2 a ha
          · exact raw_attributes h1 a ha
        · cases hf; exact hs) _ _ r (by exact ht) h
  exact this

theorem raw_complexType {env : ParseEnv} {ns : Str} {t : ComplexT} {el : Element}
    (h : parseComplexType env ns el = some t) : RawC t := by
  unfold parseComplexType at h
  split at h
  · rename_i abs mixed _ _
    rw [Option.map_eq_some_iff] at h
    obtain ⟨r, h, rfl⟩ := h
    have := walkFold_inv (fun s : ComplexT × Str => RawC s.1) _ (by
      intro s e s' hs hf
      split at hf
      · rw [Option.map_eq_some_iff] at hf
        obtain ⟨t1, h1, rfl⟩ := hf
        exact hs
      · split at hf
        · rw [Option.map_eq_some_iff] at hf
          obtain ⟨t1, h1, rfl⟩ := hf
          exact raw_simpleContent hs h1
        · split at hf
          · rw [Option.map_eq_some_iff] at hf
            obtain ⟨t1, h1, rfl⟩ := hf
            exact raw_complexContent hs h1
          · cases hf) _ _ r (by rw [rawC_iff]; simp) h
    exact this
  · cases h

theorem raw_simpleType {env : ParseEnv} {ns : Str} {t : SimpleT} {el : Element}
    (h : parseSimpleType env ns el = some t) : ∀ u ∈ (TObj.simple t).tys, Raw u := by
  unfold parseSimpleType at h
  rw [Option.map_eq_some_iff] at h
  obtain ⟨r, h, rfl⟩ := h
  have := walkFold_inv (fun s : SimpleT × Str => (∀ b, s.1.base = some b → Raw b) ∧ ∀ u ∈ s.1.union, Raw u) _ (by
    intro s e s' hs hf
    unfold simpleStep at hf
    split at hf
    · rw [Option.map_eq_some_iff] at hf
      obtain ⟨t1, h1, rfl⟩ := hf
      exact ⟨fun b hb => by cases hb; exact raw_parseType _, hs.2⟩
    · split at hf
      · cases hf
        exact ⟨fun b hb => by cases hb; exact raw_parseType _, hs.2⟩
      · split at hf
        · cases hf
          refine ⟨?_, ?_⟩
          · intro b hb
            simp only at hb
            split at hb
            · exact hs.1 b hb
            · cases hb; exact raw_builtin _
          · intro u hu
            rcases List.mem_append.mp hu with hu | hu
            · exact hs.2 u hu
            · obtain ⟨n, _, rfl⟩ := List.mem_map.mp hu
              exact raw_parseType _
        · split at hf
          · rw [Option.map_eq_some_iff] at hf
            obtain ⟨t1, h1, rfl⟩ := hf
            exact hs
          · cases hf; exact hs) _ _ r (by simp) h
  intro u hu
  simp only [TObj.tys, List.mem_append, Option.mem_toList] at hu
  rcases hu with hu | hu
  · exact this.1 u hu
  · exact this.2 u hu

/-! ### Allocation -/

/-- Entering new objects, the first of which has address `n0`, under the given names. -/
def enter (m : GoMap XName Ty) (n0 : Nat) : List XName → GoMap XName Ty
  | [] => m
  | k :: ks => enter (m.set k (.obj n0)) (n0 + 1) ks

theorem enter_append (ks ks' : List XName) : ∀ (m : GoMap XName Ty) (n0 : Nat),
    enter m n0 (ks ++ ks') = enter (enter m n0 ks) (n0 + ks.length) ks' := by
  induction ks with
  | nil => intro m n0; rfl
  | cons k ks ih =>
    intro m n0
    rw [List.cons_append, enter, ih, enter, List.length_cons]
    congr 1; omega

theorem enter_wf (ks : List XName) : ∀ (m : GoMap XName Ty) (n0 : Nat), m.WF → (enter m n0 ks).WF := by
  induction ks with
  | nil => intro m n0 h; exact h
  | cons k ks ih => intro m n0 h; exact ih _ _ (GoMap.wf_set h _ _)

/-- The last object entered under a name is found. -/
theorem get_enter (ks : List XName) (n0 : Nat) (n : XName) (t : Ty) :
    (enter [] n0 ks).get n = some t ↔
      ∃ i : Nat, ks[i]? = some n ∧ (∀ j : Nat, i < j → ks[j]? ≠ some n) ∧ t = .obj (n0 + i) := by
  induction ks using List.reverseRecOn with
  | nil => simp [enter, GoMap.get_nil]
  | append_singleton ks k ih =>
    rw [enter_append, enter, enter, GoMap.get_set]
    split
    · rename_i hk
      subst hk
      constructor
      · intro h
        cases h
        refine ⟨ks.length, by simp, ?_, rfl⟩
        intro j hj
        rw [List.getElem?_eq_none (by simp; omega)]; simp
      · rintro ⟨i, h1, h2, rfl⟩
        have hi : i = ks.length := by
          have hlt := (List.getElem?_eq_some_iff.mp h1).1
          simp only [List.length_append, List.length_singleton] at hlt
          by_contra hne
          exact h2 ks.length (by omega) (by simp)
        rw [hi]
    · rename_i hk
      rw [ih]
      constructor
      · rintro ⟨i, h1, h2, h3⟩
        refine ⟨i, by rw [List.getElem?_append_left (List.getElem?_eq_some_iff.mp h1).1]; exact h1, ?_, h3⟩
        intro j hj he
        by_cases hjl : j < ks.length
        · rw [List.getElem?_append_left hjl] at he; exact h2 j hj he
        · have hlt := (List.getElem?_eq_some_iff.mp he).1
          simp only [List.length_append, List.length_singleton] at hlt
          have : j = ks.length := by omega
          subst this
          simp at he; exact hk he
      · rintro ⟨i, h1, h2, h3⟩
        have hil : i < ks.length := by
          have hlt := (List.getElem?_eq_some_iff.mp h1).1
          simp only [List.length_append, List.length_singleton] at hlt
          by_contra hne
          have : i = ks.length := by omega
          subst this
          simp at h1; exact hk h1
        rw [List.getElem?_append_left hil] at h1
        refine ⟨i, h1, ?_, h3⟩
        intro j hj he
        exact h2 j hj (by rw [List.getElem?_append_left (List.getElem?_eq_some_iff.mp he).1]; exact he)

theorem allocLoop_eq (f : Element → Option TObj) (els : List Element) : ∀ (m : GoMap XName Ty) (H : THeap),
    allocLoop f m H els = (mapOpt f els).map fun os => (enter m H.length (os.map (·.name)), H ++ os) := by
  induction els with
  | nil => intro m H; simp [allocLoop, mapOpt, enter]
  | cons el els ih =>
    intro m H
    rw [allocLoop, mapOpt]
    cases hf : f el with
    | none => rfl
    | some o =>
      simp only
      rw [ih]
      cases mapOpt f els with
      | none => rfl
      | some os => simp [enter]

/-- The object of a type declaration. -/
def parseDecl (env : ParseEnv) (ns : Str) (e : Element) : Option TObj :=
  if e.name.loc = b!"complexType" then (parseComplexType env ns e).map .complex else (parseSimpleType env ns e).map .simple

theorem mapOpt_congr {α β : Type} {f g : α → Option β} {l : List α} (h : ∀ x ∈ l, f x = g x) : mapOpt f l = mapOpt g l := by
  induction l with
  | nil => rfl
  | cons x l ih => rw [mapOpt, mapOpt, h x (by simp), ih fun y hy => h y (by simp [hy])]

theorem parseTypes_eq {env : ParseEnv} {root : Element} {H H' : THeap} {s : Schema}
    (h : parseTypes env root H = some (s, H')) :
    ∃ os self, mapOpt (parseDecl env (attrNamed root b!"targetNamespace")) (typeDecls root) = some os ∧
      parseComplexType env (attrNamed root b!"targetNamespace") (selfTree root) = some self ∧
      H' = H ++ os ++ [.complex self] ∧ s.targetNS = attrNamed root b!"targetNamespace" ∧
      s.types = enter [] H.length (os.map (·.name) ++ [⟨attrNamed root b!"targetNamespace", b!"_self"⟩]) := by
  unfold parseTypes at h
  simp only [Wsdl.attr_eq, allocLoop_eq] at h
  rw [Wsdl.searchEl_eq _ _ _ (by decide), Wsdl.searchEl_eq _ _ _ (by decide)] at h
  have e1 : mapOpt (fun el => (parseComplexType env (attrNamed root b!"targetNamespace") el).map TObj.complex) (allNamed root schemaNS b!"complexType") =
      mapOpt (parseDecl env (attrNamed root b!"targetNamespace")) (allNamed root w3cSchemaNS b!"complexType") := by
    apply mapOpt_congr
    intro x hx
    have : x.name = ⟨schemaNS, b!"complexType"⟩ := by simpa using (List.mem_filter.mp hx).2
    unfold parseDecl
    rw [this]; rfl
  have e2 : mapOpt (fun el => (parseSimpleType env (attrNamed root b!"targetNamespace") el).map TObj.simple) (allNamed root schemaNS b!"simpleType") =
      mapOpt (parseDecl env (attrNamed root b!"targetNamespace")) (allNamed root w3cSchemaNS b!"simpleType") := by
    apply mapOpt_congr
    intro x hx
    have : x.name = ⟨schemaNS, b!"simpleType"⟩ := by simpa using (List.mem_filter.mp hx).2
    unfold parseDecl
    rw [this]; rfl
  rw [e1, e2] at h
  unfold typeDecls
  rw [mapOpt_append]
  cases h1 : mapOpt (parseDecl env (attrNamed root b!"targetNamespace")) (allNamed root w3cSchemaNS b!"complexType") with
  | none => rw [h1] at h; cases h
  | some os1 =>
    cases h2 : mapOpt (parseDecl env (attrNamed root b!"targetNamespace")) (allNamed root w3cSchemaNS b!"simpleType") with
    | none => rw [h1, h2] at h; cases h
    | some os2 =>
      rw [h1, h2] at h
      simp only [Option.map_some] at h
      cases h3 : parseComplexType env (attrNamed root b!"targetNamespace") (selfTree root) with
      | none => rw [h3] at h; cases h
      | some self =>
        rw [h3] at h
        simp only [Option.some.injEq, Prod.mk.injEq] at h
        obtain ⟨rfl, rfl⟩ := h
        refine ⟨os1 ++ os2, self, rfl, rfl, by simp, rfl, ?_⟩
        rw [enter_append, List.map_append, enter_append]
        simp [enter, Nat.add_assoc]

theorem parseDecl_raw {env : ParseEnv} {ns : Str} {e : Element} {o : TObj} (h : parseDecl env ns e = some o) : ∀ t ∈ o.tys, Raw t := by
  unfold parseDecl at h
  split at h
  · rw [Option.map_eq_some_iff] at h
    obtain ⟨c, h, rfl⟩ := h
    exact raw_complexType h
  · rw [Option.map_eq_some_iff] at h
    obtain ⟨c, h, rfl⟩ := h
    exact raw_simpleType h

end GoXml.Xsd
