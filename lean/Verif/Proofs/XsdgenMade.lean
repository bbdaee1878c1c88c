import Verif.Proofs.XsdgenKept
import Verif.Proofs.XsdgenClosed
set_option autoImplicit false

/-! Lemmas for the theorems about values of generated types: what `genList` makes. -/

namespace GoXml.Values
open Xsd Xsdgen

/-- Two heaps in which types have the same names and bases. -/
structure SameNames (H G : THeap) : Prop where
  names : xmlName G = xmlName H
  bases : baseOf G = baseOf H
  simple : isSimple G = isSimple H

theorem SameNames.refl (H : THeap) : SameNames H H := ⟨rfl, rfl, rfl⟩

theorem SameNames.trans {A B C : THeap} (h : SameNames A B) (g : SameNames B C) : SameNames A C :=
  ⟨g.names.trans h.names, g.bases.trans h.bases, g.simple.trans h.simple⟩

theorem exprOf_same {env : Env} {cfg : Config} {H G : THeap} (h : SameNames H G) : exprOf env cfg G = exprOf env cfg H := by
  funext t
  cases t <;> simp [exprOf, h.names]

theorem mixedBase_same {H G : THeap} (h : SameNames H G) : ∀ n, mixedBase G n = mixedBase H n := by
  intro n
  induction n with
  | zero => rfl
  | succ n ih =>
    funext b
    simp only [mixedBase, h.bases, h.simple, ih]

theorem runFold_congr {α β : Type} {f g : β → α → Run β} (h : f = g) (b : β) (as : List α) : runFold f b as = runFold g b as := by rw [h]

theorem genFields_same {env : Env} {cfg : Config} {n : Nat} {H G : THeap} {c : ComplexT} (h : SameNames H G) :
    genFields env cfg n G c = genFields env cfg n H c := by
  have h1 : charData env cfg n G c = charData env cfg n H c := by
    unfold charData
    rw [mixedBase_same h, exprOf_same h, h.names, h.simple]
  have h2 : elemStep env cfg G = elemStep env cfg H := by
    funext acc el
    unfold elemStep addOverride
    rw [exprOf_same h, h.names]
  have h3 : attrStep env cfg G = attrStep env cfg H := by
    funext acc a
    unfold attrStep addOverride
    rw [exprOf_same h, h.names]
  unfold genFields
  rw [h1, h2, h3]

theorem takeOver_same {H : THeap} {id : Nat} {t : ComplexT} (ht : H[id]? = some (.complex t)) : SameNames H (H.set id (.complex (takeOver H t))) := by
  have hlt := (List.getElem?_eq_some_iff.mp ht).1
  have hn : (takeOver H t).name = t.name ∧ (takeOver H t).base = t.base := by
    unfold takeOver
    split <;> exact ⟨rfl, rfl⟩
  refine ⟨?_, ?_, ?_⟩ <;> funext x <;> cases x with
    | builtin b => rfl
    | link n => rfl
    | obj j =>
      by_cases hj : id = j
      · subst hj
        simp [xmlName, baseOf, isSimple, List.getElem?_set_self hlt, ht, TObj.name, TObj.base, hn]
      · simp [xmlName, baseOf, isSimple, List.getElem?_set_ne hj]

/-- What there is for a complex type. -/
def Made (env : Env) (cfg : Config) (n : Nat) (H : THeap) (ss : List Spec) (id : Nat) (c : ComplexT) : Prop :=
  ∃ acc sp, genFields env cfg n H c = .ok acc ∧ sp ∈ ss ∧ sp.name = publicName env cfg c.name ∧ sp.expr = .struct acc.fields ∧
    sp.xsdType = .obj id ∧ (sp.hasMethod b!"UnmarshalXML" ↔ acc.overrides ≠ []) ∧
    (sp.hasMethod b!"MarshalXML" ↔ ∃ o ∈ acc.overrides, special o.type = true)

theorem genTypeSpec_made {env : Env} {cfg : Config} {n : Nat} {H : THeap} {t : Ty} {q : THeap × List Spec} (h : genTypeSpec env cfg n H t = .ok q) :
    SameNames H q.1 ∧ (∀ id, .obj id ≠ t → q.1[id]? = H[id]?) ∧ ∀ id c, .obj id = t → q.1[id]? = some (.complex c) → Made env cfg n q.1 q.2 id c := by
  cases t with
  | builtin b => cases h; exact ⟨.refl _, fun _ _ => rfl, fun id c h => by cases h⟩
  | link b => cases h; exact ⟨.refl _, fun _ _ => rfl, fun id c h => by cases h⟩
  | obj id =>
    simp only [genTypeSpec] at h
    cases ho : H[id]? with
    | none =>
      rw [ho] at h
      cases h
      refine ⟨.refl _, fun _ _ => rfl, fun id' c h hc => ?_⟩
      cases h
      rw [ho] at hc
      cases hc
    | some o =>
      rw [ho] at h
      cases o with
      | simple s =>
        simp only at h
        obtain ⟨r, hr, h⟩ := bind_ok h
        cases h
        refine ⟨.refl _, fun _ _ => rfl, fun id' c h hc => ?_⟩
        cases h
        rw [ho] at hc
        cases hc
      | complex c =>
        simp only [genComplexType] at h
        obtain ⟨acc, hacc, h⟩ := bind_ok h
        cases h
        refine ⟨takeOver_same ho, ?_, ?_⟩
        · intro id' hne
          refine List.getElem?_set_ne ?_
          rintro rfl
          exact hne rfl
        · intro id' c' he hc
          cases he
          rw [List.getElem?_set_self (List.getElem?_eq_some_iff.mp ho).1] at hc
          cases hc
          refine ⟨acc, _, hacc, List.mem_singleton.mpr rfl, rfl, rfl, rfl, ?_, ?_⟩
          · unfold Spec.hasMethod
            by_cases h1 : acc.overrides.any (fun o => nonTrivialBuiltin (some o.type)) = true <;> by_cases h2 : acc.overrides = [] <;> simp [h1, h2]
          · unfold Spec.hasMethod
            have he : (acc.overrides.any fun o => nonTrivialBuiltin (some o.type)) = true ↔ ∃ o ∈ acc.overrides, special o.type = true := by
              rw [List.any_eq_true]
              simp only [special_eq]
            rw [← he]
            by_cases h1 : acc.overrides.any (fun o => nonTrivialBuiltin (some o.type)) = true <;> by_cases h2 : acc.overrides = [] <;> simp [h1, h2]

theorem genList_made {env : Env} {cfg : Config} {n : Nat} : ∀ (ts : List Ty) (H : THeap) (r : THeap × List Spec × Bool),
    genList env cfg n H ts = .ok r → r.2.2 = false → ts.Nodup →
    SameNames H r.1 ∧ (∀ id, .obj id ∉ ts → r.1[id]? = H[id]?) ∧ ∀ id c, .obj id ∈ ts → r.1[id]? = some (.complex c) → Made env cfg n r.1 r.2.1 id c := by
  intro ts
  induction ts with
  | nil => intro H r h _ _; cases h; exact ⟨.refl _, fun _ _ => rfl, fun _ _ h => by cases h⟩
  | cons t ts ih =>
    intro H r h hr hnd
    rw [List.nodup_cons] at hnd
    simp only [genList] at h
    split at h
    · rename_i q hq
      obtain ⟨p, hp, h⟩ := bind_ok h
      cases h
      obtain ⟨a1, a2, a3⟩ := genTypeSpec_made hq
      obtain ⟨b1, b2, b3⟩ := ih _ _ hp hr hnd.2
      refine ⟨a1.trans b1, ?_, ?_⟩
      · intro id hid
        rw [List.mem_cons, not_or] at hid
        exact (b2 id hid.2).trans (a2 id hid.1)
      · intro id c hid hc
        rcases List.mem_cons.mp hid with hid | hid
        · have hc' : q.1[id]? = some (.complex c) := by
            rw [← b2 id (by rw [hid]; exact hnd.1)]
            exact hc
          obtain ⟨acc, sp, m1, m2, m3⟩ := a3 id c hid hc'
          exact ⟨acc, sp, (genFields_same b1).trans m1, List.mem_append_left _ m2, m3⟩
        · obtain ⟨acc, sp, m1, m2, m3⟩ := b3 id c hid hc
          exact ⟨acc, sp, m1, List.mem_append_right _ m2, m3⟩
    · obtain ⟨p, hp, h⟩ := bind_ok h
      cases h
      cases hr
    · cases h
    · cases h

theorem declare_mem : ∀ (ss : List Spec) (m : GoMap Str Spec), (ss.map (·.name)).Nodup → ∀ s ∈ ss, (declare ss m).get s.name = some s := by
  intro ss
  have keep : ∀ (ss : List Spec) (m : GoMap Str Spec) (k : Str), k ∉ ss.map (·.name) → (declare ss m).get k = m.get k := by
    intro ss
    induction ss with
    | nil => intro m k _; rfl
    | cons a ss ih =>
      intro m k hk
      simp only [List.map_cons, List.mem_cons, not_or] at hk
      rw [declare, ih _ _ hk.2, GoMap.get_set, if_neg fun e => hk.1 e.symm]
  induction ss with
  | nil => intro m _ s hs; cases hs
  | cons a ss ih =>
    intro m hn s hs
    simp only [List.map_cons, List.nodup_cons] at hn
    rcases List.mem_cons.mp hs with rfl | hs
    · rw [declare, keep _ _ _ hn.1, GoMap.get_set, if_pos rfl]
    · exact ih _ hn.2 s hs

end GoXml.Values
