import Verif.Proofs.XsdgenMade
import Verif.Spec.XsdgenNested
set_option autoImplicit false

/-! Lemmas for the theorem about types that contain themselves. -/

namespace GoXml.Values
open Xsd Xsdgen

/-- What is declared for a type. -/
def Described (env : Env) (cfg : Config) (n : Nat) (H : THeap) (id : Nat) (sp : Spec) : Prop :=
  sp.name = publicName env cfg (xmlName H (.obj id)) ∧ sp.xsdType = .obj id ∧
  ((∃ c acc, H[id]? = some (.complex c) ∧ genFields env cfg n H c = .ok acc ∧ sp.expr = .struct acc.fields) ∨
   ∃ s, H[id]? = some (.simple s) ∧
    ((s.list = false ∧ s.union = [] ∧ ∃ b e, s.base = some b ∧ exprOf env cfg H b = .ok e ∧ sp.expr = .plain e) ∨
     (s.list = true ∧ ∃ e, sp.expr = .plain (.array e)) ∨ (s.union ≠ [] ∧ sp.expr = .plain (.ident b!"string"))))

theorem Described.same {env : Env} {cfg : Config} {n : Nat} {H G : THeap} {id : Nat} {sp : Spec} (h : Described env cfg n H id sp) (hs : SameNames H G)
    (hid : G[id]? = H[id]?) : Described env cfg n G id sp := by
  unfold Described
  rw [hs.names, hid, exprOf_same hs]
  simp only [genFields_same hs]
  exact h

theorem genTypeSpec_desc {env : Env} {cfg : Config} {n : Nat} {H : THeap} {t : Ty} {q : THeap × List Spec} (h : genTypeSpec env cfg n H t = .ok q) :
    (∀ sp ∈ q.2, ∃ id, t = .obj id ∧ Described env cfg n q.1 id sp) ∧ ∀ id, t = .obj id → q.1[id]? ≠ none → ∃ sp, sp ∈ q.2 := by
  cases t with
  | builtin b => cases h; exact ⟨nofun, nofun⟩
  | link b => cases h; exact ⟨nofun, nofun⟩
  | obj id =>
    simp only [genTypeSpec] at h
    cases ho : H[id]? with
    | none =>
      rw [ho] at h
      cases h
      refine ⟨nofun, fun id' h hc => ?_⟩
      cases h
      exact absurd ho hc
    | some o =>
      rw [ho] at h
      cases o with
      | simple s =>
        simp only at h
        obtain ⟨r, hr, h⟩ := bind_ok h
        cases h
        have hname : xmlName H (.obj id) = s.name := by simp only [xmlName, ho, TObj.name]
        suffices hone : ∃ sp, r = [sp] ∧ Described env cfg n H id sp by
          obtain ⟨sp, h1, h2⟩ := hone
          subst h1
          exact ⟨fun sp' hsp => ⟨id, rfl, (List.mem_singleton.mp hsp) ▸ h2⟩, fun _ _ _ => ⟨sp, by simp⟩⟩
        unfold genSimpleType at hr
        split at hr
        · rename_i hl
          unfold genSimpleListSpec at hr
          split at hr
          · cases hr
          · obtain ⟨e, he, hr⟩ := bind_ok hr
            obtain ⟨y, hy, hr⟩ := bind_ok hr
            split at hr
            · split at hr
              · cases hr
              · cases hr
              · cases hr
                exact ⟨_, rfl, by rw [hname], rfl, Or.inr ⟨s, ho, Or.inr (Or.inl ⟨hl, e, rfl⟩)⟩⟩
            · cases hr
        · rename_i hl
          split at hr
          · rename_i hu
            cases hr
            exact ⟨_, rfl, by rw [hname], rfl, Or.inr ⟨s, ho, Or.inr (Or.inr ⟨hu, rfl⟩)⟩⟩
          · rename_i hu
            split at hr
            · cases hr
            · rename_i b hb
              obtain ⟨e, he, hr⟩ := bind_ok hr
              have hu' : s.union = [] := Decidable.byContradiction hu
              have hl' : s.list = false := by simpa using hl
              dsimp only at hr
              split at hr
              · split at hr
                · cases hr
                · cases hr
                  exact ⟨_, rfl, by rw [hname], rfl, Or.inr ⟨s, ho, Or.inl ⟨hl', hu', b, e, hb, he, rfl⟩⟩⟩
              · cases hr
                exact ⟨_, rfl, by rw [hname], rfl, Or.inr ⟨s, ho, Or.inl ⟨hl', hu', b, e, hb, he, rfl⟩⟩⟩
      | complex c =>
        simp only [genComplexType] at h
        obtain ⟨acc, hacc, h⟩ := bind_ok h
        cases h
        have hset := List.getElem?_set_self (l := H) (i := id) (a := TObj.complex (takeOver H c)) (List.getElem?_eq_some_iff.mp ho).1
        refine ⟨fun sp hsp => ⟨id, rfl, ?_⟩, fun _ _ _ => ⟨_, List.mem_singleton.mpr rfl⟩⟩
        rw [List.mem_singleton.mp hsp]
        refine ⟨?_, rfl, Or.inl ⟨_, acc, hset, hacc, rfl⟩⟩
        simp only [xmlName, hset, TObj.name]

theorem genList_desc {env : Env} {cfg : Config} {n : Nat} : ∀ (ts : List Ty) (H : THeap) (r : THeap × List Spec × Bool),
    genList env cfg n H ts = .ok r → r.2.2 = false → ts.Nodup →
    (∀ sp ∈ r.2.1, ∃ id, .obj id ∈ ts ∧ Described env cfg n r.1 id sp) ∧
    ∀ id, .obj id ∈ ts → r.1[id]? ≠ none → ∃ sp ∈ r.2.1, Described env cfg n r.1 id sp := by
  intro ts
  induction ts with
  | nil => intro H r h _ _; cases h; exact ⟨nofun, nofun⟩
  | cons t ts ih =>
    intro H r h hr hnd
    rw [List.nodup_cons] at hnd
    simp only [genList] at h
    split at h
    · rename_i q hq
      obtain ⟨p, hp, h⟩ := bind_ok h
      cases h
      obtain ⟨a1, a2⟩ := genTypeSpec_desc hq
      obtain ⟨b1, b2⟩ := ih _ _ hp hr hnd.2
      obtain ⟨m1, m2, _⟩ := genList_made ts _ _ hp hr hnd.2
      have keep : ∀ sp ∈ q.2, ∃ id, t = .obj id ∧ Described env cfg n p.1 id sp := by
        intro sp hsp
        obtain ⟨id, hid, hd⟩ := a1 sp hsp
        exact ⟨id, hid, hd.same m1 (m2 id (hid ▸ hnd.1))⟩
      refine ⟨?_, ?_⟩
      · intro sp hsp
        rcases List.mem_append.mp hsp with h | h
        · obtain ⟨id, hid, hd⟩ := keep sp h
          exact ⟨id, by simp [hid], hd⟩
        · obtain ⟨id, hid, hd⟩ := b1 sp h
          exact ⟨id, List.mem_cons_of_mem _ hid, hd⟩
      · intro id hid hne
        rcases List.mem_cons.mp hid with h | h
        · obtain ⟨sp, hsp⟩ := a2 id h.symm (by rw [← m2 id (h ▸ hnd.1)]; exact hne)
          obtain ⟨id', hid', hd⟩ := keep sp hsp
          rw [← h] at hid'
          cases hid'
          exact ⟨sp, List.mem_append_left _ hsp, hd⟩
        · obtain ⟨sp, hsp, hd⟩ := b2 id h hne
          exact ⟨sp, List.mem_append_right _ hsp, hd⟩
    · obtain ⟨p, hp, h⟩ := bind_ok h
      cases h
      cases hr
    · cases h
    · cases h

/-- The fields that are not slices. -/
theorem genFields_within {env : Env} {cfg : Config} {n : Nat} {H : THeap} {id : Nat} {c : ComplexT} {acc : Acc} (hid : H[id]? = some (.complex c))
    (h : genFields env cfg n H c = .ok acc) :
    (∀ f ∈ acc.fields, ∀ x, f.type = .ident x → (∃ t, Within cfg H (.obj id) t ∧ exprOf env cfg H t = .ok (.ident x)) ∨ x = b!"string") ∧
    ∀ t, Within cfg H (.obj id) t → ∀ j, t = .obj j → ∃ f ∈ acc.fields, exprOf env cfg H t = .ok f.type := by
  obtain ⟨a1, a2, h1, h2, h3⟩ := genFields_ok h
  obtain ⟨fs, e1, F1⟩ := elems_fields _ _ _ h2
  obtain ⟨gs, e2, F2⟩ := attrs_fields _ _ _ h3
  let S : Setting Unit := ⟨env, cfg, H, 0, ⟨[], [], fun _ => true, ⟨fun _ _ => none, fun _ _ => none, fun _ => true, fun _ => ()⟩⟩⟩
  have ht := charData_slots (S := S) h1
  rw [e2, e1, List.append_assoc]
  refine ⟨?_, ?_⟩
  · intro f hf x hx
    rcases List.mem_append.mp hf with hf | hf
    · rcases ht with ⟨g, _⟩ | ⟨ty, s, hty, g, _, his⟩
      · rw [g] at hf; cases hf
      · rw [g] at hf
        obtain ⟨e, he, hse⟩ := his.type
        rw [List.mem_singleton.mp hf, hse] at hx
        simp only [Bool.false_eq_true, if_false] at hx
        subst hx
        obtain ⟨k1, _, b, k2, k3⟩ := hty
        exact Or.inl ⟨ty, .text hid k1 k2 k3, he⟩
    · rcases List.mem_append.mp hf with hf | hf
      · obtain ⟨el, hel, item, hi, ht', _⟩ := forall2_right F1 f hf
        by_cases hp : el.plural = true
        · rw [hx] at ht'
          simp only [hp, if_true] at ht'
          cases ht'
        · rw [hx] at ht'
          simp only [hp] at ht'
          by_cases hw : el.wildcard = true ∧ el.type = .builtin AnyType
          · rw [if_pos hw] at ht'
            cases ht'
            exact Or.inr rfl
          · rw [if_neg hw] at ht'
            simp only [Bool.false_eq_true, if_false] at ht'
            subst ht'
            exact Or.inl ⟨el.type, .element hid hel (by simpa using hp), hi⟩
      · obtain ⟨a, ha, hA⟩ := forall2_right F2 f hf
        exact Or.inl ⟨a.type, .attr hid ha, by rw [hA.1, hx]⟩
  · intro t hw j hj
    have left : ∀ {α β : Type} {R : α → β → Prop} {l : List α} {m : List β}, List.Forall₂ R l m → ∀ x ∈ l, ∃ y ∈ m, R x y := by
      intro α β R l m h
      induction h with
      | nil => nofun
      | cons h _ ih =>
        intro x hx
        rcases List.mem_cons.mp hx with rfl | hx
        · exact ⟨_, List.mem_cons_self .., h⟩
        · obtain ⟨y, hy, hr⟩ := ih x hx
          exact ⟨y, List.mem_cons_of_mem _ hy, hr⟩
    cases hw with
    | @element _ c' el hc hel hp =>
      rw [hid] at hc
      cases hc
      obtain ⟨f, hf, item, hi, ht', _⟩ := left F1 el hel
      have hw : ¬ (el.wildcard = true ∧ el.type = .builtin AnyType) := by rw [hj]; exact fun h => nomatch h.2
      dsimp only at ht'
      rw [if_neg hw, hp] at ht'
      simp only [Bool.false_eq_true, if_false] at ht'
      exact ⟨f, List.mem_append_right _ (List.mem_append_left _ hf), by rw [ht']; exact hi⟩
    | @attr _ c' a hc ha =>
      rw [hid] at hc
      cases hc
      obtain ⟨f, hf, hA⟩ := left F2 a ha
      exact ⟨f, List.mem_append_right _ (List.mem_append_right _ hf), hA.1⟩
    | @text _ c' b _ hc hm hb hfrom =>
      rw [hid] at hc
      cases hc
      rcases ht with ⟨_, _, g⟩ | ⟨ty, s, hty, g, _, his⟩
      · exact absurd ⟨hm, (by rw [hj]; nofun), b, hb, hfrom⟩ (g t)
      · obtain ⟨_, _, b', k2, k3⟩ := hty
        rw [hb] at k2
        cases k2
        have := hfrom.unique k3
        subst this
        obtain ⟨e, he, hse⟩ := his.type
        refine ⟨s.field, List.mem_append_left _ (by rw [g]; simp), ?_⟩
        rw [hse]
        exact he
    | base hs => rw [hid] at hs; cases hs

end GoXml.Values
