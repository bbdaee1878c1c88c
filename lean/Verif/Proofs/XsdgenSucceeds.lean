import Verif.Spec.XsdgenSucceeds
import Verif.Proofs.XsdgenUntouched
import Verif.Proofs.XsdgenExpand
import Verif.Proofs.XsdgenTypes
import Verif.Proofs.XsdgenFlatten
import Verif.Proofs.WsdlgenFile
import Mathlib.Data.Finset.Card
set_option autoImplicit false

/-! Lemmas for the theorem that code is generated: nothing that `gen` calls fails. -/

namespace GoXml.Xsdgen
open Xsd

/-- What does not change about the types while code is generated. -/
structure GenPlan where
  len : Nat
  rank : Nat → Nat
  last : Nat → Builtin
  name : Nat → XName
  /-- Elements that a complex type has from the beginning. -/
  elems : Nat → List XName
  /-- There are only lists that there is code for. -/
  listed : Prop

def PTy (P : GenPlan) : Ty → Prop
  | .builtin b => InSchema b
  | .obj j => j < P.len
  | .link _ => False

def PBase (P : GenPlan) (i : Nat) : Option Ty → Prop
  | some (.builtin b) => b = P.last i
  | some (.obj j) => j < P.len ∧ P.rank j < P.rank i ∧ P.last j = P.last i
  | _ => False

structure PObj (P : GenPlan) (i : Nat) (o : TObj) : Prop where
  name : o.name = P.name i
  base : PBase P i o.base
  fields : ∀ c, o = .complex c → (∀ e ∈ c.elements, PTy P e.type) ∧ ∀ a ∈ c.attributes, PTy P a.type
  list : ∀ s, o = .simple s → s.list = true → P.listed → (builtinName (P.last i)).loc ∉ unlisted
  elems : ∀ n ∈ P.elems i, ∃ c, o = .complex c ∧ n ∈ c.elements.map (·.name)

structure Planned (P : GenPlan) (H : THeap) : Prop where
  len : H.length = P.len
  obj : ∀ (i : Nat) o, H[i]? = some o → PObj P i o

structure GenPlan.Fine (P : GenPlan) (n : Nat) : Prop where
  last : ∀ i, i < P.len → InSchema (P.last i)
  rank : ∀ i, i < P.len → P.rank i + 3 ≤ n
  inj : ∀ i j, i < P.len → j < P.len → P.name i = P.name j → i = j
  own : ∀ i, i < P.len → ∀ b, P.name i ≠ builtinName b

/-- Complex types stay complex and keep the number of their fields. -/
def Kin (H G : THeap) : Prop := ∀ (id : Nat) c, H[id]? = some (.complex c) →
  ∃ c', G[id]? = some (.complex c') ∧ c'.elements.length = c.elements.length ∧ c'.attributes.length = c.attributes.length

theorem Kin.refl (H : THeap) : Kin H H := fun _ c h => ⟨c, h, rfl, rfl⟩

theorem Kin.trans {H G K : THeap} (h1 : Kin H G) (h2 : Kin G K) : Kin H K := by
  intro id c hc
  obtain ⟨c1, k1, k2, k3⟩ := h1 id c hc
  obtain ⟨c2, l1, l2, l3⟩ := h2 id c1 k1
  exact ⟨c2, l1, l2.trans k2, l3.trans k3⟩

theorem Planned.get {P : GenPlan} {H : THeap} (h : Planned P H) {i : Nat} (hi : i < P.len) : ∃ o, H[i]? = some o ∧ PObj P i o := by
  rw [← h.len] at hi
  exact ⟨_, List.getElem?_eq_getElem hi, h.obj i _ (List.getElem?_eq_getElem hi)⟩

theorem Planned.lt {P : GenPlan} {H : THeap} (h : Planned P H) {i : Nat} {o : TObj} (hi : H[i]? = some o) : i < P.len := by
  rw [← h.len]
  exact (List.getElem?_eq_some_iff.mp hi).1

theorem Planned.set {P : GenPlan} {H : THeap} (h : Planned P H) {i : Nat} {o : TObj} (ho : PObj P i o) : Planned P (H.set i o) := by
  refine ⟨by simpa using h.len, ?_⟩
  intro j o' hj
  rw [List.getElem?_set] at hj
  split at hj
  · rename_i e
    subst e
    split at hj
    · cases hj; exact ho
    · cases hj
  · exact h.obj j o' hj

theorem Kin.set {H : THeap} {i : Nat} {o : TObj} (hi : H[i]? = some o) {o' : TObj}
    (h : ∀ c, o = .complex c → ∃ c', o' = .complex c' ∧ c'.elements.length = c.elements.length ∧ c'.attributes.length = c.attributes.length) :
    Kin H (H.set i o') := by
  intro j c hc
  by_cases e : i = j
  · subst e
    rw [hi] at hc
    cases hc
    obtain ⟨c', rfl, h2⟩ := h c rfl
    exact ⟨c', List.getElem?_set_self (List.getElem?_eq_some_iff.mp hi).1, h2⟩
  · exact ⟨c, by rw [List.getElem?_set_ne e]; exact hc, rfl, rfl⟩

theorem PBase.ty {P : GenPlan} {n : Nat} (hP : P.Fine n) {i : Nat} (hi : i < P.len) {t : Ty} (h : PBase P i (some t)) : PTy P t := by
  cases t with
  | builtin b => cases h; exact hP.last i hi
  | obj j => exact h.1
  | link m => exact h

theorem PBase.some {P : GenPlan} {i : Nat} {o : Option Ty} (h : PBase P i o) : ∃ t, o = some t := by
  cases o with
  | none => exact absurd h (by simp [PBase])
  | some t => exact ⟨t, rfl⟩

/-! ### flatten1 -/

/-- The types that `flatten1` may return for a type. -/
def Next (P : GenPlan) (t u : Ty) : Prop :=
  u = t ∨ ∃ i, t = .obj i ∧ (u = .builtin (P.last i) ∨ ∃ j, u = .obj j ∧ j < P.len ∧ P.rank j ≤ P.rank i ∧ P.last j = P.last i)

theorem Next.ty {P : GenPlan} {n : Nat} (hP : P.Fine n) {t u : Ty} (ht : PTy P t) (h : Next P t u) : PTy P u := by
  rcases h with rfl | ⟨i, rfl, rfl | ⟨j, rfl, hj, -⟩⟩
  · exact ht
  · exact hP.last i ht
  · exact hj

theorem Next.base {P : GenPlan} {i : Nat} {t u : Ty} (h : Next P t u) (hb : PBase P i (some t)) : PBase P i (some u) := by
  rcases h with rfl | ⟨k, rfl, rfl | ⟨j, rfl, hj, h1, h2⟩⟩
  · exact hb
  · exact hb.2.2
  · exact ⟨hj, by have := hb.2.1; omega, h2.trans hb.2.2⟩

theorem baseChain_ready {P : GenPlan} {H : THeap} (h : Planned P H) {b : Builtin} : ∀ (n : Nat) (o : Option Builtin) (t : Ty),
    (t = .builtin b ∧ 1 ≤ n ∨ ∃ j, t = .obj j ∧ j < P.len ∧ P.last j = b ∧ P.rank j + 2 ≤ n) →
    ∃ l, baseChain H n o (some t) = .ok (l, some b) ∧ ∀ x ∈ l, ∃ j, x = .obj j ∧ j < P.len ∧ P.last j = b := by
  intro n
  induction n with
  | zero =>
    intro o t ht
    rcases ht with ⟨-, h⟩ | ⟨j, -, -, -, h⟩ <;> omega
  | succ n ih =>
    intro o t ht
    rcases ht with ⟨rfl, -⟩ | ⟨j, rfl, hj, rfl, hr⟩
    · exact ⟨[], rfl, by simp⟩
    · obtain ⟨ob, ho, hp⟩ := h.get hj
      have hb := hp.base
      have hbo : baseOf H (.obj j) = ob.base := by simp only [baseOf, ho]
      obtain ⟨t, ht⟩ := hb.some
      rw [ht] at hb
      obtain ⟨l, hl, hx⟩ := ih (some AnyType) t (by
        cases t with
        | builtin b => cases hb; exact Or.inl ⟨rfl, by omega⟩
        | obj k => exact Or.inr ⟨k, rfl, hb.1, hb.2.2, by have := hb.2.1; omega⟩
        | link m => exact absurd hb (by simp [PBase]))
      refine ⟨.obj j :: l, ?_, ?_⟩
      · simp only [baseChain, hbo, ht, hl, Run.bind]
      · intro x hx'
        rcases List.mem_cons.mp hx' with rfl | hx'
        · exact ⟨j, rfl, hj, rfl⟩
        · exact hx x hx'

theorem PObj.unnamed {P : GenPlan} {i : Nat} {s s' : SimpleT} (h : PObj P i (.simple s)) :
    ∀ n ∈ P.elems i, ∃ c, TObj.simple s' = .complex c ∧ n ∈ c.elements.map (·.name) := by
  intro n hn
  obtain ⟨c, e, -⟩ := h.elems n hn
  cases e

theorem PObj.keeps {P : GenPlan} {i : Nat} {c c' : ComplexT} (h : PObj P i (.complex c))
    (hs : ∀ n ∈ c.elements.map (·.name), n ∈ c'.elements.map (·.name)) :
    ∀ n ∈ P.elems i, ∃ c, TObj.complex c' = .complex c ∧ n ∈ c.elements.map (·.name) := by
  intro n hn
  obtain ⟨c, e, hc⟩ := h.elems n hn
  cases e
  exact ⟨c', rfl, hs n hc⟩

theorem modify_names (es : List XElem) (i : Nat) (t : Ty) :
    ∀ n ∈ es.map (·.name), n ∈ (es.modify i (fun e => { e with type := t })).map (·.name) := by
  intro n hn
  obtain ⟨e, he, rfl⟩ := List.mem_map.mp hn
  obtain ⟨j, hj⟩ := List.mem_iff_getElem?.mp he
  refine List.mem_map.mpr ⟨if i = j then { e with type := t } else e, List.mem_iff_getElem?.mpr ⟨j, ?_⟩, by split <;> rfl⟩
  rw [List.getElem?_modify, hj]
  split <;> simp_all

theorem inherited_names (c : ComplexT) (cs : List ComplexT) :
    ∀ n ∈ c.elements.map (·.name), n ∈ (withInherited c cs).elements.map (·.name) := by
  intro n hn
  obtain ⟨e, he, rfl⟩ := List.mem_map.mp hn
  refine List.mem_map.mpr ⟨e, List.mem_flatMap.mpr ⟨(c, 0), ?_, ?_⟩, rfl⟩
  · simp [List.zipIdx_cons]
  · exact List.mem_filter.mpr ⟨he, by simp⟩

theorem setSimple_ready {P : GenPlan} {H : THeap} (h : Planned P H) {b : Builtin} {x : Ty} (hx : ∀ j, x = .obj j → P.last j = b) :
    Planned P (setSimpleBase (some (.builtin b)) H x) ∧ Kin H (setSimpleBase (some (.builtin b)) H x) := by
  unfold setSimpleBase
  split
  · rename_i id
    split
    · rename_i s hs
      have hp := h.obj _ _ hs
      refine ⟨h.set ⟨hp.name, (hx id rfl).symm, fun c e => (by cases e), fun s' e => ?_, hp.unnamed⟩, Kin.set hs (by intro c e; cases e)⟩
      cases e
      exact hp.list s rfl
    · exact ⟨h, .refl H⟩
  · exact ⟨h, .refl H⟩

theorem setSimples_ready {P : GenPlan} {b : Builtin} : ∀ (l : List Ty) {H : THeap}, Planned P H → (∀ x ∈ l, ∀ j, x = .obj j → P.last j = b) →
    Planned P (l.foldl (setSimpleBase (some (.builtin b))) H) ∧ Kin H (l.foldl (setSimpleBase (some (.builtin b))) H) := by
  intro l
  induction l with
  | nil => exact fun h _ => ⟨h, .refl _⟩
  | cons x l ih =>
    intro H h hx
    obtain ⟨h1, k1⟩ := setSimple_ready h (hx x (by simp))
    obtain ⟨h2, k2⟩ := ih h1 (fun y hy => hx y (List.mem_cons_of_mem _ hy))
    exact ⟨h2, k1.trans k2⟩

theorem flattenSimple_ready {P : GenPlan} {n : Nat} (hP : P.Fine n) {H : THeap} (h : Planned P H) {id : Nat} {s : SimpleT}
    (hs : H[id]? = some (.simple s)) : ∃ G l u, flattenSimple n H id s = .ok (G, l, some u) ∧ Planned P G ∧ Kin H G ∧ (∀ x ∈ l, PTy P x) ∧
      Next P (.obj id) u := by
  have hid := h.lt hs
  have hp := h.obj _ _ hs
  have hb : PBase P id s.base := hp.base
  obtain ⟨t, ht⟩ := hb.some
  rw [ht] at hb
  have hrank := hP.rank id hid
  obtain ⟨l, hl, hx⟩ := baseChain_ready h (b := P.last id) n none t (by
    cases t with
    | builtin b => cases hb; exact Or.inl ⟨rfl, by omega⟩
    | obj k => exact Or.inr ⟨k, rfl, hb.1, hb.2.2, by have := hb.2.1; omega⟩
    | link m => exact absurd hb (by simp [PBase]))
  have hl2 : ∀ x ∈ l.filter (isSimple H), ∃ j, x = .obj j ∧ j < P.len ∧ P.last j = P.last id := fun x hx' => hx x (List.mem_filter.mp hx').1
  obtain ⟨h1, k1⟩ := setSimples_ready (b := P.last id) (l.filter (isSimple H)) h (by
    intro x hx' j e
    obtain ⟨j', e', -, h3⟩ := hl2 x hx'
    rw [e] at e'
    cases e'
    exact h3)
  obtain ⟨h2, k2⟩ := setSimple_ready (x := .obj id) (b := P.last id) h1 (by intro j e; cases e; rfl)
  have hl3 : ∀ x ∈ l.filter (isSimple H), PTy P x := by
    intro x hx'
    obtain ⟨j, rfl, hj, -⟩ := hl2 x hx'
    exact hj
  unfold flattenSimple
  rw [ht, hl]
  simp only [Run.bind, Option.map_some]
  split
  · exact ⟨_, _, _, rfl, h2, k1.trans k2, hl3, Or.inl rfl⟩
  · split
    · refine ⟨_, _, _, rfl, h2.set ⟨hp.name, rfl, fun c e => (by cases e), fun s' e => ?_, hp.unnamed⟩, (k1.trans k2).trans ?_, hl3, Or.inl rfl⟩
      · cases e
        exact hp.list s rfl
      · obtain ⟨o, ho, -⟩ := h2.get hid
        refine Kin.set ho ?_
        intro c e
        subst e
        exfalso
        have := setSimpleBase_get (some (.builtin (P.last id))) ((l.filter (isSimple H)).foldl (setSimpleBase (some (.builtin (P.last id)))) H) (.obj id) id
        rw [ho, foldl_setSimpleBase, hs] at this
        simp at this
    · exact ⟨_, _, _, rfl, h2, k1.trans k2, hl3, Or.inr ⟨id, rfl, Or.inl rfl⟩⟩

/-- What is shown about `flatten1` and assumed about its recursive calls. -/
def Works (P : GenPlan) (recur : THeap → Option Ty → Run Flat) : Prop := ∀ H t, Planned P H → PTy P t →
  ∃ G l u, recur H (some t) = .ok (G, l, some u) ∧ Planned P G ∧ Kin H G ∧ (∀ x ∈ l, PTy P x) ∧ Next P t u

theorem fieldLoop_ready {P : GenPlan} {n : Nat} (hP : P.Fine n) {recur : THeap → Option Ty → Run Flat} (hrec : Works P recur) {get : THeap → Nat → Option Ty}
    {set : THeap → Nat → Ty → THeap} {H0 : THeap} (hset : ∀ G i t, Planned P G → PTy P t → Planned P (set G i t) ∧ Kin G (set G i t)) :
    ∀ (is : List Nat) (H : THeap), (∀ G, Planned P G → Kin H0 G → ∀ i ∈ is, ∃ t, get G i = some t ∧ PTy P t) → Planned P H → Kin H0 H →
      ∃ G l, fieldLoop recur get set is H = .ok (G, l) ∧ Planned P G ∧ Kin H G ∧ ∀ x ∈ l, PTy P x := by
  intro is
  induction is with
  | nil => exact fun H _ h _ => ⟨H, [], rfl, h, .refl H, by simp⟩
  | cons i is ih =>
    intro H hget h hk
    obtain ⟨t, ht, hty⟩ := hget H h hk i (by simp)
    obtain ⟨G, l, u, h1, h2, h3, h4, h5⟩ := hrec H t h hty
    have hu := h5.ty hP hty
    obtain ⟨h6, h7⟩ := hset G i u h2 hu
    obtain ⟨K, l2, h8, h9, h10, h11⟩ := ih (set G i u) (fun G h k j hj => hget G h k j (List.mem_cons_of_mem _ hj)) h6 ((hk.trans h3).trans h7)
    refine ⟨K, l ++ u :: l2, ?_, h9, (h3.trans h7).trans h10, ?_⟩
    · simp only [fieldLoop, ht, h1, Run.bind, h8]
    · intro x hx
      rcases List.mem_append.mp hx with hx | hx
      · exact h4 x hx
      · rcases List.mem_cons.mp hx with rfl | hx
        · exact hu
        · exact h11 x hx

theorem modify_type {P : GenPlan} {es : List XElem} {i : Nat} {t : Ty} (ht : PTy P t) (h : ∀ e ∈ es, PTy P e.type) :
    ∀ e ∈ es.modify i (fun e => { e with type := t }), PTy P e.type := by
  intro e he
  rcases List.mem_iff_getElem?.mp he with ⟨j, hj⟩
  rw [List.getElem?_modify] at hj
  obtain ⟨e0, h0, rfl⟩ := Option.map_eq_some_iff.mp hj
  split
  · exact ht
  · exact h e0 (List.mem_of_getElem? h0)

theorem modify_attr_type {P : GenPlan} {es : List XAttr} {i : Nat} {t : Ty} (ht : PTy P t) (h : ∀ e ∈ es, PTy P e.type) :
    ∀ e ∈ es.modify i (fun e => { e with type := t }), PTy P e.type := by
  intro e he
  rcases List.mem_iff_getElem?.mp he with ⟨j, hj⟩
  rw [List.getElem?_modify] at hj
  obtain ⟨e0, h0, rfl⟩ := Option.map_eq_some_iff.mp hj
  split
  · exact ht
  · exact h e0 (List.mem_of_getElem? h0)

theorem setElem_ready {P : GenPlan} {G : THeap} (id i : Nat) {t : Ty} (h : Planned P G) (ht : PTy P t) :
    Planned P (setElemType G id i t) ∧ Kin G (setElemType G id i t) := by
  unfold setElemType
  split
  · rename_i c hc
    have hp := h.obj _ _ hc
    refine ⟨h.set ⟨hp.name, hp.base, fun c' e => ?_, fun s e => (by cases e), hp.keeps (modify_names _ _ _)⟩, Kin.set hc (by rintro _ ⟨⟩; exact ⟨_, rfl, by simp, rfl⟩)⟩
    cases e
    exact ⟨modify_type ht (hp.fields c rfl).1, (hp.fields c rfl).2⟩
  · exact ⟨h, .refl G⟩

theorem setAttr_ready {P : GenPlan} {G : THeap} (id i : Nat) {t : Ty} (h : Planned P G) (ht : PTy P t) :
    Planned P (setAttrType G id i t) ∧ Kin G (setAttrType G id i t) := by
  unfold setAttrType
  split
  · rename_i c hc
    have hp := h.obj _ _ hc
    refine ⟨h.set ⟨hp.name, hp.base, fun c' e => ?_, fun s e => (by cases e), hp.keeps (fun _ h => h)⟩, Kin.set hc (by rintro _ ⟨⟩; exact ⟨_, rfl, rfl, by simp⟩)⟩
    cases e
    exact ⟨(hp.fields c rfl).1, modify_attr_type ht (hp.fields c rfl).2⟩
  · exact ⟨h, .refl G⟩

theorem flattenComplex_ready {P : GenPlan} {n : Nat} (hP : P.Fine n) {recur : THeap → Option Ty → Run Flat} (hrec : Works P recur) {H : THeap}
    (h : Planned P H) {id : Nat} {c : ComplexT} (hc : H[id]? = some (.complex c)) :
    ∃ G l u, flattenComplex recur H id c = .ok (G, l, some u) ∧ Planned P G ∧ Kin H G ∧ (∀ x ∈ l, PTy P x) ∧ Next P (.obj id) u := by
  have hid := h.lt hc
  obtain ⟨G1, l1, e1, r1, k1, t1⟩ := fieldLoop_ready hP hrec (H0 := H) (get := fun H i => elemType H id i) (set := fun H i t => setElemType H id i t)
    (fun G i t hG ht => setElem_ready id i hG ht) (List.range c.elements.length) H (by
      intro G hG hk i hi
      obtain ⟨c', hc', hl, -⟩ := hk id c hc
      have hi' : i < c'.elements.length := by rw [hl]; exact List.mem_range.mp hi
      refine ⟨c'.elements[i].type, by simp only [elemType, hc', List.getElem?_eq_getElem hi', Option.map_some], ?_⟩
      exact ((hG.obj _ _ hc').fields c' rfl).1 _ (List.getElem_mem _)) h (.refl H)
  obtain ⟨G2, l2, e2, r2, k2, t2⟩ := fieldLoop_ready hP hrec (H0 := H) (get := fun H i => attrType H id i) (set := fun H i t => setAttrType H id i t)
    (fun G i t hG ht => setAttr_ready id i hG ht) (List.range c.attributes.length) G1 (by
      intro G hG hk i hi
      obtain ⟨c', hc', -, hl⟩ := hk id c hc
      have hi' : i < c'.attributes.length := by rw [hl]; exact List.mem_range.mp hi
      refine ⟨c'.attributes[i].type, by simp only [attrType, hc', List.getElem?_eq_getElem hi', Option.map_some], ?_⟩
      exact ((hG.obj _ _ hc').fields c' rfl).2 _ (List.getElem_mem _)) r1 k1
  obtain ⟨c2, hc2, -, -⟩ := (k1.trans k2) id c hc
  have hb : PBase P id c2.base := (r2.obj _ _ hc2).base
  obtain ⟨t, ht⟩ := hb.some
  rw [ht] at hb
  obtain ⟨G3, l3, u, e3, r3, k3, t3, n3⟩ := hrec G2 t r2 (hb.ty hP hid)
  have hbu := n3.base hb
  obtain ⟨c3, hc3, -, -⟩ := k3 id c2 hc2
  have hp3 := r3.obj _ _ hc3
  have hset : setComplexBase G3 id u = G3.set id (.complex { c3 with base := some u }) := by simp only [setComplexBase, hc3]
  refine ⟨setComplexBase G3 id u, l1 ++ l2 ++ l3 ++ (if c.mixed then [u] else []), .obj id, ?_, ?_, ?_, ?_, Or.inl rfl⟩
  · have hbo : baseOf G2 (.obj id) = some t := by simp only [baseOf, hc2]; exact ht
    simp only [flattenComplex, e1, Run.bind, e2, hbo, e3]
  · rw [hset]
    exact r3.set ⟨hp3.name, hbu, fun c' e => (by cases e; exact hp3.fields c3 rfl), fun s e => (by cases e), hp3.keeps (fun _ h => h)⟩
  · rw [hset]
    exact ((k1.trans k2).trans k3).trans (Kin.set hc3 (by rintro _ ⟨⟩; exact ⟨_, rfl, rfl, rfl⟩))
  · intro x hx
    simp only [List.mem_append] at hx
    rcases hx with ((hx | hx) | hx) | hx
    · exact t1 x hx
    · exact t2 x hx
    · exact t3 x hx
    · split at hx
      · rw [List.mem_singleton.mp hx]
        exact hbu.ty hP hid
      · cases hx

theorem flatten1_ready {P : GenPlan} {n : Nat} (hP : P.Fine n) (cfg : Config) : ∀ d, Works P (flatten1 cfg n d) := by
  intro d
  induction d with
  | zero => exact fun H t h ht => ⟨H, [], t, rfl, h, .refl H, by simp, Or.inl rfl⟩
  | succ d ih =>
    intro H t h ht
    cases t with
    | link m => exact absurd ht (by simp [PTy])
    | builtin b => exact ⟨H, [], _, rfl, h, .refl H, by simp, Or.inl rfl⟩
    | obj id =>
      obtain ⟨o, ho, hp⟩ := h.get ht
      cases o with
      | simple s =>
        simp only [flatten1, ho]
        exact flattenSimple_ready hP h ho
      | complex c =>
        have hb : PBase P id c.base := hp.base
        have hcx := flattenComplex_ready hP ih h ho
        simp only [flatten1, ho]
        obtain ⟨t, ht'⟩ := hb.some
        cases t with
        | link m => rw [ht'] at hb; exact absurd hb (by simp [PBase])
        | builtin b =>
          rw [ht'] at hb ⊢
          dsimp only
          split
          · cases hb
            exact ⟨H, [], _, rfl, h, .refl H, by simp, Or.inr ⟨id, rfl, Or.inl rfl⟩⟩
          · exact hcx
        | obj j =>
          rw [ht'] at hb ⊢
          dsimp only
          split
          · obtain ⟨G, l, u, h1, h2, h3, h4, h5⟩ := ih H (.obj j) h hb.1
            refine ⟨G, l, u, h1, h2, h3, h4, ?_⟩
            rcases h5 with rfl | ⟨k, e, rfl | ⟨j', rfl, hj, h6, h7⟩⟩
            · exact Or.inr ⟨id, rfl, Or.inr ⟨j, rfl, hb.1, Nat.le_of_lt hb.2.1, hb.2.2⟩⟩
            · cases e
              exact Or.inr ⟨id, rfl, Or.inl (by rw [hb.2.2])⟩
            · cases e
              exact Or.inr ⟨id, rfl, Or.inr ⟨j', rfl, hj, by have := hb.2.1; omega, h7.trans hb.2.2⟩⟩
          · exact hcx

theorem flattenLoop_ready {P : GenPlan} {n : Nat} (hP : P.Fine n) (cfg : Config) : ∀ (ts : List Ty) (H : THeap), Planned P H → (∀ t ∈ ts, PTy P t) →
    ∃ G l, flattenLoop cfg n H ts = .ok (G, l) ∧ Planned P G ∧ ∀ x ∈ l, PTy P x := by
  intro ts
  induction ts with
  | nil => exact fun H h _ => ⟨H, [], rfl, h, by simp⟩
  | cons t ts ih =>
    intro H h ht
    unfold flattenLoop
    split
    · exact ih H h (fun x hx => ht x (List.mem_cons_of_mem _ hx))
    · obtain ⟨G, l, u, h1, h2, -, h4, h5⟩ := flatten1_ready hP cfg 1001 H t h (ht t (by simp))
      obtain ⟨K, l2, h6, h7, h8⟩ := ih G h2 (fun x hx => ht x (List.mem_cons_of_mem _ hx))
      refine ⟨K, l ++ (some u).toList ++ l2, ?_, h7, ?_⟩
      · simp only [h1, Run.bind, h6]
      · intro x hx
        simp only [Option.toList_some, List.mem_append, List.mem_singleton] at hx
        rcases hx with (hx | rfl) | hx
        · exact h4 x hx
        · exact h5.ty hP (ht t (by simp))
        · exact h8 x hx


/-! ### flatten and expandComplexTypes -/

theorem dedup_mem {H : THeap} {l : List Ty} {x : Ty} (h : x ∈ dedup H l) : x ∈ l := by
  have : ∀ (l : List Ty) seen, x ∈ dedupLoop H seen l → x ∈ l := by
    intro l
    induction l with
    | nil => exact fun _ h => h
    | cons v vs ih =>
      intro seen h
      unfold dedupLoop at h
      split at h
      · exact List.mem_cons_of_mem _ (ih _ h)
      · rcases List.mem_cons.mp h with rfl | h
        · simp
        · exact List.mem_cons_of_mem _ (ih _ h)
  exact this l [] h

theorem dedup_nodup (H : THeap) (l : List Ty) : ((dedup H l).map (xmlName H)).Nodup := by
  have : ∀ (l : List Ty) seen, ((dedupLoop H seen l).map (xmlName H)).Nodup ∧ ∀ x ∈ dedupLoop H seen l, xmlName H x ∉ seen := by
    intro l
    induction l with
    | nil => exact fun _ => ⟨by simp [dedupLoop], by simp [dedupLoop]⟩
    | cons v vs ih =>
      intro seen
      unfold dedupLoop
      split
      · exact ih seen
      · rename_i hv
        obtain ⟨h1, h2⟩ := ih (xmlName H v :: seen)
        refine ⟨?_, ?_⟩
        · rw [List.map_cons, List.nodup_cons]
          refine ⟨?_, h1⟩
          intro hm
          obtain ⟨x, hx, e⟩ := List.mem_map.mp hm
          exact h2 x hx (by rw [e]; simp)
        · intro x hx
          rcases List.mem_cons.mp hx with rfl | hx
          · exact hv
          · exact fun h => h2 x hx (List.mem_cons_of_mem _ h)
  exact (this l []).1

theorem flatten_ready {P : GenPlan} {n : Nat} (hP : P.Fine n) (cfg : Config) {ts : List Ty} {H : THeap} (h : Planned P H) (ht : ∀ t ∈ ts, PTy P t) :
    ∃ G l, flatten cfg n H ts = .ok (G, l) ∧ Planned P G ∧ (∀ x ∈ l, PTy P x) ∧ (l.map (xmlName G)).Nodup := by
  obtain ⟨G, l, h1, h2, h3⟩ := flattenLoop_ready hP cfg ts H h ht
  refine ⟨G, dedup G l, ?_, h2, fun x hx => h3 x (dedup_mem hx), dedup_nodup G l⟩
  simp only [flatten, h1, Run.bind]

theorem Planned.base {P : GenPlan} {n : Nat} (hP : P.Fine n) {H : THeap} (h : Planned P H) {t b : Ty} (ht : PTy P t) (hb : baseOf H t = some b) : PTy P b := by
  cases t with
  | builtin x => cases hb
  | link x => cases hb
  | obj i =>
    obtain ⟨o, ho, hp⟩ := h.get ht
    have hb' := hp.base
    simp only [baseOf, ho] at hb
    rw [hb] at hb'
    exact hb'.ty hP ht

theorem Planned.ancestor {P : GenPlan} {n : Nat} (hP : P.Fine n) {H : THeap} (h : Planned P H) {t a : Ty} (ha : Ancestor H t a) : PTy P t → PTy P a := by
  induction ha with
  | self t => exact id
  | base hb _ ih => exact fun ht => ih (h.base hP ht hb)

theorem Planned.name {P : GenPlan} {H : THeap} (h : Planned P H) {i : Nat} (hi : i < P.len) : xmlName H (.obj i) = P.name i := by
  obtain ⟨o, ho, hp⟩ := h.get hi
  simp only [xmlName, ho]
  exact hp.name

theorem Planned.distinct {P : GenPlan} {n : Nat} (hP : P.Fine n) {H : THeap} (h : Planned P H) {a b : Ty} (ha : PTy P a) (hb : PTy P b)
    (he : xmlName H a = xmlName H b) : a = b := by
  cases a with
  | link m => exact absurd ha (by simp [PTy])
  | builtin x =>
    cases b with
    | link m => exact absurd hb (by simp [PTy])
    | builtin y => rw [Wsdl.builtinName_inj ha.1 ha.2.1 hb.1 hb.2.1 he]
    | obj j => rw [h.name hb] at he; exact absurd he.symm (hP.own j hb x)
  | obj i =>
    rw [h.name ha] at he
    cases b with
    | link m => exact absurd hb (by simp [PTy])
    | builtin y => exact absurd he (hP.own i ha y)
    | obj j => rw [h.name hb] at he; rw [hP.inj i j ha hb he]

theorem Planned.ends {P : GenPlan} {H : THeap} (h : Planned P H) : ∀ (k : Nat) (t : Ty), (∀ i, t = .obj i → i < P.len ∧ P.rank i + 1 ≤ k) → EndsWithin H k t := by
  intro k
  induction k with
  | zero =>
    intro t ht
    cases t with
    | builtin b => exact .none rfl
    | link m => exact .none rfl
    | obj i => have := (ht i rfl).2; omega
  | succ k ih =>
    intro t ht
    cases t with
    | builtin b => exact .none rfl
    | link m => exact .none rfl
    | obj i =>
      obtain ⟨hi, hr⟩ := ht i rfl
      obtain ⟨o, ho, hp⟩ := h.get hi
      have hb := hp.base
      obtain ⟨t, ht⟩ := hb.some
      rw [ht] at hb
      refine .base (b := t) (by simp only [baseOf, ho]; exact ht) (ih t ?_)
      rintro j rfl
      exact ⟨hb.1, by have := hb.2.1; omega⟩

theorem Lineage.fields {P : GenPlan} {H : THeap} (h : Planned P H) {id : Nat} {cs : List ComplexT} (hl : Lineage H id cs) :
    (∀ e ∈ inheritedElems cs, PTy P e.type) ∧ ∀ a ∈ inheritedAttrs cs, PTy P a.type := by
  have key : ∀ d ∈ cs, ∃ j : Nat, H[j]? = some (.complex d) := by
    induction hl with
    | top h1 _ => intro d hd; rw [List.mem_singleton.mp hd]; exact ⟨_, h1⟩
    | derived h1 _ _ ih =>
      intro d hd
      rcases List.mem_cons.mp hd with rfl | hd
      · exact ⟨_, h1⟩
      · exact ih d hd
  constructor
  · intro e he
    obtain ⟨p, hp, he⟩ := List.mem_flatMap.mp he
    have hd := List.fst_mem_of_mem_zipIdx (List.mem_reverse.mp hp)
    obtain ⟨j, hj⟩ := key _ hd
    exact ((h.obj _ _ hj).fields _ rfl).1 e (List.mem_filter.mp he).1
  · intro e he
    obtain ⟨p, hp, he⟩ := List.mem_flatMap.mp he
    have hd := List.fst_mem_of_mem_zipIdx hp
    obtain ⟨j, hj⟩ := key _ hd
    exact ((h.obj _ _ hj).fields _ rfl).2 e (List.mem_filter.mp he).1

theorem expand_ready {P : GenPlan} {n : Nat} (hP : P.Fine (n + 1)) {H : THeap} (h : Planned P H) {ts : List Ty} (ht : ∀ t ∈ ts, PTy P t)
    (hn : (ts.map (xmlName H)).Nodup) : ∃ G, expandComplexTypes (n + 1) H ts = .ok G ∧ Planned P G := by
  obtain ⟨G, h1, h2, h3⟩ := expand_spec n H ts hn
    (fun t1 m1 t2 m2 a1 a2 e1 e2 he => h.distinct hP (h.ancestor hP e1 (ht t1 m1)) (h.ancestor hP e2 (ht t2 m2)) he)
    (fun t m => h.ends n t (by
      rintro i rfl
      have hi : i < P.len := ht _ m
      exact ⟨hi, by have := hP.rank i hi; omega⟩))
  refine ⟨G, h1, ⟨h2.trans h.len, ?_⟩⟩
  intro i o ho
  have hi : i < P.len := by rw [← h.len, ← h2]; exact (List.getElem?_eq_some_iff.mp ho).1
  obtain ⟨o0, ho0, hp⟩ := h.get hi
  obtain ⟨k1, k2, k3⟩ := h3 i
  cases o0 with
  | simple s =>
    rw [k2 (by rw [ho0]; intro c e; cases e), ho0] at ho
    cases ho
    exact hp
  | complex c =>
    by_cases hex : ∃ t ∈ ts, Ancestor H t (.obj i)
    · obtain ⟨t, m, ha⟩ := hex
      obtain ⟨cs, hl, hg⟩ := k3 t m ha c ho0
      rw [hg] at ho
      cases ho
      refine ⟨hp.name, hp.base, fun c' e => ?_, fun s e => (by cases e), hp.keeps (inherited_names c cs)⟩
      cases e
      exact Lineage.fields h hl
    · rw [k1 (fun t m ha => hex ⟨t, m, ha⟩), ho0] at ho
      cases ho
      exact hp

/-! ### Declarations -/

theorem expr_builtin (env : Env) (cfg : Config) (H : THeap) {b : Builtin} (hb : InSchema b) : ∃ e, exprOf env cfg H (.builtin b) = .ok e := by
  have key : ∀ i : Fin 50, (builtinName (i.1 : Int)).space = schemaNS → (builtinExpr (i.1 : Int)).toOption.join.isSome = true := by decide +kernel
  obtain ⟨h1, h2, h3⟩ := hb
  obtain ⟨i, rfl⟩ := Int.eq_ofNat_of_zero_le h1
  have := key ⟨i, by exact_mod_cast h2⟩ h3
  simp only [exprOf]
  cases he : builtinExpr (i : Int) with
  | ok o =>
    simp only [he, Run.toOption] at this
    cases o with
    | none => cases this
    | some e => exact ⟨e, rfl⟩
  | error => simp [he, Run.toOption] at this
  | panic => simp [he, Run.toOption] at this
  | running => simp [he, Run.toOption] at this

theorem expr_ready (env : Env) (cfg : Config) {P : GenPlan} (H : THeap) {t : Ty} (ht : PTy P t) : ∃ e, exprOf env cfg H t = .ok e := by
  cases t with
  | builtin b => exact expr_builtin env cfg H ht
  | obj j => exact ⟨_, rfl⟩
  | link m => exact absurd ht (by simp [PTy])

/-- The configuration has all standard helpers. -/
def Equipped (cfg : Config) : Prop := ∀ b, nonTrivialBuiltin (some (.builtin b)) = true → cfg.helperTypes.get (builtinName b) ≠ none

theorem equipped_standard (cfg : Config) : Equipped (addStandardHelpers cfg) := by
  intro b hb
  simp only [nonTrivialBuiltin, decide_eq_true_eq] at hb
  have key : ∀ b ∈ ([13, 27, 16, 39, 17, 22, 23, 24, 25, 26] : List Int), ((addStandardHelpers {}).helperTypes.get (builtinName b)).isSome = true := by
    decide +kernel
  have := key b hb
  intro hn
  have e : (addStandardHelpers cfg).helperTypes = (addStandardHelpers {}).helperTypes := rfl
  rw [e] at hn
  rw [hn] at this
  cases this

theorem override_ready {cfg : Config} (hc : Equipped cfg) (H : THeap) (acc : Acc) (name dflt tag : Str) (type : Ty) (expr : GoExpr) (helper : Spec → XName) :
    ∃ a, addOverride cfg H acc name dflt tag type expr helper = .ok a := by
  unfold addOverride
  split
  · rename_i hn
    cases type with
    | builtin b =>
      have := hc b hn
      simp only [xmlName] at *
      cases hg : cfg.helperTypes.get (builtinName b) with
      | none => exact absurd hg this
      | some h => exact ⟨_, rfl⟩
    | obj i => cases hn
    | link m => cases hn
  · split <;> exact ⟨_, rfl⟩

theorem runFold_ready {α β : Type} {f : β → α → Run β} : ∀ (l : List α) (b : β), (∀ b, ∀ a ∈ l, ∃ c, f b a = .ok c) → ∃ c, runFold f b l = .ok c := by
  intro l
  induction l with
  | nil => exact fun b _ => ⟨b, rfl⟩
  | cons a l ih =>
    intro b h
    obtain ⟨c, hc⟩ := h b a (by simp)
    obtain ⟨d, hd⟩ := ih c (fun b x hx => h b x (List.mem_cons_of_mem _ hx))
    exact ⟨d, by simp only [runFold, hc, Run.bind, hd]⟩

theorem keepAttrs_sub {f : Option (XAttr → Bool)} {a : XAttr} : ∀ {l : List XAttr}, a ∈ keepAttrs f l → a ∈ l := by
  intro l
  induction l with
  | nil => exact id
  | cons x l ih =>
    intro h
    unfold keepAttrs at h
    split at h
    · split at h
      · exact List.mem_cons_of_mem _ (ih h)
      · rcases List.mem_cons.mp h with rfl | h
        · simp
        · exact List.mem_cons_of_mem _ (ih h)
    · rcases List.mem_cons.mp h with rfl | h
      · simp
      · exact List.mem_cons_of_mem _ (ih h)

theorem keepElems_sub {f : Option (XElem → Bool)} {a : XElem} : ∀ {l : List XElem}, a ∈ keepElems f l → a ∈ l := by
  intro l
  induction l with
  | nil => exact id
  | cons x l ih =>
    intro h
    unfold keepElems at h
    split at h
    · split at h
      · exact List.mem_cons_of_mem _ (ih h)
      · rcases List.mem_cons.mp h with rfl | h
        · simp
        · exact List.mem_cons_of_mem _ (ih h)
    · rcases List.mem_cons.mp h with rfl | h
      · simp
      · exact List.mem_cons_of_mem _ (ih h)

theorem mixedBase_ready {P : GenPlan} {n : Nat} (hP : P.Fine n) {H : THeap} (h : Planned P H) : ∀ (k : Nat) (t : Ty), PTy P t → 1 ≤ k →
    (∀ i, t = .obj i → P.rank i + 2 ≤ k) → ∃ u, mixedBase H k t = .ok u ∧ PTy P u ∧ ((∃ b, u = .builtin b) ∨ isSimple H u = true) := by
  intro k
  induction k with
  | zero => intro t _ hk; omega
  | succ k ih =>
    intro t ht _ hr
    unfold mixedBase
    cases t with
    | builtin b => exact ⟨.builtin b, rfl, ht, Or.inl ⟨b, rfl⟩⟩
    | link m => exact absurd ht (by simp [PTy])
    | obj i =>
      obtain ⟨o, ho, hp⟩ := h.get ht
      have hb := hp.base
      obtain ⟨t, hbt⟩ := hb.some
      rw [hbt] at hb
      have hbo : baseOf H (.obj i) = some t := by simp only [baseOf, ho]; exact hbt
      simp only [hbo]
      split
      · rename_i hs
        exact ⟨_, rfl, ht, Or.inr hs⟩
      · refine ih t (hb.ty hP ht) (by have := hr i rfl; omega) ?_
        rintro j rfl
        have := hr i rfl
        have := hb.2.1
        omega

theorem lastBase_ready {P : GenPlan} {H : THeap} (h : Planned P H) {b : Builtin} : ∀ (k : Nat) (t : Ty),
    (t = .builtin b ∧ 1 ≤ k ∨ ∃ i, t = .obj i ∧ i < P.len ∧ P.last i = b ∧ P.rank i + 2 ≤ k) → lastBase H k t = .ok (.builtin b) := by
  intro k
  induction k with
  | zero => rintro t (⟨-, h⟩ | ⟨i, -, -, -, h⟩) <;> omega
  | succ k ih =>
    rintro t (⟨rfl, -⟩ | ⟨i, rfl, hi, rfl, hr⟩)
    · rfl
    · obtain ⟨o, ho, hp⟩ := h.get hi
      have hb := hp.base
      obtain ⟨t, hbt⟩ := hb.some
      rw [hbt] at hb
      have hbo : baseOf H (.obj i) = some t := by simp only [baseOf, ho]; exact hbt
      simp only [lastBase, hbo]
      refine ih t ?_
      cases t with
      | builtin b => cases hb; exact Or.inl ⟨rfl, by omega⟩
      | obj j => exact Or.inr ⟨j, rfl, hb.1, hb.2.2, by have := hb.2.1; omega⟩
      | link m => exact absurd hb (by simp [PBase])

theorem charData_ready (env : Env) {cfg : Config} (hc : Equipped cfg) {P : GenPlan} {n : Nat} (hP : P.Fine n) {H : THeap} (h : Planned P H) {id : Nat}
    (hid : id < P.len) {t : ComplexT} (hp : PObj P id (.complex t)) : ∃ a, charData env cfg n H t = .ok a := by
  unfold charData
  split
  · have hb : PBase P id t.base := hp.base
    obtain ⟨b0, hb0⟩ := hb.some
    rw [hb0] at hb
    have hrank := hP.rank id hid
    obtain ⟨u, hu, hty, hk⟩ := mixedBase_ready hP h n b0 (hb.ty hP hid) (by omega) (by
      rintro i rfl
      have := hb.2.1
      omega)
    obtain ⟨e, he⟩ := expr_ready env cfg H hty
    simp only [hb0, hu, Run.bind, he]
    cases u with
    | link m => exact absurd hty (by simp [PTy])
    | builtin b =>
      simp only
      split
      · exact ⟨_, rfl⟩
      · split
        · rename_i hn
          have := hc b hn
          simp only [xmlName]
          cases hg : cfg.helperTypes.get (builtinName b) with
          | none => exact absurd hg this
          | some h => exact ⟨_, rfl⟩
        · exact ⟨_, rfl⟩
    | obj j =>
      rcases hk with ⟨b, hb⟩ | hk
      · cases hb
      · simp only [hk, if_true]
        exact ⟨_, rfl⟩
  · exact ⟨_, rfl⟩

theorem mergeAttributes_mem {a : XAttr} : ∀ (l src : List XAttr), a ∈ mergeAttributes src l → a ∈ src ∨ a ∈ l := by
  intro l
  induction l with
  | nil => exact fun src h => Or.inl h
  | cons x l ih =>
    intro src h
    unfold mergeAttributes at h
    split at h
    · exact (ih _ h).imp_right (List.mem_cons_of_mem _)
    · rcases ih _ h with h | h
      · rcases List.mem_append.mp h with h | h
        · exact Or.inl h
        · rw [List.mem_singleton.mp h]; exact Or.inr (by simp)
      · exact Or.inr (List.mem_cons_of_mem _ h)

theorem takeOver_ready {P : GenPlan} {H : THeap} (h : Planned P H) {id : Nat} {t : ComplexT} (hp : PObj P id (.complex t)) :
    PObj P id (.complex (takeOver H t)) := by
  unfold takeOver
  split
  · exact hp
  · rename_i b hb
    obtain ⟨-, hb2⟩ := complexBase_iff.mp (show complexBase H t = some (b.1, b.2) from hb)
    have hpb := (h.obj _ _ hb2).fields _ rfl
    have hpt := hp.fields _ rfl
    refine ⟨hp.name, hp.base, fun c e => ?_, fun s e => (by cases e), hp.keeps ?_⟩
    rotate_left
    · intro x hx
      simp only
      split
      · exact hx
      · split
        · rw [List.map_append]; exact List.mem_append_left _ hx
        · exact hx
    cases e
    constructor
    · intro e he
      simp only at he
      split at he
      · exact hpt.1 e he
      · split at he
        · rename_i x hx
          rcases List.mem_append.mp he with he | he
          · exact hpt.1 e he
          · rw [List.mem_singleton.mp he]
            exact hpb.1 _ (List.mem_of_find?_eq_some hx)
        · exact hpt.1 e he
    · intro a ha
      rcases mergeAttributes_mem _ _ ha with ha | ha
      · exact hpt.2 a ha
      · exact hpb.2 a ha

theorem genTypeSpec_ready (env : Env) {cfg : Config} (hc : Equipped cfg) {P : GenPlan} {n : Nat} (hP : P.Fine n) {H : THeap} (h : Planned P H) {t : Ty}
    (ht : PTy P t) : (∃ G l, genTypeSpec env cfg n H t = .ok (G, l) ∧ Planned P G) ∨ genTypeSpec env cfg n H t = .error ∧ ¬ P.listed := by
  cases t with
  | builtin b => exact Or.inl ⟨H, [], rfl, h⟩
  | link m => exact Or.inl ⟨H, [], rfl, h⟩
  | obj id =>
    have hid : id < P.len := ht
    obtain ⟨o, ho, hp⟩ := h.get ht
    cases o with
    | complex c =>
      have hp2 := takeOver_ready h hp
      have h2 := h.set hp2
      obtain ⟨a1, e1⟩ := charData_ready env hc hP h2 hid hp2
      obtain ⟨a2, e2⟩ := runFold_ready (f := elemStep env cfg (H.set id (.complex (takeOver H c)))) (filterFields cfg (takeOver H c)).2 a1 (by
        intro acc el hel
        obtain ⟨e, he⟩ := expr_ready env cfg (H.set id (.complex (takeOver H c))) ((hp2.fields _ rfl).1 el (keepElems_sub hel))
        simp only [elemStep, he, Run.bind]
        exact override_ready hc ..)
      obtain ⟨a3, e3⟩ := runFold_ready (f := attrStep env cfg (H.set id (.complex (takeOver H c)))) (filterFields cfg (takeOver H c)).1 a2 (by
        intro acc el hel
        obtain ⟨e, he⟩ := expr_ready env cfg (H.set id (.complex (takeOver H c))) ((hp2.fields _ rfl).2 el (keepAttrs_sub hel))
        simp only [attrStep, he, Run.bind]
        exact override_ready hc ..)
      simp only [genTypeSpec, ho, genComplexType, genFields, e1, Run.bind, e2, e3]
      exact Or.inl ⟨_, _, rfl, h2⟩
    | simple s =>
      have hb : PBase P id s.base := hp.base
      obtain ⟨b, hbs⟩ := hb.some
      rw [hbs] at hb
      obtain ⟨e, he⟩ := expr_ready env cfg H (hb.ty hP hid)
      have hrank := hP.rank id hid
      suffices hs : (∃ l, genSimpleType env cfg n H id s = .ok l) ∨ genSimpleType env cfg n H id s = .error ∧ ¬ P.listed by
        rcases hs with ⟨l, hl⟩ | ⟨he, hl⟩
        · exact Or.inl ⟨H, l, by simp only [genTypeSpec, ho, hl, Run.bind], h⟩
        · exact Or.inr ⟨by simp only [genTypeSpec, ho, he, Run.bind], hl⟩
      unfold genSimpleType
      split
      · rename_i hlist
        have hlast := lastBase_ready h (b := P.last id) n b (by
          cases b with
          | builtin b => cases hb; exact Or.inl ⟨rfl, by omega⟩
          | obj k => exact Or.inr ⟨k, rfl, hb.1, hb.2.2, by have := hb.2.1; omega⟩
          | link m => exact absurd hb (by simp [PBase]))
        have hun := hp.list s rfl hlist
        have hin := hP.last id hid
        have key : ∀ i : Fin 50, (builtinName (i.1 : Int)).space = schemaNS → (builtinName (i.1 : Int)).loc ∉ unlisted →
            listCodec (i.1 : Int) ≠ none ∧ listCodec (i.1 : Int) ≠ some .bools := by decide +kernel
        obtain ⟨i, hi⟩ := Int.eq_ofNat_of_zero_le hin.1
        rw [hi] at hun hin
        have key := fun hx => key ⟨i, by exact_mod_cast hin.2.1⟩ hin.2.2 (hun hx)
        unfold genSimpleListSpec
        simp only [hbs, he, Run.bind, hlast, hi]
        cases hcd : listCodec (i : Int) with
        | none => exact Or.inr ⟨rfl, fun hx => (key hx).1 hcd⟩
        | some c => cases c <;> first | exact Or.inl ⟨_, rfl⟩ | exact Or.inr ⟨rfl, fun hx => (key hx).2 hcd⟩
      · left
        split
        · exact ⟨_, rfl⟩
        · simp only [hbs, he, Run.bind]
          split
          · rename_i hn
            cases b with
            | builtin b =>
              have := hc b hn
              simp only [xmlName]
              cases hg : cfg.helperTypes.get (builtinName b) with
              | none => exact absurd hg this
              | some h => exact ⟨_, rfl⟩
            | obj i => cases hn
            | link m => cases hn
          · exact ⟨_, rfl⟩

theorem genList_ready (env : Env) {cfg : Config} (hc : Equipped cfg) {P : GenPlan} {n : Nat} (hP : P.Fine n) : ∀ (ts : List Ty) (H : THeap), Planned P H →
    (∀ t ∈ ts, PTy P t) → ∃ G l f, genList env cfg n H ts = .ok (G, l, f) ∧ (P.listed → f = false) ∧ Planned P G := by
  intro ts
  induction ts with
  | nil => exact fun H h _ => ⟨H, [], false, rfl, fun _ => rfl, h⟩
  | cons t ts ih =>
    intro H h ht
    rcases genTypeSpec_ready env hc hP h (ht t (by simp)) with ⟨G, l, h1, h2⟩ | ⟨h1, h2⟩
    · obtain ⟨K, l2, f, h3, hf, h4⟩ := ih G h2 (fun x hx => ht x (List.mem_cons_of_mem _ hx))
      exact ⟨K, l ++ l2, f, by simp only [genList, h1, h3, Run.bind], hf, h4⟩
    · obtain ⟨K, l2, f, h3, -, h4⟩ := ih H h (fun x hx => ht x (List.mem_cons_of_mem _ hx))
      exact ⟨K, l2, true, by simp only [genList, h1, h3, Run.bind], fun hx => absurd hx h2, h4⟩

theorem genSchemas_ready (env : Env) {cfg : Config} (hc : Equipped cfg) {P : GenPlan} {n : Nat} (hP : P.Fine (n + 1)) : ∀ (tss : List (List Ty)) (H : THeap),
    Planned P H → (∀ ts ∈ tss, ∀ t ∈ ts, PTy P t) → ∃ G l f, genSchemas env cfg (n + 1) H tss = .ok (G, l, f) ∧ (P.listed → f = false) ∧ Planned P G := by
  intro tss
  induction tss with
  | nil => exact fun H h _ => ⟨H, [], false, rfl, fun _ => rfl, h⟩
  | cons ts tss ih =>
    intro H h ht
    obtain ⟨H1, ts1, e1, r1, t1, n1⟩ := flatten_ready hP cfg h (ht ts (by simp))
    obtain ⟨H2, e2, r2⟩ := expand_ready hP r1 t1 n1
    obtain ⟨H3, l3, f3, e3, k3, r3⟩ := genList_ready env hc hP ts1 H2 r2 t1
    obtain ⟨H4, l4, f4, e4, k4, r4⟩ := ih H3 r3 (fun x hx => ht x (List.mem_cons_of_mem _ hx))
    exact ⟨H4, l3 ++ l4, f3 || f4, by simp only [genSchemas, e1, Run.bind, e2, e3, e4], fun hx => by rw [k3 hx, k4 hx]; rfl, r4⟩

/-! ### A plan for coherent types -/

theorem Ancestor.det {H : THeap} {t : Ty} {a : Ty} (h : Ancestor H t a) : ∀ {b b' : Builtin}, a = .builtin b → Ancestor H t (.builtin b') → b = b' := by
  induction h with
  | self t =>
    intro b b' e h'
    subst e
    cases h' with
    | self => rfl
    | base hb _ => cases hb
  | base hb _ ih =>
    intro b b' e h'
    cases h' with
    | self => cases hb
    | base hb' h' =>
      rw [hb] at hb'
      cases hb'
      exact ih e h'

/-- The names of the elements of a complex type. -/
def elemNames (H : THeap) (i : Nat) : List XName :=
  match H[i]? with
  | some (.complex c) => c.elements.map (·.name)
  | _ => []

open Classical in
theorem Coherent.plan {H : THeap} (h : Coherent H) : ∃ P : GenPlan, P.Fine (H.length + 3) ∧ Planned P H ∧
    (∀ t, Present H t → PTy P t) ∧ (∀ i, P.elems i = elemNames H i) ∧ P.listed = Listed H := by
  let anc : Nat → Finset Nat := fun i => (Finset.range H.length).filter fun j => Ancestor H (.obj i) (.obj j)
  have hrank : ∀ i j, i < H.length → baseOf H (.obj i) = some (.obj j) → (anc j).card < (anc i).card := by
    intro i j hi hb
    apply Finset.card_lt_card
    refine ⟨?_, ?_⟩
    · intro x hx
      simp only [anc, Finset.mem_filter] at hx ⊢
      exact ⟨hx.1, .base hb hx.2⟩
    · intro hs
      have : i ∈ anc j := hs (by simp only [anc, Finset.mem_filter, Finset.mem_range]; exact ⟨hi, .self _⟩)
      simp only [anc, Finset.mem_filter] at this
      exact h.founded i _ hb this.2
  have hlast : ∀ (k i : Nat), (anc i).card < k → i < H.length → ∃ b, Ancestor H (.obj i) (.builtin b) ∧ InSchema b := by
    intro k
    induction k with
    | zero => intro i hk; omega
    | succ k ih =>
      intro i hk hi
      obtain ⟨t, ht, hp⟩ := h.based i _ (List.getElem?_eq_getElem hi)
      have hb : baseOf H (.obj i) = some t := by simp only [baseOf, List.getElem?_eq_getElem hi]; exact ht
      rcases hp with ⟨b, rfl, hin⟩ | ⟨j, rfl, hj⟩
      · exact ⟨b, .base hb (.self _), hin⟩
      · obtain ⟨b, h1, h2⟩ := ih j (by have := hrank i j hi hb; omega) hj
        exact ⟨b, .base hb h1, h2⟩
  have hlast' : ∀ i, ∃ b, i < H.length → Ancestor H (.obj i) (.builtin b) ∧ InSchema b := by
    intro i
    by_cases hi : i < H.length
    · obtain ⟨b, hb⟩ := hlast _ i (Nat.lt_succ_self _) hi
      exact ⟨b, fun _ => hb⟩
    · exact ⟨0, fun h => absurd h hi⟩
  choose last hlast using hlast'
  have hty : ∀ t, Present H t → PTy ⟨H.length, fun i => (anc i).card, last, fun i => xmlName H (.obj i), elemNames H, Listed H⟩ t := by
    rintro t (⟨b, rfl, hb⟩ | ⟨j, rfl, hj⟩)
    · exact hb
    · exact hj
  refine ⟨⟨H.length, fun i => (anc i).card, last, fun i => xmlName H (.obj i), elemNames H, Listed H⟩, ⟨fun i hi => (hlast i hi).2, ?_, ?_, ?_⟩, ⟨rfl, ?_⟩, hty, fun _ => rfl, rfl⟩
  · intro i _
    have : (anc i).card ≤ (Finset.range H.length).card := Finset.card_le_card (Finset.filter_subset _ _)
    rw [Finset.card_range] at this
    show (anc i).card + 3 ≤ _
    omega
  · intro i j hi hj he
    simp only [xmlName, List.getElem?_eq_getElem hi, List.getElem?_eq_getElem hj] at he
    exact h.named i j _ _ (List.getElem?_eq_getElem hi) (List.getElem?_eq_getElem hj) he
  · intro i hi b
    simp only [xmlName, List.getElem?_eq_getElem hi]
    exact h.own i _ (List.getElem?_eq_getElem hi) b
  · intro i o ho
    have hi : i < H.length := (List.getElem?_eq_some_iff.mp ho).1
    refine ⟨by simp only [xmlName, ho], ?_, ?_, ?_, ?_⟩
    · obtain ⟨t, ht, hp⟩ := h.based i o ho
      have hb : baseOf H (.obj i) = some t := by simp only [baseOf, ho]; exact ht
      rw [ht]
      rcases hp with ⟨b, rfl, hin⟩ | ⟨j, rfl, hj⟩
      · exact Ancestor.det (.base hb (.self _)) rfl (hlast i hi).1
      · refine ⟨hj, hrank i j hi hb, ?_⟩
        exact Ancestor.det (.base hb (hlast j hj).1) rfl (hlast i hi).1
    · rintro c rfl
      obtain ⟨h1, h2⟩ := h.fields i c ho
      exact ⟨fun e he => hty _ (h1 e he), fun a ha => hty _ (h2 a ha)⟩
    · rintro s rfl hs hl
      exact hl i s _ ho hs (hlast i hi).1
    · intro n hn
      simp only [elemNames, ho] at hn
      cases o with
      | complex c => exact ⟨c, rfl, hn⟩
      | simple s => cases hn

theorem GenPlan.Fine.mono {P : GenPlan} {m n : Nat} (h : P.Fine m) (hmn : m ≤ n) : P.Fine n :=
  ⟨h.last, fun i hi => Nat.le_trans (h.rank i hi) hmn, h.inj, h.own⟩

/-- Code or an error, and code if there is code for all lists. -/
theorem gen_ends (env : Env) (srt : Sorter strLt) {cfg : Config} (hc : Equipped cfg) {H : THeap} (h : Coherent H)
    {n : Nat} (hn : H.length + 3 ≤ n) (primaries deps : List Schema) (hpre : Untouched cfg H primaries)
    (ht : ∀ s ∈ primaries, ∀ e ∈ s.types, Present H e.2) : (∃ r P, gen env srt cfg n primaries deps H = .ok r ∧
      r.2.1.types = allTypes (primaries ++ deps) ∧ P.Fine n ∧ Planned P r.1 ∧ (∀ t, Present H t → PTy P t) ∧ ∀ i, P.elems i = elemNames H i) ∨
      gen env srt cfg n primaries deps H = .error ∧ ¬ Listed H := by
  obtain ⟨P, hP, hr, hty, hel, hli⟩ := h.plan
  obtain ⟨n, rfl⟩ : ∃ m, n = m + 1 := ⟨n - 1, by omega⟩
  obtain ⟨G, l, f, e, hf, hG⟩ := genSchemas_ready env hc (hP.mono hn) (primaries.map fun s => s.types.map (·.2)) H hr (by
    intro ts hts t htm
    obtain ⟨s, hs, rfl⟩ := List.mem_map.mp hts
    obtain ⟨x, hx, rfl⟩ := List.mem_map.mp htm
    exact hty _ (ht s hs x hx))
  rw [hli] at hf
  unfold gen
  cases hx : cfg.preprocessType with
  | none =>
    simp only [e, Run.bind]
    cases f with
    | false => exact Or.inl ⟨_, P, rfl, rfl, hP.mono hn, hG, hty, hel⟩
    | true => exact Or.inr ⟨rfl, fun hl => (nomatch hf hl)⟩
  | some pre =>
    simp only [preprocessAll_untouched primaries fun s hs e he => hpre pre hx s hs e he (allTypes (primaries ++ deps)), e, Run.bind]
    cases f with
    | false => exact Or.inl ⟨_, P, rfl, rfl, hP.mono hn, hG, hty, hel⟩
    | true => exact Or.inr ⟨rfl, fun hl => (nomatch hf hl)⟩

theorem gen_succeeds (env : Env) (srt : Sorter strLt) {cfg : Config} (hc : Equipped cfg) {H : THeap} (h : Coherent H)
    (hl : Listed H) {n : Nat} (hn : H.length + 3 ≤ n) (primaries deps : List Schema) (hpre : Untouched cfg H primaries)
    (ht : ∀ s ∈ primaries, ∀ e ∈ s.types, Present H e.2) : ∃ r P, gen env srt cfg n primaries deps H = .ok r ∧
      r.2.1.types = allTypes (primaries ++ deps) ∧ P.Fine n ∧ Planned P r.1 ∧ (∀ t, Present H t → PTy P t) ∧ ∀ i, P.elems i = elemNames H i := by
  rcases gen_ends env srt hc h hn primaries deps hpre ht with h | ⟨-, h⟩
  · exact h
  · exact absurd hl h

/-- Schemas are found for namespaces that there are schemas of. -/
theorem selectSchemas_found {ns : List Str} {ss : List Schema} (hd : ns.Nodup) (hf : ∀ x ∈ ns, ∃ s ∈ ss, s.targetNS = x) :
    ∃ l, selectSchemas ns ss = .ok l ∧ ∀ s ∈ l, s ∈ ss := by
  have hlen : ¬ (ss.filter fun s => ns.any fun x => decide (s.targetNS = x)).length < ns.length := by
    have hsub : ns ⊆ (ss.filter fun s => ns.any fun x => decide (s.targetNS = x)).map (·.targetNS) := by
      intro x hx
      obtain ⟨s, hs, rfl⟩ := hf x hx
      exact List.mem_map.mpr ⟨s, List.mem_filter.mpr ⟨hs, List.any_eq_true.mpr ⟨_, hx, by simp⟩⟩, rfl⟩
    have := (hd.subperm hsub).length_le
    rw [List.length_map] at this
    omega
  refine ⟨ss.filter fun s => ns.any fun x => decide (s.targetNS = x), ?_, fun s hs => (List.mem_filter.mp hs).1⟩
  unfold selectSchemas
  rw [if_neg hlen]

theorem wanted_config (cfg : Config) (docs : List Doc) :
    (if cfg.namespaces = [] then { cfg with namespaces := lookupTargetNS docs } else cfg) = { cfg with namespaces := wanted cfg docs } := by
  unfold wanted
  split
  · rfl
  · rfl

/-- `GenCode` ends. -/
theorem genCode_ends (env : Env) (srt : Sorter strLt) {n : Nat} {parse : List Doc → Outcome (List Schema × THeap)} {cfg : Config} {docs : List Doc}
    {ss : List Schema} {H : THeap} (hp : parse docs = .ok (ss, H)) (h : Coherent H) (hn : H.length + 3 ≤ n)
    (ht : ∀ s ∈ ss, ∀ e ∈ s.types, Present H e.2) (hpre : Untouched cfg H ss) :
    (∃ cfg' r, genCode env srt n parse cfg docs = (cfg', .done (.ok r))) ∨
    (∃ cfg' ns, genCode env srt n parse cfg docs = (cfg', .missing ns) ∧ selectSchemas (wanted cfg docs) ss = .error ns) ∨
    ∃ cfg', genCode env srt n parse cfg docs = (cfg', .done .error) ∧ ¬ Listed H := by
  unfold genCode
  simp only [wanted_config, hp]
  cases e : selectSchemas (wanted cfg docs) ss with
  | error ns => exact Or.inr (Or.inl ⟨_, ns, rfl, rfl⟩)
  | ok l =>
    have hm : ∀ s ∈ l, s ∈ ss := by
      unfold selectSchemas at e
      dsimp only at e
      split at e
      · cases e
      · cases e
        exact fun s hs => (List.mem_filter.mp hs).1
    dsimp only
    rcases gen_ends env srt (equipped_standard { cfg with namespaces := wanted cfg docs }) h hn l ss
      (fun pre hx s hs => hpre pre hx s (hm s hs)) (fun s hs => ht s (hm s hs)) with ⟨r, P, hr, -⟩ | ⟨hr, hl⟩
    · rw [hr]
      exact Or.inl ⟨_, _, rfl⟩
    · rw [hr]
      exact Or.inr (Or.inr ⟨_, rfl, hl⟩)

/-- `GenCode` succeeds. -/
theorem genCode_succeeds (env : Env) (srt : Sorter strLt) {n : Nat} {parse : List Doc → Outcome (List Schema × THeap)} {cfg : Config} {docs : List Doc}
    {ss : List Schema} {H : THeap} (hp : parse docs = .ok (ss, H)) (h : Coherent H) (hl : Listed H) (hn : H.length + 3 ≤ n)
    (ht : ∀ s ∈ ss, ∀ e ∈ s.types, Present H e.2) (hpre : Untouched cfg H ss) (hd : (wanted cfg docs).Nodup)
    (hf : ∀ x ∈ wanted cfg docs, ∃ s ∈ ss, s.targetNS = x) :
    ∃ cfg' r l P, genCode env srt n parse cfg docs = (cfg', .done (.ok r)) ∧ (∀ s ∈ l, s ∈ ss) ∧ r.2.types = allTypes (l ++ ss) ∧ P.Fine n ∧
      Planned P r.1 ∧ (∀ t, Present H t → PTy P t) ∧ ∀ i, P.elems i = elemNames H i := by
  obtain ⟨l, e, hm⟩ := selectSchemas_found hd hf
  have hw : (if cfg.namespaces = [] then { cfg with namespaces := lookupTargetNS docs } else cfg) = { cfg with namespaces := wanted cfg docs } := by
    unfold wanted
    split
    · rfl
    · rfl
  obtain ⟨r, P, hr, h1, h2, h3, h4, h5⟩ := gen_succeeds env srt (equipped_standard { cfg with namespaces := wanted cfg docs }) h hl hn l ss
    (fun pre hx s hs => hpre pre hx s (hm s hs)) (fun s hs => ht s (hm s hs))
  unfold genCode
  simp only [hw, hp, e, hr]
  exact ⟨_, _, l, P, rfl, hm, h1, h2, h3, h4, h5⟩

end GoXml.Xsdgen
