import Verif.Proofs.XsdgenDeclared
set_option autoImplicit false

/-! What `flatten1` passes on has local conditions, for types that may use themselves. -/

namespace GoXml.Xsdgen
open Xsd

/-! ### The places of a complex type where a type stands -/

def setSlot (H : THeap) (a : Nat) (t : Ty) : Place → THeap
  | .elem i => setElemType H a i t
  | .attr i => setAttrType H a i t
  | .base => setComplexBase H a t

theorem slotTy_congr {H K : THeap} {a : Nat} (h : K[a]? = H[a]?) (σ : Place) : slotTy K a σ = slotTy H a σ := by
  cases σ <;> simp only [slotTy, elemType, attrType, baseOf, h]

theorem setSlot_off (H : THeap) (a : Nat) (t : Ty) (σ : Place) (j : Nat) (hj : j ≠ a) : (setSlot H a t σ)[j]? = H[j]? := by
  cases σ with
  | elem i => exact setElemType_off H a i t j hj
  | attr i => exact setAttrType_off H a i t j hj
  | base => exact setComplexBase_off H a t j hj

theorem setSlot_self {H : THeap} {a : Nat} {c : ComplexT} (hc : H[a]? = some (.complex c)) {σ : Place} {u : Ty} (hu : slotTy H a σ = some u) (t : Ty) :
    slotTy (setSlot H a t σ) a σ = some t := by
  have hlt := (List.getElem?_eq_some_iff.mp hc).1
  cases σ with
  | elem i =>
    simp only [slotTy, elemType, hc] at hu
    obtain ⟨e, he, -⟩ := Option.map_eq_some_iff.mp hu
    simp [slotTy, setSlot, elemType, setElemType, hc, List.getElem?_set_self hlt, List.getElem?_modify, he]
  | attr i =>
    simp only [slotTy, attrType, hc] at hu
    obtain ⟨e, he, -⟩ := Option.map_eq_some_iff.mp hu
    simp [slotTy, setSlot, attrType, setAttrType, hc, List.getElem?_set_self hlt, List.getElem?_modify, he]
  | base => simp [slotTy, setSlot, setComplexBase, hc, baseOf, List.getElem?_set_self hlt, TObj.base]

theorem setSlot_ne {H : THeap} {a : Nat} {c : ComplexT} (hc : H[a]? = some (.complex c)) {σ τ : Place} (hne : σ ≠ τ) (t : Ty) :
    slotTy (setSlot H a t σ) a τ = slotTy H a τ := by
  have hlt := (List.getElem?_eq_some_iff.mp hc).1
  cases σ <;> cases τ <;>
    simp_all [slotTy, setSlot, elemType, setElemType, attrType, setAttrType, setComplexBase, baseOf, List.getElem?_set_self hlt,
      List.getElem?_modify, TObj.base]

theorem slot_elem {H : THeap} {a : Nat} {c : ComplexT} (hc : H[a]? = some (.complex c)) {e : XElem} (he : e ∈ c.elements) :
    ∃ i, slotTy H a (.elem i) = some e.type := by
  obtain ⟨i, hi⟩ := List.mem_iff_getElem?.mp he
  exact ⟨i, by simp [slotTy, elemType, hc, hi]⟩

theorem slot_attr {H : THeap} {a : Nat} {c : ComplexT} (hc : H[a]? = some (.complex c)) {e : XAttr} (he : e ∈ c.attributes) :
    ∃ i, slotTy H a (.attr i) = some e.type := by
  obtain ⟨i, hi⟩ := List.mem_iff_getElem?.mp he
  exact ⟨i, by simp [slotTy, attrType, hc, hi]⟩

theorem slot_linked {H : THeap} (hl : Linked H) {a : Nat} {c : ComplexT} (hc : H[a]? = some (.complex c)) {σ : Place} {t : Ty}
    (h : slotTy H a σ = some t) : NotLink t := by
  obtain ⟨h1, h2, h3⟩ := hl a c hc
  cases σ with
  | elem i =>
    simp only [slotTy, elemType, hc] at h
    obtain ⟨e, he, rfl⟩ := Option.map_eq_some_iff.mp h
    exact h1 e (List.mem_of_getElem? he)
  | attr i =>
    simp only [slotTy, attrType, hc] at h
    obtain ⟨e, he, rfl⟩ := Option.map_eq_some_iff.mp h
    exact h2 e (List.mem_of_getElem? he)
  | base =>
    simp only [slotTy, baseOf, hc, TObj.base] at h
    exact h3 t h

abbrev Any : Nat → Prop := fun _ => True

theorem cov_any {t : Ty} (h : NotLink t) : Cov Any t := by
  cases t with
  | link _ => cases h
  | _ => trivial

theorem Flow.setSlot {H G : THeap} (h : Flow H G Any) (a : Nat) (t : Ty) (σ : Place) (hn : NotLink t)
    (ha : t = .builtin AnyType ∨ ∃ b, slotTy H a σ = some b ∧ Ancestor H b t) : Flow H (setSlot G a t σ) Any := by
  have ho : ∀ j, t = .obj j → ∃ y, slotTy H a σ = some (.obj y) ∧ Ancestor H (.obj y) (.obj j) := fun j hj => ResOk.obj ha j hj
  cases σ with
  | elem i => exact h.setElem a i t (cov_any hn) ho
  | attr i => exact h.setAttr a i t (cov_any hn) ho
  | base => exact h.setBase a t hn (fun _ _ _ => cov_any hn) ha

/-! ### Leaves -/

/-- A simple type derived from a built-in type, or a complex type with nothing but such a base. -/
def LeafOk (H : THeap) (s : Nat) : Prop := ∃ o, H[s]? = some o ∧ match o with
  | .simple t => Plain t.base
  | .complex c => c.elements = [] ∧ c.attributes = [] ∧ ∃ b, c.base = some (.builtin b)

theorem LeafOk.congr {H K : THeap} {s : Nat} (h : LeafOk H s) (he : K[s]? = H[s]?) : LeafOk K s := by
  obtain ⟨o, ho, h⟩ := h
  exact ⟨o, he.trans ho, h⟩

theorem Flow.bare {H K : THeap} {Q : Nat → Prop} (h : Flow H K Q) {s : Nat} {c : ComplexT} (hc : H[s]? = some (.complex c))
    (hb : c.elements = [] ∧ c.attributes = [] ∧ ∃ b, c.base = some (.builtin b)) :
    ∃ c', K[s]? = some (.complex c') ∧ c'.elements = [] ∧ c'.attributes = [] ∧ ∃ b, c'.base = some (.builtin b) := by
  obtain ⟨h1, h2, b, h3⟩ := hb
  obtain ⟨o', ho', ch⟩ := h.get hc
  cases o' with
  | simple _ => cases ch
  | complex c' =>
    refine ⟨c', ho', ?_⟩
    obtain ⟨-, -, t1, t2, -, t3⟩ := ch
    refine ⟨?_, ?_, ?_⟩
    · have := t1.len; simpa [h1] using this
    · have := t2.len; simpa [h2] using this
    · rcases t3 with t3 | ⟨t, t3, -⟩
      · exact ⟨b, t3.trans h3⟩
      · rcases h.bases s t (by simp only [baseOf, ho', TObj.base]; exact t3) with rfl | ⟨x, hx, hanc⟩
        · exact ⟨_, t3⟩
        · simp only [baseOf, hc, TObj.base, h3] at hx
          cases hx
          exact ⟨b, by rw [t3, builtin_ancestor hanc]⟩

theorem Flow.leafOk {H K : THeap} {Q : Nat → Prop} (h : Flow H K Q) {s : Nat} (hs : LeafOk H s) : LeafOk K s := by
  obtain ⟨o, ho, hl⟩ := hs
  cases o with
  | simple t =>
    obtain ⟨o', ho', ch⟩ := h.get ho
    cases o' with
    | complex _ => cases ch
    | simple t' =>
      refine ⟨_, ho', ?_⟩
      rcases ch.2.1 with e | e
      · simp only; rw [e]; exact hl
      · exact e
  | complex c =>
    obtain ⟨c', hc', h1⟩ := h.bare ho hl
    exact ⟨_, hc', h1⟩

/-! ### How types change -/

/-- The other types are complex types that are never replaced. -/
structure Shape (cfg : Config) (inner : Nat → Prop) (H : THeap) : Prop where
  linked : Linked H
  solid : ∀ a, inner a → ∃ c, H[a]? = some (.complex c) ∧ (HasContent cfg (.complex c) ∨ ∃ bid, c.base = some (.obj bid) ∧ inner bid)
  leaf : ∀ (a : Nat) o, ¬ inner a → H[a]? = some o → (∃ s, o = .simple s) ∨
    ∃ c, o = .complex c ∧ c.elements = [] ∧ c.attributes = [] ∧ ∃ b, c.base = some (.builtin b)

structure Ev (inner : Nat → Prop) (H K : THeap) : Prop where
  flow : Flow H K Any
  slots : ∀ a σ, inner a → slotTy K a σ = slotTy H a σ ∨
    ∃ s b, slotTy H a σ = some (.obj s) ∧ ¬ inner s ∧ slotTy K a σ = some (.builtin b) ∧ LeafOk K s

theorem Ev.refl (inner : Nat → Prop) (H : THeap) : Ev inner H H := ⟨.refl .., fun _ _ _ => Or.inl rfl⟩

theorem Ev.trans {inner : Nat → Prop} {H G K : THeap} (h1 : Ev inner H G) (h2 : Ev inner G K) : Ev inner H K := by
  refine ⟨h1.flow.trans (fun _ _ => trivial) (fun _ _ => trivial) h2.flow, fun a σ ha => ?_⟩
  rcases h2.slots a σ ha with e2 | ⟨s, b, p1, p2, p3, p4⟩
  · rcases h1.slots a σ ha with e1 | ⟨s, b, p1, p2, p3, p4⟩
    · exact Or.inl (e2.trans e1)
    · exact Or.inr ⟨s, b, p1, p2, e2.trans p3, h2.flow.leafOk p4⟩
  · rcases h1.slots a σ ha with e1 | ⟨s', b', q1, q2, q3, q4⟩
    · exact Or.inr ⟨s, b, by rw [← e1]; exact p1, p2, p3, p4⟩
    · rw [q3] at p1; cases p1

/-- A type that stands there afterwards stood there before, unless it is built in. -/
theorem Ev.back {inner : Nat → Prop} {H K : THeap} (h : Ev inner H K) {a : Nat} {σ : Place} {j : Nat} (ha : inner a)
    (hj : slotTy K a σ = some (.obj j)) : slotTy H a σ = some (.obj j) := by
  rcases h.slots a σ ha with e | ⟨s, b, p1, p2, p3, p4⟩
  · rw [← e]; exact hj
  · rw [p3] at hj; cases hj

theorem Ev.forth {inner : Nat → Prop} {H K : THeap} (h : Ev inner H K) {a : Nat} {σ : Place} {j : Nat} (ha : inner a)
    (hj : slotTy H a σ = some (.obj j)) : slotTy K a σ = some (.obj j) ∨ (¬ inner j ∧ LeafOk K j ∧ ∃ b, slotTy K a σ = some (.builtin b)) := by
  rcases h.slots a σ ha with e | ⟨s, b, p1, p2, p3, p4⟩
  · rw [e]; exact Or.inl hj
  · rw [p1] at hj; cases hj; exact Or.inr ⟨p2, p4, b, p3⟩

theorem Ev.shape {cfg : Config} {inner : Nat → Prop} {H K : THeap} (h : Ev inner H K) (hs : Shape cfg inner H) : Shape cfg inner K := by
  refine ⟨h.flow.linked hs.linked, ?_, ?_⟩
  · intro a ha
    obtain ⟨c, hc, hsol⟩ := hs.solid a ha
    obtain ⟨o', ho', ch⟩ := h.flow.get hc
    cases o' with
    | simple _ => cases ch
    | complex c' =>
      refine ⟨c', ho', ?_⟩
      rcases hsol with hcon | ⟨bid, hb, hi⟩
      · obtain ⟨o2, ho2, h2, -⟩ := h.flow.content hc hcon
        rw [ho'] at ho2
        cases ho2
        exact Or.inl h2
      · refine Or.inr ⟨bid, ?_, hi⟩
        have hb' : slotTy H a .base = some (.obj bid) := by simp only [slotTy, baseOf, hc, TObj.base]; exact hb
        rcases h.forth ha hb' with e | ⟨e, -⟩
        · simpa only [slotTy, baseOf, ho', TObj.base] using e
        · exact absurd hi e
  · intro a o' ha ho'
    obtain ⟨o, ho, ch⟩ := h.flow.change a o' ho'
    rcases hs.leaf a o ha ho with ⟨s, rfl⟩ | ⟨c, rfl, hb⟩
    · cases o' with
      | complex _ => cases ch
      | simple s' => exact Or.inl ⟨s', rfl⟩
    · obtain ⟨c', hc', hb'⟩ := h.flow.bare ho hb
      rw [ho'] at hc'
      cases hc'
      exact Or.inr ⟨c', rfl, hb'⟩

/-! ### Steps -/

def SlotEdge (inner : Nat → Prop) (H : THeap) (a b : Nat) : Prop := inner a ∧ inner b ∧ ∃ σ, slotTy H a σ = some (.obj b)

inductive Walk (inner : Nat → Prop) (H : THeap) : Nat → Nat → Nat → Prop
  | zero (a : Nat) : Walk inner H 0 a a
  | succ {k a b c : Nat} : SlotEdge inner H a b → Walk inner H k b c → Walk inner H (k + 1) a c

theorem Walk.mono {inner : Nat → Prop} {H K : THeap} (h : ∀ a b, SlotEdge inner H a b → SlotEdge inner K a b) {k a b : Nat}
    (hw : Walk inner H k a b) : Walk inner K k a b := by
  induction hw with
  | zero a => exact .zero a
  | succ he _ ih => exact .succ (h _ _ he) ih

theorem Walk.snoc {inner : Nat → Prop} {H : THeap} {k a b c : Nat} (hw : Walk inner H k a b) (he : SlotEdge inner H b c) : Walk inner H (k + 1) a c := by
  induction hw with
  | zero a => exact .succ he (.zero _)
  | succ h _ ih => exact .succ h (ih he)

theorem Walk.inner {inner : Nat → Prop} {H : THeap} {k a b : Nat} (hw : Walk inner H k a b) (ha : inner a) : inner b := by
  induction hw with
  | zero a => exact ha
  | succ h _ ih => exact ih h.2.1

theorem Ev.edge {inner : Nat → Prop} {H K : THeap} (h : Ev inner H K) (a b : Nat) : SlotEdge inner K a b ↔ SlotEdge inner H a b := by
  constructor
  · rintro ⟨h1, h2, σ, h3⟩
    exact ⟨h1, h2, σ, h.back h1 h3⟩
  · rintro ⟨h1, h2, σ, h3⟩
    rcases h.forth h1 h3 with e | ⟨e, -⟩
    · exact ⟨h1, h2, σ, e⟩
    · exact absurd h2 e

theorem Ev.walk {inner : Nat → Prop} {H K : THeap} (h : Ev inner H K) {k a b : Nat} : Walk inner K k a b ↔ Walk inner H k a b :=
  ⟨.mono fun a b => (h.edge a b).mp, .mono fun a b => (h.edge a b).mpr⟩

/-! ### What has been done -/

def Done (inner : Nat → Prop) (K : THeap) (P : Nat → Prop) (x : Nat) : Prop :=
  ∀ σ j, slotTy K x σ = some (.obj j) → (¬ inner j → LeafOk K j) ∧ ((σ ≠ .base ∨ ∃ c, K[x]? = some (.complex c) ∧ c.mixed = true) → P j)

theorem Done.ev {inner : Nat → Prop} {H K : THeap} {P Q : Nat → Prop} {x : Nat} (hd : Done inner H P x) (hx : inner x) (h : Ev inner H K)
    (hP : ∀ j, P j → Q j) : Done inner K Q x := by
  intro σ j hj
  obtain ⟨d1, d2⟩ := hd σ j (h.back hx hj)
  refine ⟨fun hi => h.flow.leafOk (d1 hi), fun hm => hP j (d2 ?_)⟩
  rcases hm with hm | ⟨c, hc, hm⟩
  · exact Or.inl hm
  · obtain ⟨o, ho, ch⟩ := h.flow.change x _ hc
    cases o with
    | simple _ => cases ch
    | complex c0 => exact Or.inr ⟨c0, ho, by rw [← ch.2.1]; exact hm⟩

/-- What is known of a type that is passed on by a call for the given type. -/
def Came (inner : Nat → Prop) (K : THeap) (a j : Nat) : Prop :=
  (inner j → inner a ∧ ∃ k, Walk inner K k a j) ∧
  (¬ inner j → LeafOk K j ∨ ∃ k x σ, inner a ∧ Walk inner K k a x ∧ slotTy K x σ = some (.obj j))

theorem Came.ev {inner : Nat → Prop} {H K : THeap} {a j : Nat} (hk : Came inner H a j) (h : Ev inner H K) : Came inner K a j := by
  refine ⟨fun hj => ?_, fun hj => ?_⟩
  · obtain ⟨h1, k, h2⟩ := hk.1 hj
    exact ⟨h1, k, h.walk.mpr h2⟩
  · rcases hk.2 hj with h1 | ⟨k, x, σ, h1, h2, h3⟩
    · exact Or.inl (h.flow.leafOk h1)
    · rcases h.forth (h2.inner h1) h3 with e | ⟨-, e, -⟩
      · exact Or.inr ⟨k, x, σ, h1, h.walk.mpr h2, e⟩
      · exact Or.inl e

theorem Came.step {inner : Nat → Prop} {K : THeap} {a b j : Nat} (hk : Came inner K b j) (he : inner b → SlotEdge inner K a b) : Came inner K a j := by
  refine ⟨fun hj => ?_, fun hj => ?_⟩
  · obtain ⟨h1, k, h2⟩ := hk.1 hj
    exact ⟨(he h1).1, k + 1, .succ (he h1) h2⟩
  · rcases hk.2 hj with h1 | ⟨k, x, σ, h1, h2, h3⟩
    · exact Or.inl h1
    · exact Or.inr ⟨k + 1, x, σ, (he h1).1, .succ (he h1) h2, h3⟩

/-- What a call for a type does, if it may go as deep as the number says. -/
structure DeepAt (inner : Nat → Prop) (d : Nat) (H : THeap) (id : Nat) (r : Flat) : Prop where
  ev : Ev inner H r.1
  solid : inner id → r.2.2 = some (.obj id) ∧ ∀ k x, Walk inner H k id x → k + 1 < d → Done inner r.1 (Pushed r.2.1) x
  leaf : ¬ inner id → (0 < d → LeafOk r.1 id) ∧ ∀ t, r.2.2 = some t → t = .obj id ∨ ((∃ b, t = .builtin b) ∧ LeafOk r.1 id)
  pushed : ∀ j, Ty.obj j ∈ r.2.1 → Came inner r.1 id j

structure Deep (cfg : Config) (inner : Nat → Prop) (d : Nat) (recur : THeap → Option Ty → Run Flat) : Prop where
  flows : Flows recur
  builtin : ∀ H b, recur H (some (.builtin b)) = .ok (H, [], some (.builtin b))
  nil : ∀ H r, recur H none = .ok r → r.2.2 = none
  obj : ∀ H id r, Shape cfg inner H → recur H (some (.obj id)) = .ok r → DeepAt inner d H id r

/-- One place of a type. -/
structure SlotAt (inner : Nat → Prop) (d : Nat) (H : THeap) (id : Nat) (σ : Place) (K : THeap) (pushed : List Ty) (t' : Ty) : Prop where
  ev : Ev inner H K
  here : slotTy K id σ = some t'
  obj : ∀ y, slotTy H id σ = some (.obj y) →
    (inner y → t' = .obj y ∧ ∀ k x, Walk inner H k y x → k + 1 < d → Done inner K (Pushed pushed) x) ∧ (¬ inner y → 0 < d → LeafOk K y)
  pushed : ∀ j, Ty.obj j ∈ pushed ∨ t' = .obj j → Came inner K id j

theorem Ev.put {inner : Nat → Prop} {H G : THeap} (h : Ev inner H G) {id : Nat} {c : ComplexT} (hid : inner id) (hc : H[id]? = some (.complex c)) {σ : Place} {t t' : Ty}
    (ht : slotTy H id σ = some t) (hf : Flow H (setSlot G id t' σ) Any)
    (h' : t' = t ∨ ∃ s b, t = .obj s ∧ ¬ inner s ∧ t' = .builtin b ∧ LeafOk G s) :
    Ev inner H (setSlot G id t' σ) ∧ slotTy (setSlot G id t' σ) id σ = some t' := by
  obtain ⟨o, hG, ch⟩ := h.flow.get hc
  cases o with
  | simple _ => cases ch
  | complex g =>
    have hsome : ∃ u, slotTy G id σ = some u := by
      rcases h.slots id σ hid with e | ⟨_, b, _, _, p, _⟩
      · exact ⟨t, e.trans ht⟩
      · exact ⟨_, p⟩
    obtain ⟨u, hu⟩ := hsome
    have hself := setSlot_self hG hu t'
    refine ⟨⟨hf, fun a τ ha => ?_⟩, hself⟩
    have hleaf : ∀ s, ¬ inner s → LeafOk G s → LeafOk (setSlot G id t' σ) s := by
      intro s hs hl
      exact hl.congr (setSlot_off G id t' σ s (fun e => hs (e ▸ hid)))
    by_cases e : a = id
    · subst e
      by_cases e' : σ = τ
      · subst e'
        rcases h' with rfl | ⟨s, b, rfl, p2, rfl, p4⟩
        · exact Or.inl (hself.trans ht.symm)
        · exact Or.inr ⟨s, b, ht, p2, hself, hleaf s p2 p4⟩
      · rw [setSlot_ne hG e']
        rcases h.slots a τ ha with q | ⟨s, b, p1, p2, p3, p4⟩
        · exact Or.inl q
        · exact Or.inr ⟨s, b, p1, p2, p3, hleaf s p2 p4⟩
    · rw [slotTy_congr (setSlot_off G id t' σ a e) τ]
      rcases h.slots a τ ha with q | ⟨s, b, p1, p2, p3, p4⟩
      · exact Or.inl q
      · exact Or.inr ⟨s, b, p1, p2, p3, hleaf s p2 p4⟩

theorem slot_step {cfg : Config} {inner : Nat → Prop} {d : Nat} {recur : THeap → Option Ty → Run Flat} (hrec : Deep cfg inner d recur) {H : THeap}
    (hS : Shape cfg inner H) {id : Nat} (hid : inner id) {σ : Place} {q : Flat} {t' : Ty} (h : recur H (slotTy H id σ) = .ok q) (ht' : q.2.2 = some t') :
    SlotAt inner d H id σ (setSlot q.1 id t' σ) q.2.1 t' := by
  obtain ⟨c, hc, -⟩ := hS.solid id hid
  cases hs : slotTy H id σ with
  | none =>
    rw [hs] at h
    rw [hrec.nil H q h] at ht'
    cases ht'
  | some t =>
    rw [hs] at h
    have hn := slot_linked hS.linked hc hs
    obtain ⟨f1, r1⟩ := hrec.flows H _ q hS.linked (fun v hv => by cases hv; exact hn) h
    obtain ⟨n1, a1⟩ := r1 t' ht'
    have f2 : Flow H (setSlot q.1 id t' σ) Any := Flow.setSlot (f1.mono fun _ _ => trivial) id t' σ n1 (by rw [hs]; exact a1)
    cases t with
    | link _ => cases hn
    | builtin b =>
      rw [hrec.builtin] at h
      cases h
      cases ht'
      obtain ⟨e1, e2⟩ := (Ev.refl inner H).put hid hc hs f2 (Or.inl rfl)
      exact ⟨e1, e2, fun y hy => (by rw [hs] at hy; cases hy), fun j hj => by rcases hj with hj | hj <;> cases hj⟩
    | obj y =>
      have D := hrec.obj H y q hS h
      by_cases hy : inner y
      · obtain ⟨d1, d2⟩ := D.solid hy
        have : t' = .obj y := by rw [d1] at ht'; cases ht'; rfl
        subst this
        obtain ⟨e1, e2⟩ := D.ev.put hid hc hs f2 (Or.inl rfl)
        have hq : slotTy q.1 id σ = some (.obj y) := by
          rcases D.ev.forth hid hs with e | ⟨e, -⟩
          · exact e
          · exact absurd hy e
        obtain ⟨o, hG, ch⟩ := D.ev.flow.get hc
        have hcq : ∃ g, q.1[id]? = some (.complex g) := by
          cases o with
          | simple _ => cases ch
          | complex g => exact ⟨g, hG⟩
        obtain ⟨g, hg⟩ := hcq
        have e3 : Ev inner q.1 (setSlot q.1 id (.obj y) σ) :=
          ((Ev.refl inner q.1).put hid hg hq (Flow.setSlot (.refl ..) id (.obj y) σ trivial (Or.inr ⟨_, hq, .self _⟩)) (Or.inl rfl)).1
        refine ⟨e1, e2, ?_, ?_⟩
        · intro z hz
          rw [hs] at hz
          cases hz
          exact ⟨fun _ => ⟨rfl, fun k x hw hk => (d2 k x hw hk).ev (hw.inner hy) e3 fun _ h => h⟩, fun h => absurd hy h⟩
        · intro j hj
          have edge : SlotEdge inner (setSlot q.1 id (.obj y) σ) id y := ⟨hid, hy, σ, e2⟩
          rcases hj with hj | hj
          · exact ((D.pushed j hj).ev e3).step fun _ => edge
          · cases hj
            exact ⟨fun _ => ⟨hid, 1, .succ edge (.zero _)⟩, fun h => absurd hy h⟩
      · obtain ⟨d1, d2⟩ := D.leaf hy
        have hcase : t' = .obj y ∨ ∃ s b, Ty.obj y = .obj s ∧ ¬ inner s ∧ t' = .builtin b ∧ LeafOk q.1 s := by
          rcases d2 t' ht' with e | ⟨⟨b, e⟩, e'⟩
          · exact Or.inl e
          · exact Or.inr ⟨y, b, rfl, hy, e, e'⟩
        obtain ⟨e1, e2⟩ := D.ev.put hid hc hs f2 hcase
        have hleaf : ∀ s, ¬ inner s → LeafOk q.1 s → LeafOk (setSlot q.1 id t' σ) s := by
          intro s hs hl
          exact hl.congr (setSlot_off q.1 id t' σ s (fun e => hs (e ▸ hid)))
        refine ⟨e1, e2, ?_, ?_⟩
        · intro z hz
          rw [hs] at hz
          cases hz
          exact ⟨fun h => absurd h hy, fun _ hd => hleaf _ hy (d1 hd)⟩
        · intro j hj
          rcases hj with hj | rfl
          · have k := D.pushed j hj
            refine ⟨fun h => absurd (k.1 h).1 hy, fun hj => ?_⟩
            rcases k.2 hj with h | ⟨_, _, _, h, _⟩
            · exact Or.inl (hleaf _ hj h)
            · exact absurd h hy
          · have : j = y := by
              rcases hcase with e | ⟨_, _, _, _, e, _⟩
              · cases e; rfl
              · cases e
            subst this
            exact ⟨fun h => absurd h hy, fun _ => Or.inr ⟨0, id, σ, hid, .zero _, e2⟩⟩

/-- All places of a kind. -/
structure LoopAt (inner : Nat → Prop) (d : Nat) (H : THeap) (id : Nat) (sl : Nat → Place) (is : List Nat) (r : THeap × List Ty) : Prop where
  ev : Ev inner H r.1
  obj : ∀ i ∈ is, ∀ y, slotTy H id (sl i) = some (.obj y) →
    (inner y → Ty.obj y ∈ r.2 ∧ ∀ k x, Walk inner H k y x → k + 1 < d → Done inner r.1 (Pushed r.2) x) ∧
    (¬ inner y → (0 < d → LeafOk r.1 y) ∧ (slotTy r.1 id (sl i) = some (.obj y) → Ty.obj y ∈ r.2))
  pushed : ∀ j, Ty.obj j ∈ r.2 → Came inner r.1 id j

theorem fieldLoop_deep {cfg : Config} {inner : Nat → Prop} {d : Nat} {recur : THeap → Option Ty → Run Flat} (hrec : Deep cfg inner d recur)
    {id : Nat} (hid : inner id) (sl : Nat → Place) : ∀ (is : List Nat) (H : THeap) (r : THeap × List Ty), Shape cfg inner H →
      fieldLoop recur (fun H i => slotTy H id (sl i)) (fun H i t => setSlot H id t (sl i)) is H = .ok r → LoopAt inner d H id sl is r := by
  intro is
  induction is with
  | nil =>
    intro H r hS h
    cases h
    exact ⟨.refl .., fun i hi => by (cases hi), fun j hj => by cases hj⟩
  | cons i is ih =>
    intro H r hS h
    obtain ⟨q, hq, h⟩ := bind_ok h
    cases ht : q.2.2 with
    | none => rw [ht] at h; cases h
    | some t =>
      rw [ht] at h
      obtain ⟨p, hp, h⟩ := bind_ok h
      cases h
      have S1 := slot_step hrec hS hid hq ht
      have L := ih _ _ (S1.ev.shape hS) hp
      have hsub : ∀ u, u ∈ p.2 → u ∈ q.2.1 ++ t :: p.2 := by simp; tauto
      have hsub' : ∀ u, u ∈ q.2.1 → u ∈ q.2.1 ++ t :: p.2 := by simp; tauto
      refine ⟨S1.ev.trans L.ev, ?_, ?_⟩
      · intro k hk y hy
        rcases List.mem_cons.mp hk with rfl | hk
        · obtain ⟨o1, o2⟩ := S1.obj y hy
          refine ⟨fun hi => ?_, fun hi => ?_⟩
          · obtain ⟨rfl, o1⟩ := o1 hi
            exact ⟨by simp, fun k x hw hk => (o1 k x hw hk).ev (hw.inner hi) L.ev fun j hj => hsub' _ hj⟩
          · refine ⟨fun hd => L.ev.flow.leafOk (o2 hi hd), fun hr => ?_⟩
            have := L.ev.back hid hr
            rw [S1.here] at this
            cases this
            simp
        · rcases S1.ev.forth hid hy with e | ⟨e1, e2, b, e3⟩
          · obtain ⟨o1, o2⟩ := L.obj k hk y e
            refine ⟨fun hi => ?_, fun hi => ⟨(o2 hi).1, fun hr => hsub _ ((o2 hi).2 hr)⟩⟩
            obtain ⟨o1, o3⟩ := o1 hi
            exact ⟨hsub _ o1, fun k x hw hk => (o3 k x (S1.ev.walk.mpr hw) hk).ev (hw.inner hi) (.refl ..) fun j hj => hsub _ hj⟩
          · refine ⟨fun hi => absurd hi e1, fun _ => ⟨fun _ => L.ev.flow.leafOk e2, fun hr => ?_⟩⟩
            have := L.ev.back hid hr
            rw [e3] at this
            cases this
      · intro j hj
        simp only [List.mem_append, List.mem_cons] at hj
        rcases hj with hj | hj | hj
        · exact (S1.pushed j (Or.inl hj)).ev L.ev
        · exact (S1.pushed j (Or.inr hj.symm)).ev L.ev
        · exact L.pushed j hj

theorem flattenComplex_deep {cfg : Config} {inner : Nat → Prop} {d : Nat} {recur : THeap → Option Ty → Run Flat} (hrec : Deep cfg inner d recur)
    {H : THeap} (hS : Shape cfg inner H) {id : Nat} (hid : inner id) {c : ComplexT} (hc : H[id]? = some (.complex c)) {r : Flat}
    (h : flattenComplex recur H id c = .ok r) : DeepAt inner (d + 1) H id r := by
  obtain ⟨e, he, h⟩ := bind_ok h
  obtain ⟨a, ha, h⟩ := bind_ok h
  obtain ⟨b, hb, h⟩ := bind_ok h
  have L1 : LoopAt inner d H id .elem _ e := fieldLoop_deep hrec hid .elem _ _ _ hS he
  have L2 : LoopAt inner d e.1 id .attr _ a := fieldLoop_deep hrec hid .attr _ _ _ (L1.ev.shape hS) ha
  cases ht : b.2.2 with
  | none => rw [ht] at h; cases h
  | some t =>
    rw [ht] at h
    cases h
    have S3 : SlotAt inner d a.1 id .base (setComplexBase b.1 id t) b.2.1 t :=
      slot_step hrec (L2.ev.shape (L1.ev.shape hS)) hid (σ := .base) hb ht
    have E23 := L2.ev.trans S3.ev
    have E13 := L1.ev.trans E23
    have m1 : ∀ u, u ∈ e.2 → u ∈ e.2 ++ a.2 ++ b.2.1 ++ (if c.mixed then [t] else []) := by simp only [List.mem_append]; tauto
    have m2 : ∀ u, u ∈ a.2 → u ∈ e.2 ++ a.2 ++ b.2.1 ++ (if c.mixed then [t] else []) := by simp only [List.mem_append]; tauto
    have m3 : ∀ u, u ∈ b.2.1 → u ∈ e.2 ++ a.2 ++ b.2.1 ++ (if c.mixed then [t] else []) := by simp only [List.mem_append]; tauto
    have hce : ∃ c1, e.1[id]? = some (.complex c1) ∧ c1.attributes.length = c.attributes.length := by
      obtain ⟨o, ho, ch⟩ := L1.ev.flow.get hc
      cases o with
      | simple _ => cases ch
      | complex c1 => exact ⟨c1, ho, by simpa using ch.2.2.2.1.len⟩
    obtain ⟨c1, hc1, hlen⟩ := hce
    have i1 : ∀ i y, slotTy H id (.elem i) = some y → i ∈ List.range c.elements.length := by
      intro i y hy
      simp only [slotTy, elemType, hc] at hy
      obtain ⟨x, hx, -⟩ := Option.map_eq_some_iff.mp hy
      exact List.mem_range.mpr (List.getElem?_eq_some_iff.mp hx).1
    have i2 : ∀ i y, slotTy e.1 id (.attr i) = some y → i ∈ List.range c.attributes.length := by
      intro i y hy
      simp only [slotTy, attrType, hc1] at hy
      obtain ⟨x, hx, -⟩ := Option.map_eq_some_iff.mp hy
      exact List.mem_range.mpr (hlen ▸ (List.getElem?_eq_some_iff.mp hx).1)
    refine ⟨E13, fun _ => ⟨rfl, ?_⟩, fun hn => absurd hid hn, ?_⟩
    · intro k x hw hk
      cases hw with
      | zero =>
        intro σ j hj
        cases σ with
        | elem i =>
          have h1 := E23.back hid hj
          have h0 := L1.ev.back hid h1
          obtain ⟨o1, o2⟩ := L1.obj i (i1 i _ h0) j h0
          by_cases hi : inner j
          · exact ⟨fun h => absurd hi h, fun _ => m1 _ (o1 hi).1⟩
          · exact ⟨fun _ => E23.flow.leafOk ((o2 hi).1 (by omega)), fun _ => m1 _ ((o2 hi).2 h1)⟩
        | attr i =>
          have h2 := S3.ev.back hid hj
          have h1 := L2.ev.back hid h2
          obtain ⟨o1, o2⟩ := L2.obj i (i2 i _ h1) j h1
          by_cases hi : inner j
          · exact ⟨fun h => absurd hi h, fun _ => m2 _ (o1 hi).1⟩
          · exact ⟨fun _ => S3.ev.flow.leafOk ((o2 hi).1 (by omega)), fun _ => m2 _ ((o2 hi).2 h2)⟩
        | base =>
          have h2 := S3.ev.back hid hj
          have hjt : t = .obj j := by
            have := S3.here
            dsimp only at hj
            rw [hj] at this
            cases this
            rfl
          refine ⟨fun hi => (S3.obj j h2).2 hi (by omega), fun hm => ?_⟩
          rcases hm with hm | ⟨c3, hc3, hm⟩
          · exact absurd rfl hm
          · obtain ⟨o, ho, ch⟩ := E13.flow.change id _ hc3
            rw [hc] at ho
            cases ho
            have : c.mixed = true := by rw [← ch.2.1]; exact hm
            simp [Pushed, this, hjt]
      | @succ k _ y _ he hw =>
        obtain ⟨-, hy, σ, hσ⟩ := he
        have hx := hw.inner hy
        cases σ with
        | elem i =>
          exact ((((L1.obj i (i1 i _ hσ) y hσ).1 hy).2 k x hw (by omega)).ev hx E23 fun j hj => m1 _ hj)
        | attr i =>
          have h1 : slotTy e.1 id (.attr i) = some (.obj y) := by
            rcases L1.ev.forth hid hσ with h | ⟨h, -⟩
            · exact h
            · exact absurd hy h
          exact ((((L2.obj i (i2 i _ h1) y h1).1 hy).2 k x (L1.ev.walk.mpr hw) (by omega)).ev hx S3.ev fun j hj => m2 _ hj)
        | base =>
          have h2 : slotTy a.1 id .base = some (.obj y) := by
            rcases (L1.ev.trans L2.ev).forth hid hσ with h | ⟨h, -⟩
            · exact h
            · exact absurd hy h
          exact ((((S3.obj y h2).1 hy).2 k x ((L1.ev.trans L2.ev).walk.mpr hw) (by omega)).ev hx (.refl ..) fun j hj => m3 _ hj)
    · intro j hj
      simp only [List.mem_append] at hj
      rcases hj with ((hj | hj) | hj) | hj
      · exact (L1.pushed j hj).ev E23
      · exact (L2.pushed j hj).ev S3.ev
      · exact S3.pushed j (Or.inl hj)
      · refine S3.pushed j (Or.inr ?_)
        by_cases hm : c.mixed
        · simp only [hm, if_true, List.mem_singleton] at hj
          exact hj.symm
        · simp [hm] at hj

theorem setSimpleBase_complex (b : Option Ty) (H : THeap) (t : Ty) (a : Nat) (c : ComplexT) :
    (setSimpleBase b H t)[a]? = some (.complex c) ↔ H[a]? = some (.complex c) := by
  cases t with
  | builtin _ => exact Iff.rfl
  | link _ => exact Iff.rfl
  | obj id =>
    simp only [setSimpleBase]
    split
    · rename_i s hs
      have hlt := (List.getElem?_eq_some_iff.mp hs).1
      by_cases e : id = a
      · subst e
        rw [List.getElem?_set_self hlt, hs]
        simp
      · rw [List.getElem?_set_ne e]
    · exact Iff.rfl

theorem flattenSimple_complex {n : Nat} {H : THeap} {id : Nat} {s : SimpleT} {r : Flat} (hs : H[id]? = some (.simple s))
    (h : flattenSimple n H id s = .ok r) {a : Nat} {c : ComplexT} (hc : H[a]? = some (.complex c)) : r.1[a]? = some (.complex c) := by
  obtain ⟨q, hq, h⟩ := bind_ok h
  have hG : (setSimpleBase (q.2.map Ty.builtin) ((q.1.filter (isSimple H)).foldl (setSimpleBase (q.2.map Ty.builtin)) H) (.obj id))[a]? = some (.complex c) := by
    rw [setSimpleBase_complex]
    have : ∀ (l : List Ty) (K : THeap), K[a]? = some (.complex c) → (l.foldl (setSimpleBase (q.2.map Ty.builtin)) K)[a]? = some (.complex c) := by
      intro l
      induction l with
      | nil => exact fun _ h => h
      | cons t l ih => exact fun K hK => ih _ ((setSimpleBase_complex _ K t a c).mpr hK)
    exact this _ _ hc
  have hne : id ≠ a := by rintro rfl; rw [hs] at hc; cases hc
  dsimp only at h
  split at h
  · cases h; exact hG
  · split at h
    · cases h
      show (List.set _ id _)[a]? = _
      rw [List.getElem?_set_ne hne]
      exact hG
    · cases h; exact hG

theorem flatten1_builtin (cfg : Config) (n d : Nat) (H : THeap) (b : Builtin) :
    flatten1 cfg n d H (some (.builtin b)) = .ok (H, [], some (.builtin b)) := by
  cases d <;> rfl

theorem flatten1_solid {cfg : Config} {n d : Nat} {inner : Nat → Prop} {H : THeap} {id : Nat} {c : ComplexT} {r : Flat} (hS : Shape cfg inner H)
    (hi : inner id) (ho : H[id]? = some (.complex c)) (h : flatten1 cfg n (d + 1) H (some (.obj id)) = .ok r) :
    flattenComplex (flatten1 cfg n d) H id c = .ok r := by
  simp only [flatten1, ho] at h
  obtain ⟨c', hc', hsol⟩ := hS.solid id hi
  rw [ho] at hc'
  cases hc'
  have hcon : HasContent cfg (.complex c) → c.base = some (.builtin AnyType) ∨ (filterFields cfg c).1 ≠ [] := by
    intro h
    rcases h with h | ⟨a, ha, hk⟩
    · exact Or.inl h
    · refine Or.inr fun h0 => ?_
      have : a ∈ (filterFields cfg c).1 := (keptAttr_iff ..).mpr ⟨ha, fun p hp => hk p hp a.type⟩
      rw [h0] at this
      cases this
  split at h
  · rename_i b hb
    split at h
    · rename_i hcond
      exfalso
      rcases hsol with hsol | ⟨bid, hsol, -⟩
      · rcases hcon hsol with e | e
        · rw [hb] at e; cases e; exact hcond.1 rfl
        · exact e hcond.2
      · rw [hb] at hsol; cases hsol
    · exact h
  · rename_i bid hb
    split at h
    · rename_i hcond
      exfalso
      rcases hsol with hsol | ⟨bid', hsol, hib⟩
      · rcases hcon hsol with e | e
        · rw [hb] at e; cases e
        · exact e hcond.2
      · rw [hb] at hsol
        cases hsol
        obtain ⟨cb, hcb, -⟩ := hS.solid bid hib
        simp [isSimple, hcb] at hcond
    · exact h
  · exact h

theorem flatten1_deep (cfg : Config) (n : Nat) (inner : Nat → Prop) : ∀ d, Deep cfg inner d (flatten1 cfg n d) := by
  intro d
  induction d with
  | zero =>
    refine ⟨flatten1_flow cfg n 0, flatten1_builtin cfg n 0, fun H r h => by cases h; rfl, ?_⟩
    intro H id r hS h
    cases h
    exact ⟨.refl .., fun _ => ⟨rfl, fun k x _ hk => by omega⟩, fun _ => ⟨fun h => absurd h (by omega), fun t ht => by cases ht; exact Or.inl rfl⟩,
      fun j hj => by cases hj⟩
  | succ d ih =>
    refine ⟨flatten1_flow cfg n (d + 1), flatten1_builtin cfg n (d + 1), fun H r h => (by cases h), ?_⟩
    intro H id r hS h
    simp only [flatten1] at h
    cases ho : H[id]? with
    | none => rw [ho] at h; cases h
    | some o =>
      rw [ho] at h
      cases o with
      | simple s =>
        have hn : ¬ inner id := by
          intro hi
          obtain ⟨c, hc, -⟩ := hS.solid id hi
          rw [ho] at hc
          cases hc
        obtain ⟨k1, k2, k3⟩ := flattenSimple_spec ho h
        have kc : ∀ {a : Nat} {c : ComplexT}, H[a]? = some (.complex c) → r.1[a]? = some (.complex c) := fun hc => flattenSimple_complex ho h hc
        have leafOk : ∀ j, (j = id ∨ Ty.obj j ∈ r.2.1) → LeafOk r.1 j := by
          intro j hj
          obtain ⟨s', hs', hp⟩ := k2 j hj
          exact ⟨_, hs', hp⟩
        refine ⟨⟨k1 Any, ?_⟩, fun hi => absurd hi hn, fun _ => ⟨fun _ => leafOk id (Or.inl rfl), ?_⟩, ?_⟩
        · intro a σ ha
          obtain ⟨c, hc, -⟩ := hS.solid a ha
          exact Or.inl (slotTy_congr ((kc hc).trans hc.symm) σ)
        · intro t ht
          rcases k3 with k3 | k3
          · rw [k3] at ht; cases ht; exact Or.inl rfl
          · exact Or.inr ⟨k3.1 t ht, leafOk id (Or.inl rfl)⟩
        · intro j hj
          obtain ⟨s', hs', -⟩ := k2 j (Or.inr hj)
          have hjn : ¬ inner j := by
            intro hi
            obtain ⟨c, hc, -⟩ := hS.solid j hi
            rw [kc hc] at hs'
            cases hs'
          exact ⟨fun hi => absurd hi hjn, fun _ => Or.inl (leafOk j (Or.inr hj))⟩
      | complex c =>
        by_cases hi : inner id
        · exact flattenComplex_deep ih hS hi ho (flatten1_solid hS hi ho (by simp only [flatten1, ho]; exact h))
        · rcases hS.leaf id _ hi ho with ⟨s, hs⟩ | ⟨c', hc', hbare⟩
          · cases hs
          · cases hc'
            obtain ⟨b1, b2, b, b3⟩ := hbare
            have lk : LeafOk H id := ⟨_, ho, b1, b2, b, b3⟩
            have same : setComplexBase H id (.builtin b) = H := by
              have hlt := (List.getElem?_eq_some_iff.mp ho).1
              have : ({ c with base := some (.builtin b) } : ComplexT) = c := by rw [← b3]
              simp only [setComplexBase, ho, this]
              have e : H[id] = .complex c := by
                have := List.getElem?_eq_getElem hlt
                rw [ho] at this
                exact (Option.some.inj this).symm
              rw [← e]
              exact List.set_getElem_self hlt
            dsimp only at h
            rw [b3] at h
            dsimp only at h
            have hbase : baseOf H (.obj id) = some (.builtin b) := by simp only [baseOf, ho, TObj.base, b3]
            have hfc : flattenComplex (flatten1 cfg n d) H id c = .ok (H, (if c.mixed then [Ty.builtin b] else []), some (.obj id)) := by
              simp only [flattenComplex, b1, b2, List.length_nil, List.range_zero, fieldLoop, Run.bind, hbase, flatten1_builtin, List.nil_append, same]
            split at h
            · cases h
              exact ⟨.refl .., fun h => absurd h hi, fun _ => ⟨fun _ => lk, fun t ht => by cases ht; exact Or.inr ⟨⟨b, rfl⟩, lk⟩⟩, fun j hj => by cases hj⟩
            · rw [hfc] at h
              cases h
              refine ⟨.refl .., fun h => absurd h hi, fun _ => ⟨fun _ => lk, fun t ht => by cases ht; exact Or.inl rfl⟩, fun j hj => ?_⟩
              dsimp only at hj
              split at hj
              · simp at hj
              · cases hj

/-! ### All types that are passed on -/

/-- What can be reached can be reached in a few steps. -/
def Near (inner : Nat → Prop) (H : THeap) : Prop := ∀ k a b, Walk inner H k a b → ∃ k' < 1000, Walk inner H k' a b

theorem Done.loc {inner : Nat → Prop} {K : THeap} {P : Nat → Prop} {x : Nat} (hl : Linked K) (hd : Done inner K P x) {c : ComplexT}
    (hc : K[x]? = some (.complex c)) : LocalAt K P x := by
  obtain ⟨l1, l2, l3⟩ := hl x c hc
  have key : ∀ σ t, slotTy K x σ = some t → NotLink t → (σ ≠ .base ∨ ∃ c, K[x]? = some (.complex c) ∧ c.mixed = true) → Cov P t := by
    intro σ t ht hn hm
    cases t with
    | builtin _ => trivial
    | link _ => cases hn
    | obj j => exact (hd σ j ht).2 hm
  refine ⟨_, hc, ?_, ?_, ?_⟩
  · intro e he
    obtain ⟨i, hi⟩ := slot_elem hc he
    exact key _ _ hi (l1 e he) (Or.inl (by simp))
  · intro e he
    obtain ⟨i, hi⟩ := slot_attr hc he
    exact key _ _ hi (l2 e he) (Or.inl (by simp))
  · intro t ht
    exact ⟨l3 t ht, fun hm => key .base t (by simp only [slotTy, baseOf, hc, TObj.base]; exact ht) (l3 t ht) (Or.inr ⟨c, hc, hm⟩)⟩

theorem LeafOk.fit {K : THeap} {P : Nat → Prop} {j : Nat} (h : LeafOk K j) : Fit K P j := by
  obtain ⟨o, ho, hl⟩ := h
  have hb : ∀ t, o.base = some t → ∃ b, t = .builtin b := by
    intro t ht
    cases o with
    | simple s => exact hl t ht
    | complex c =>
      obtain ⟨-, -, b, hb⟩ := hl
      simp only [TObj.base] at ht
      rw [hb] at ht
      cases ht
      exact ⟨b, rfl⟩
  intro a ha
  cases ha with
  | self =>
    refine ⟨o, ho, ?_⟩
    cases o with
    | simple s => exact hl
    | complex c =>
      obtain ⟨h1, h2, b, hb⟩ := hl
      refine ⟨by simp [h1], by simp [h2], fun t ht => ?_⟩
      rw [hb] at ht
      cases ht
      exact ⟨trivial, fun _ => trivial⟩
  | base h1 h2 =>
    simp only [baseOf, ho] at h1
    obtain ⟨b, rfl⟩ := hb _ h1
    cases builtin_ancestor h2

theorem fit_of_done {cfg : Config} {inner : Nat → Prop} {K : THeap} (hS : Shape cfg inner K) {P : Nat → Prop} {a : Nat}
    (hd : ∀ k x, Walk inner K k a x → Done inner K P x) : ∀ k j, inner a → Walk inner K k a j → Fit K P j := by
  have key : ∀ {s u : Ty}, Ancestor K s u → ∀ k j, inner a → Walk inner K k a j → s = .obj j → ∀ i, u = .obj i → LocalAt K P i := by
    intro s u hsu
    induction hsu with
    | self t =>
      intro k j ha hw hs i hi
      rw [hs] at hi
      cases hi
      obtain ⟨c, hc, -⟩ := hS.solid _ (hw.inner ha)
      exact (hd k _ hw).loc hS.linked hc
    | @base t b u hb hr ihr =>
      intro k j ha hw hs i hi
      subst hs
      subst hi
      obtain ⟨y, rfl⟩ := ancestor_obj hr
      by_cases hy : inner y
      · exact ihr (k + 1) y ha (hw.snoc ⟨hw.inner ha, hy, .base, hb⟩) rfl i rfl
      · exact ((hd k j hw) .base y hb).1 hy |>.fit i hr
  intro k j ha hw i hi
  exact key hi k j ha hw rfl i rfl

theorem flatten1_fit_recursive {cfg : Config} {n : Nat} {inner : Nat → Prop} {H : THeap} (hS : Shape cfg inner H) (hN : Near inner H) {t : Ty} {r : Flat}
    (h : flatten1 cfg n 1001 H (some t)= .ok r) (ht : NotLink t) :
    Ev inner H r.1 ∧ ∀ j, (Ty.obj j ∈ r.2.1 ∨ r.2.2 = some (.obj j)) → Fit r.1 (Pushed r.2.1) j := by
  cases t with
  | link _ => cases ht
  | builtin b =>
    cases h
    exact ⟨.refl .., fun j hj => by rcases hj with hj | hj <;> cases hj⟩
  | obj id =>
    have D := (flatten1_deep cfg n inner 1001).obj H id r hS h
    have hS' := D.ev.shape hS
    refine ⟨D.ev, ?_⟩
    have hdone : inner id → ∀ k x, Walk inner r.1 k id x → Done inner r.1 (Pushed r.2.1) x := by
      intro hi k x hw
      obtain ⟨k', hk', hw'⟩ := hN k id x (D.ev.walk.mp hw)
      exact (D.solid hi).2 k' x hw' (by omega)
    have hcame : ∀ j, Came inner r.1 id j → Fit r.1 (Pushed r.2.1) j := by
      intro j hj
      by_cases hi : inner j
      · obtain ⟨h1, k, h2⟩ := hj.1 hi
        exact fit_of_done hS' (hdone h1) k j h1 h2
      · rcases hj.2 hi with h1 | ⟨k, x, σ, h1, h2, h3⟩
        · exact h1.fit
        · exact (((hdone h1) k x h2) σ j h3).1 hi |>.fit
    intro j hj
    rcases hj with hj | hj
    · exact hcame j (D.pushed j hj)
    · by_cases hi : inner id
      · rw [(D.solid hi).1] at hj
        cases hj
        exact hcame _ ⟨fun _ => ⟨hi, 0, .zero _⟩, fun hn => absurd hi hn⟩
      · obtain ⟨d1, d2⟩ := D.leaf hi
        rcases d2 _ hj with e | ⟨⟨b, e⟩, -⟩
        · cases e
          exact (d1 (by omega)).fit
        · cases e

theorem Ev.near {inner : Nat → Prop} {H K : THeap} (h : Ev inner H K) (hN : Near inner H) : Near inner K := by
  intro k a b hw
  obtain ⟨k', hk, hw'⟩ := hN k a b (h.walk.mp hw)
  exact ⟨k', hk, h.walk.mpr hw'⟩

/-! ### expandComplexTypes -/

theorem Ext.slot {H K : THeap} (h : Ext H K) {a b : Nat} (hx : ∃ σ, slotTy H a σ = some (.obj b)) : ∃ σ, slotTy K a σ = some (.obj b) := by
  obtain ⟨σ, hσ⟩ := hx
  rcases h.get a with ⟨h1, h2⟩ | ⟨s, h1, h2⟩ | ⟨c, c', h1, h2, -, -, h3, -, -, h4, h5⟩
  · exact ⟨σ, by rw [slotTy_congr (h2.trans h1.symm)]; exact hσ⟩
  · exact ⟨σ, by rw [slotTy_congr (h2.trans h1.symm)]; exact hσ⟩
  · cases σ with
    | elem i =>
      simp only [slotTy, elemType, h1] at hσ
      obtain ⟨e, he, ht⟩ := Option.map_eq_some_iff.mp hσ
      obtain ⟨k, hk⟩ := slot_elem h2 (h4 e (List.mem_of_getElem? he))
      exact ⟨_, by rw [hk, ht]⟩
    | attr i =>
      simp only [slotTy, attrType, h1] at hσ
      obtain ⟨e, he, ht⟩ := Option.map_eq_some_iff.mp hσ
      obtain ⟨k, hk⟩ := slot_attr h2 (h5 e (List.mem_of_getElem? he))
      exact ⟨_, by rw [hk, ht]⟩
    | base => exact ⟨.base, by simp only [slotTy] at hσ ⊢; rw [h.base]; exact hσ⟩

theorem Ext.slotBack {H K : THeap} (h : Ext H K) {a b : Nat} (hx : ∃ σ, slotTy K a σ = some (.obj b)) :
    (∃ σ, slotTy H a σ = some (.obj b)) ∨ ∃ y c, slotTy H a .base = some (.obj y) ∧ H[y]? = some (.complex c) ∧
      (c.elements ≠ [] ∨ c.attributes ≠ []) ∧ ∃ σ, slotTy H y σ = some (.obj b) := by
  obtain ⟨σ, hσ⟩ := hx
  rcases h.get a with ⟨h1, h2⟩ | ⟨s, h1, h2⟩ | ⟨c, c', h1, h2, -, -, h3, h6, h7, -, -⟩
  · exact Or.inl ⟨σ, by rw [← slotTy_congr (h2.trans h1.symm)]; exact hσ⟩
  · exact Or.inl ⟨σ, by rw [← slotTy_congr (h2.trans h1.symm)]; exact hσ⟩
  · cases σ with
    | elem i =>
      simp only [slotTy, elemType, h2] at hσ
      obtain ⟨e, he, ht⟩ := Option.map_eq_some_iff.mp hσ
      rcases h6 e (List.mem_of_getElem? he) with he | ⟨y, cy, hy, hcy, he⟩
      · obtain ⟨k, hk⟩ := slot_elem h1 he
        exact Or.inl ⟨_, by rw [hk, ht]⟩
      · obtain ⟨k, hk⟩ := slot_elem hcy he
        exact Or.inr ⟨y, cy, by simp only [slotTy, baseOf, h1, TObj.base]; exact hy, hcy, Or.inl (List.ne_nil_of_mem he), _, by rw [hk, ht]⟩
    | attr i =>
      simp only [slotTy, attrType, h2] at hσ
      obtain ⟨e, he, ht⟩ := Option.map_eq_some_iff.mp hσ
      rcases h7 e (List.mem_of_getElem? he) with he | ⟨y, cy, hy, hcy, he⟩
      · obtain ⟨k, hk⟩ := slot_attr h1 he
        exact Or.inl ⟨_, by rw [hk, ht]⟩
      · obtain ⟨k, hk⟩ := slot_attr hcy he
        exact Or.inr ⟨y, cy, by simp only [slotTy, baseOf, h1, TObj.base]; exact hy, hcy, Or.inr (List.ne_nil_of_mem he), _, by rw [hk, ht]⟩
    | base => exact Or.inl ⟨.base, by simp only [slotTy] at hσ ⊢; rw [← h.base]; exact hσ⟩

theorem Ext.shape {cfg : Config} {inner : Nat → Prop} {H K : THeap} (h : Ext H K) (hS : Shape cfg inner H) : Shape cfg inner K := by
  refine ⟨h.linked hS.linked, ?_, ?_⟩
  · intro a ha
    obtain ⟨c, hc, hsol⟩ := hS.solid a ha
    rcases h.get a with ⟨h1, h2⟩ | ⟨s, h1, h2⟩ | ⟨c1, c', h1, h2, -, -, h3, -⟩
    · rw [h1] at hc; cases hc
    · rw [h1] at hc; cases hc
    · rw [h1] at hc
      cases hc
      refine ⟨c', h2, ?_⟩
      rcases hsol with hcon | ⟨bid, hb, hi⟩
      · obtain ⟨o, ho, hco, -⟩ := h.content h1 hcon
        rw [h2] at ho
        cases ho
        exact Or.inl hco
      · exact Or.inr ⟨bid, h3.trans hb, hi⟩
  · intro a o ha ho
    rcases h.get a with ⟨h1, h2⟩ | ⟨s, h1, h2⟩ | ⟨c, c', h1, h2, -, -, h3, h6, h7, -⟩
    · rw [h2] at ho; cases ho
    · rw [h2] at ho; cases ho; exact Or.inl ⟨s, rfl⟩
    · rw [h2] at ho
      cases ho
      rcases hS.leaf a _ ha h1 with ⟨s, hs⟩ | ⟨c0, hc0, b1, b2, b, b3⟩
      · cases hs
      · cases hc0
        refine Or.inr ⟨c', rfl, ?_, ?_, b, h3.trans b3⟩
        · refine List.eq_nil_iff_forall_not_mem.mpr fun e he => ?_
          rcases h6 e he with he | ⟨y, cy, hy, -⟩
          · rw [b1] at he; cases he
          · rw [b3] at hy; cases hy
        · refine List.eq_nil_iff_forall_not_mem.mpr fun e he => ?_
          rcases h7 e he with he | ⟨y, cy, hy, -⟩
          · rw [b2] at he; cases he
          · rw [b3] at hy; cases hy

theorem Ext.near {cfg : Config} {inner : Nat → Prop} {H K : THeap} (h : Ext H K) (hS : Shape cfg inner H) (hN : Near inner H) : Near inner K := by
  have back : ∀ {k a b}, Walk inner K k a b → ∃ k', Walk inner H k' a b := by
    intro k a b hw
    induction hw with
    | zero a => exact ⟨0, .zero a⟩
    | @succ k a b c he _ ih =>
      obtain ⟨k', hk'⟩ := ih
      obtain ⟨h1, h2, hσ⟩ := he
      rcases h.slotBack hσ with hσ | ⟨y, cy, p1, p2, p3, p4⟩
      · exact ⟨_, .succ ⟨h1, h2, hσ⟩ hk'⟩
      · have hy : inner y := by
          apply Classical.byContradiction
          intro hy
          rcases hS.leaf y _ hy p2 with ⟨s, hs⟩ | ⟨c0, hc0, b1, b2, -⟩
          · cases hs
          · cases hc0
            rcases p3 with p3 | p3
            · exact p3 b1
            · exact p3 b2
        exact ⟨_, .succ ⟨h1, hy, _, p1⟩ (.succ ⟨hy, h2, p4⟩ hk')⟩
  intro k a b hw
  obtain ⟨k1, hw1⟩ := back hw
  obtain ⟨k2, hk2, hw2⟩ := hN _ _ _ hw1
  exact ⟨k2, hk2, hw2.mono fun a b he => ⟨he.1, he.2.1, h.slot he.2.2⟩⟩

theorem flattenOk_recursive (cfg : Config) (n : Nat) (inner : Nat → Prop) : FlattenOk cfg n fun H => Shape cfg inner H ∧ Near inner H where
  linked := fun _ h => h.1.linked
  ext := fun _ _ h hH => ⟨h.shape hH.1, h.near hH.1 hH.2⟩
  flow := by
    intro H t r hH ht h
    obtain ⟨e, hf⟩ := flatten1_fit_recursive hH.1 hH.2 h ht
    exact ⟨⟨e.shape hH.1, e.near hH.2⟩, fun j hj => (hf j hj).mono pushed_left⟩

/-! ### From the vocabulary of the theorems -/

theorem slot_uses {H : THeap} {a b : Nat} : (∃ σ, slotTy H a σ = some (.obj b)) ↔ Uses H a b := by
  constructor
  · rintro ⟨σ, h⟩
    cases σ with
    | elem i => exact elemType_uses h
    | attr i => exact attrType_uses h
    | base => exact .base h
  · intro h
    cases h with
    | base h => exact ⟨.base, h⟩
    | elem hc he ht => obtain ⟨i, hi⟩ := slot_elem hc he; exact ⟨_, by rw [hi, ht]⟩
    | attr hc he ht => obtain ⟨i, hi⟩ := slot_attr hc he; exact ⟨_, by rw [hi, ht]⟩

theorem steps_walk {H : THeap} {k a b : Nat} : Walk (Structured H) H k a b ↔ Steps H k a b := by
  constructor
  · intro h
    induction h with
    | zero a => exact .zero a
    | succ he _ ih => exact .succ he.1 he.2.1 (slot_uses.mp he.2.2) ih
  · intro h
    induction h with
    | zero a => exact .zero a
    | succ h1 h2 h3 _ ih => exact .succ ⟨h1, h2, slot_uses.mpr h3⟩ ih

theorem near_of {H : THeap} (h : Reachable H) : Near (Structured H) H := by
  intro k a b hw
  obtain ⟨k', hk, hw'⟩ := h k a b (steps_walk.mp hw)
  exact ⟨k', hk, steps_walk.mpr hw'⟩

theorem shape_of {cfg : Config} {H : THeap} (hl : Linked H) (h : Solid cfg H) : Shape cfg (Structured H) H := by
  refine ⟨hl, ?_, ?_⟩
  · intro a ha
    obtain ⟨c, hc, -⟩ := id ha
    exact ⟨c, hc, h a c hc ha⟩
  · intro a o ha ho
    cases o with
    | simple s => exact Or.inl ⟨s, rfl⟩
    | complex c =>
      refine Or.inr ⟨c, rfl, ?_⟩
      apply Classical.byContradiction
      intro hn
      refine ha ⟨c, ho, fun hb => hn ?_⟩
      obtain ⟨b1, b2, b, -, b3⟩ := hb
      exact ⟨b1, b2, b, b3⟩

/-! ### Few types -/

theorem Steps.snoc {H : THeap} {k a b c : Nat} (h : Steps H k a b) (hb : Structured H b) (hc : Structured H c) (hu : Uses H b c) : Steps H (k + 1) a c := by
  induction h with
  | zero a => exact .succ hb hc hu (.zero _)
  | succ h1 h2 h3 _ ih => exact .succ h1 h2 h3 (ih hb hu)

/-- The types on the way. -/
theorem Steps.path {H : THeap} {k a b : Nat} (h : Steps H k a b) : ∃ p : Nat → Nat, p 0 = a ∧ p k = b ∧
    ∀ i < k, Structured H (p i) ∧ Structured H (p (i + 1)) ∧ Uses H (p i) (p (i + 1)) := by
  induction h with
  | zero a => exact ⟨fun _ => a, rfl, rfl, fun i hi => absurd hi (Nat.not_lt_zero _)⟩
  | @succ k a b c h1 h2 h3 _ ih =>
    obtain ⟨p, p0, pk, hp⟩ := ih
    refine ⟨fun i => match i with | 0 => a | i + 1 => p i, rfl, pk, fun i hi => ?_⟩
    cases i with
    | zero => rw [← p0] at h2 h3; exact ⟨h1, h2, h3⟩
    | succ i => exact hp i (by omega)

theorem steps_of_path {H : THeap} {p : Nat → Nat} {k : Nat} (hp : ∀ i < k, Structured H (p i) ∧ Structured H (p (i + 1)) ∧ Uses H (p i) (p (i + 1))) :
    ∀ i j, i ≤ j → j ≤ k → Steps H (j - i) (p i) (p j) := by
  intro i j hij
  induction j with
  | zero =>
    intro _
    have : i = 0 := by omega
    subst this
    exact .zero _
  | succ j ih =>
    intro hj
    by_cases e : i = j + 1
    · subst e; rw [Nat.sub_self]; exact .zero _
    · have := (ih (by omega) (by omega)).snoc (hp j (by omega)).1 (hp j (by omega)).2.1 (hp j (by omega)).2.2
      rw [show j + 1 - i = j - i + 1 by omega]
      exact this

theorem Steps.append {H : THeap} {k l a b c : Nat} (h1 : Steps H k a b) (h2 : Steps H l b c) : Steps H (k + l) a c := by
  induction h1 with
  | zero a => rw [Nat.zero_add]; exact h2
  | succ a1 a2 a3 _ ih => rw [Nat.add_right_comm]; exact .succ a1 a2 a3 (ih h2)

theorem reachable_of_few {H : THeap} (few : List Nat) (hlen : few.length ≤ 1000) (hall : ∀ a, Structured H a → a ∈ few) : Reachable H := by
  intro k
  induction k using Nat.strongRecOn with
  | _ k ih =>
    intro a b h
    by_cases hk : k < 1000
    · exact ⟨k, hk, h⟩
    · obtain ⟨p, p0, pk, hp⟩ := h.path
      have hrep : ∃ i j, i < j ∧ j ≤ k ∧ p i = p j := by
        apply Classical.byContradiction
        intro hn
        have hnd : ((List.range (k + 1)).map p).Nodup := by
          rw [List.nodup_iff_pairwise_ne, List.pairwise_map]
          refine List.Pairwise.imp_of_mem ?_ (List.pairwise_lt_range (n := k + 1))
          intro i j hi hj hlt e
          exact hn ⟨i, j, hlt, by have := List.mem_range.mp hj; omega, e⟩
        have hsub : (List.range (k + 1)).map p ⊆ few := by
          intro x hx
          obtain ⟨i, hi, rfl⟩ := List.mem_map.mp hx
          have hi := List.mem_range.mp hi
          apply hall
          by_cases e : i < k
          · exact (hp i e).1
          · have : i = k - 1 + 1 := by omega
            rw [this]
            exact (hp (k - 1) (by omega)).2.1
        have := (hnd.subperm hsub).length_le
        simp at this
        omega
      obtain ⟨i, j, hij, hj, e⟩ := hrep
      have s1 := steps_of_path hp 0 i (by omega) (by omega)
      have s2 := steps_of_path hp j k hj (Nat.le_refl _)
      rw [← e] at s2
      have s := s1.append s2
      rw [p0, pk] at s
      exact ih _ (by omega) a b s

end GoXml.Xsdgen
