import Verif.Proofs.XsdgenRecursive
set_option autoImplicit false

/-! The number of types that `flatten1` passes on. -/

namespace GoXml.Xsdgen
open Xsd

def Narrow (inner : Nat → Prop) (H : THeap) : Prop := ∀ a σ τ b c, inner a → slotTy H a σ = some (.obj b) → inner b →
  slotTy H a τ = some (.obj c) → inner c → σ = τ

theorem Ev.narrow {inner : Nat → Prop} {H K : THeap} (h : Ev inner H K) (hn : Narrow inner H) : Narrow inner K :=
  fun a σ τ b c ha hb hib hc hic => hn a σ τ b c ha (h.back ha hb) hib (h.back ha hc) hic

theorem Flow.fewFields {H K : THeap} {Q : Nat → Prop} (h : Flow H K Q) {f : Nat} (hf : FewFields f H) : FewFields f K := by
  intro id c' hc'
  obtain ⟨o, ho, ch⟩ := h.change id _ hc'
  cases o with
  | simple _ => cases ch
  | complex c =>
    have h1 := ch.2.2.1.len
    have h2 := ch.2.2.2.1.len
    simp only [List.length_map] at h1 h2
    rw [h1, h2]
    exact hf id c ho

/-- What is known of a recursive call. -/
structure Cheap (cfg : Config) (inner : Nat → Prop) (n f B : Nat) (recur : THeap → Option Ty → Run Flat) : Prop where
  solid : ∀ H id r, Shape cfg inner H → Narrow inner H → FewFields f H → recur H (some (.obj id)) = .ok r → inner id → r.2.1.length ≤ B
  leaf : ∀ H id r, Shape cfg inner H → recur H (some (.obj id)) = .ok r → ¬ inner id → r.2.1.length ≤ n + 1

/-- One place. -/
theorem slot_cost {cfg : Config} {inner : Nat → Prop} {d n f B : Nat} {recur : THeap → Option Ty → Run Flat} (hrec : Deep cfg inner d recur)
    (hc : Cheap cfg inner n f B recur) {H : THeap} (hS : Shape cfg inner H) (hN : Narrow inner H) (hF : FewFields f H) {id : Nat} (hid : inner id)
    {σ : Place} {q : Flat} {t' : Ty} (h : recur H (slotTy H id σ) = .ok q) (ht' : q.2.2 = some t') :
    ((∀ y, slotTy H id σ = some (.obj y) → ¬ inner y) → q.2.1.length ≤ n + 1) ∧ q.2.1.length ≤ n + 1 + B := by
  obtain ⟨c, hcc, -⟩ := hS.solid id hid
  cases hs : slotTy H id σ with
  | none => rw [hs] at h; rw [hrec.nil H q h] at ht'; cases ht'
  | some t =>
    rw [hs] at h
    cases t with
    | link _ => cases slot_linked hS.linked hcc hs
    | builtin b =>
      rw [hrec.builtin] at h
      cases h
      exact ⟨fun _ => Nat.zero_le _, Nat.zero_le _⟩
    | obj y =>
      by_cases hy : inner y
      · exact ⟨fun hn => absurd hy (hn y rfl), Nat.le_trans (hc.solid H y q hS hN hF h hy) (Nat.le_add_left ..)⟩
      · have := hc.leaf H y q hS h hy
        exact ⟨fun _ => this, Nat.le_trans this (Nat.le_add_right ..)⟩

theorem fieldLoop_cost {cfg : Config} {inner : Nat → Prop} {d n f B : Nat} {recur : THeap → Option Ty → Run Flat} (hrec : Deep cfg inner d recur)
    (hc : Cheap cfg inner n f B recur) {id : Nat} (hid : inner id) {sl : Nat → Place} (hinj : ∀ i j, sl i = sl j → i = j) :
    ∀ (is : List Nat) (H : THeap) (r : THeap × List Ty), Shape cfg inner H → Narrow inner H → FewFields f H → is.Nodup →
      fieldLoop recur (fun H i => slotTy H id (sl i)) (fun H i t => setSlot H id t (sl i)) is H = .ok r →
      ((∀ i ∈ is, ∀ y, slotTy H id (sl i) = some (.obj y) → ¬ inner y) → r.2.length ≤ is.length * (n + 2)) ∧
      r.2.length ≤ is.length * (n + 2) + B := by
  intro is
  induction is with
  | nil =>
    intro H r _ _ _ _ h
    cases h
    exact ⟨fun _ => Nat.zero_le _, Nat.zero_le _⟩
  | cons i is ih =>
    intro H r hS hN hF hnd h
    obtain ⟨q, hq, h⟩ := bind_ok h
    cases ht : q.2.2 with
    | none => rw [ht] at h; cases h
    | some t =>
      rw [ht] at h
      obtain ⟨p, hp, h⟩ := bind_ok h
      cases h
      have E := (slot_step hrec hS hid hq ht).ev
      obtain ⟨c1, c2⟩ := slot_cost hrec hc hS hN hF hid hq ht
      obtain ⟨p1, p2⟩ := ih _ _ (E.shape hS) (E.narrow hN) (E.flow.fewFields hF) (List.nodup_cons.mp hnd).2 hp
      have hlen : (q.2.1 ++ t :: p.2).length = q.2.1.length + p.2.length + 1 := by simp; omega
      have hmul : (is.length + 1) * (n + 2) = is.length * (n + 2) + (n + 2) := by rw [Nat.add_mul, Nat.one_mul]
      simp only [hlen, List.length_cons, hmul]
      refine ⟨fun hno => ?_, ?_⟩
      · have := c1 (hno i (List.mem_cons_self ..))
        have := p1 fun j hj y hy => hno j (List.mem_cons_of_mem _ hj) y (E.back hid hy)
        omega
      · by_cases hi : ∀ y, slotTy H id (sl i) = some (.obj y) → ¬ inner y
        · have := c1 hi
          omega
        · have hi : ∃ y, slotTy H id (sl i) = some (.obj y) ∧ inner y := by
            apply Classical.byContradiction
            intro hn
            exact hi fun y hy hy' => hn ⟨y, hy, hy'⟩
          obtain ⟨y, hy, hiy⟩ := hi
          have := p1 fun j hj z hz hiz => by
            have e := hinj _ _ (hN id _ _ y z hid hy hiy (E.back hid hz) hiz)
            subst e
            exact (List.nodup_cons.mp hnd).1 hj
          omega

theorem flattenComplex_cost {cfg : Config} {inner : Nat → Prop} {d n f B : Nat} {recur : THeap → Option Ty → Run Flat} (hrec : Deep cfg inner d recur)
    (hcheap : Cheap cfg inner n f B recur) {H : THeap} (hS : Shape cfg inner H) (hN : Narrow inner H) (hF : FewFields f H) {id : Nat} (hid : inner id)
    {c : ComplexT} (hc : H[id]? = some (.complex c)) {r : Flat} (h : flattenComplex recur H id c = .ok r) : r.2.1.length ≤ f * (n + 2) + B := by
  obtain ⟨e, he, h⟩ := bind_ok h
  obtain ⟨a, ha, h⟩ := bind_ok h
  obtain ⟨b, hb, h⟩ := bind_ok h
  have E1 : Ev inner H e.1 := (fieldLoop_deep hrec hid .elem _ _ _ hS he).ev
  have hS1 := E1.shape hS
  have E2 : Ev inner e.1 a.1 := (fieldLoop_deep hrec hid .attr _ _ _ hS1 ha).ev
  have hN1 := E1.narrow hN
  have hF1 := E1.flow.fewFields hF
  obtain ⟨e1, e2⟩ := fieldLoop_cost hrec hcheap hid (sl := .elem) (fun i j h => by cases h; rfl) _ _ _ hS hN hF List.nodup_range he
  obtain ⟨a1, a2⟩ := fieldLoop_cost hrec hcheap hid (sl := .attr) (fun i j h => by cases h; rfl) _ _ _ hS1 hN1 hF1 List.nodup_range ha
  cases ht : b.2.2 with
  | none => rw [ht] at h; cases h
  | some t =>
    rw [ht] at h
    cases h
    obtain ⟨b1, b2⟩ := slot_cost hrec hcheap (E2.shape hS1) (E2.narrow hN1) (E2.flow.fewFields hF1) hid (σ := .base) hb ht
    have hm : (if c.mixed then [t] else []).length ≤ 1 := by split <;> simp
    have hlen : (e.2 ++ a.2 ++ b.2.1 ++ (if c.mixed then [t] else [])).length ≤ e.2.length + a.2.length + b.2.1.length + 1 := by
      simp only [List.length_append]; omega
    have hf := hF id c hc
    simp only [List.length_range] at e1 e2 a1 a2
    have hmul : c.elements.length * (n + 2) + c.attributes.length * (n + 2) + (n + 2) ≤ f * (n + 2) := by
      rw [← Nat.add_mul]
      have : (c.elements.length + c.attributes.length + 1) * (n + 2) ≤ f * (n + 2) := Nat.mul_le_mul_right _ hf
      rw [Nat.add_mul _ 1, Nat.one_mul] at this
      exact this
    refine Nat.le_trans hlen ?_
    have none_of : ∀ (sl : Nat → Place) (is : List Nat) (K : THeap),
        (∀ i ∈ is, ∀ y, slotTy K id (sl i) = some (.obj y) → ¬ inner y) ∨ ∃ i y, slotTy K id (sl i) = some (.obj y) ∧ inner y := by
      intro sl is K
      apply Classical.byContradiction
      intro hn
      exact hn (Or.inl fun i _ y hy hi => hn (Or.inr ⟨i, y, hy, hi⟩))
    have nobase : (∃ σ y, σ ≠ Place.base ∧ slotTy H id σ = some (.obj y) ∧ inner y) → b.2.1.length ≤ n + 1 := by
      rintro ⟨σ, y, hσ, hy, hi⟩
      refine b1 fun z hz hiz => hσ (hN id _ _ y z hid hy hi ((E1.trans E2).back hid hz) hiz)
    rcases none_of .elem (List.range c.elements.length) H with h1 | ⟨i, y, hy, hi⟩
    · rcases none_of .attr (List.range c.attributes.length) e.1 with h2 | ⟨j, z, hz, hj⟩
      · have := e1 h1
        have := a1 h2
        omega
      · have := e1 h1
        have := nobase ⟨_, z, by simp, E1.back hid hz, hj⟩
        omega
    · have := a1 fun j _ z hz hj => by have := hN id _ _ y z hid hy hi (E1.back hid hz) hj; cases this
      have := nobase ⟨_, y, by simp, hy, hi⟩
      omega

theorem baseChain_length {H : THeap} : ∀ {n : Nat} {o : Option Builtin} {b : Option Ty} {r : List Ty × Option Builtin},
    baseChain H n o b = .ok r → r.1.length ≤ n := by
  intro n
  induction n with
  | zero => intro o b r h; cases h
  | succ n ih =>
    intro o b r h
    cases b with
    | none => cases h; exact Nat.zero_le _
    | some t =>
      cases t with
      | builtin x => cases h; exact Nat.zero_le _
      | obj j =>
        obtain ⟨q, hq, h⟩ := bind_ok h
        cases h
        exact Nat.succ_le_succ (ih hq)
      | link x =>
        obtain ⟨q, hq, h⟩ := bind_ok h
        cases h
        exact Nat.succ_le_succ (ih hq)

theorem flatten1_leafCost {cfg : Config} {n d : Nat} {inner : Nat → Prop} {H : THeap} {id : Nat} {r : Flat} (hS : Shape cfg inner H)
    (h : flatten1 cfg n d H (some (.obj id)) = .ok r) (hi : ¬ inner id) : r.2.1.length ≤ n + 1 := by
  cases d with
  | zero => cases h; exact Nat.zero_le _
  | succ d =>
    simp only [flatten1] at h
    cases ho : H[id]? with
    | none => rw [ho] at h; cases h
    | some o =>
      rw [ho] at h
      cases o with
      | simple s =>
        obtain ⟨q, hq, h⟩ := bind_ok h
        have h1 := baseChain_length hq
        have h2 : (q.1.filter (isSimple H)).length ≤ q.1.length := List.length_filter_le ..
        have h3 : r.2.1 = q.1.filter (isSimple H) := by
          dsimp only at h
          split at h
          · cases h; rfl
          · split at h <;> cases h <;> rfl
        rw [h3]
        omega
      | complex c =>
        rcases hS.leaf id _ hi ho with ⟨s, hs⟩ | ⟨c', hc', b1, b2, b, b3⟩
        · cases hs
        · cases hc'
          dsimp only at h
          rw [b3] at h
          dsimp only at h
          split at h
          · cases h; exact Nat.zero_le _
          · simp only [flattenComplex, b1, b2, List.length_nil, List.range_zero, fieldLoop, Run.bind, List.nil_append] at h
            rw [show baseOf H (.obj id) = some (.builtin b) by simp only [baseOf, ho, TObj.base, b3], flatten1_builtin] at h
            cases h
            show (if c.mixed then [Ty.builtin b] else []).length ≤ n + 1
            split <;> simp

theorem flatten1_cheap (cfg : Config) (n f : Nat) (inner : Nat → Prop) : ∀ d, Cheap cfg inner n f (d * (f * (n + 2))) (flatten1 cfg n d) := by
  intro d
  induction d with
  | zero => exact ⟨fun H id r _ _ _ h _ => by cases h; exact Nat.zero_le _, fun H id r hS h hi => flatten1_leafCost hS h hi⟩
  | succ d ih =>
    refine ⟨fun H id r hS hN hF h hi => ?_, fun H id r hS h hi => flatten1_leafCost hS h hi⟩
    obtain ⟨c, hc, hsol⟩ := hS.solid id hi
    have hfc := flatten1_solid hS hi hc h
    have := flattenComplex_cost (flatten1_deep cfg n inner d) ih hS hN hF hi hc hfc
    rw [Nat.succ_mul]
    omega

theorem flattenLoop_cost {cfg : Config} {n f : Nat} {inner : Nat → Prop} : ∀ (ts : List Ty) (H : THeap) (r : THeap × List Ty), Shape cfg inner H →
    Narrow inner H → FewFields f H → (∀ t ∈ ts, NotLink t) → flattenLoop cfg n H ts = .ok r → r.2.length ≤ ts.length * (1001 * (f * (n + 2)) + n + 2) := by
  intro ts
  induction ts with
  | nil => intro H r _ _ _ _ h; cases h; exact Nat.zero_le _
  | cons t ts ih =>
    intro H r hS hN hF hl h
    rw [List.length_cons, Nat.succ_mul]
    simp only [flattenLoop] at h
    split at h
    · have := ih H r hS hN hF (fun u hu => hl u (List.mem_cons_of_mem _ hu)) h
      omega
    · obtain ⟨q, hq, h⟩ := bind_ok h
      obtain ⟨p, hp, h⟩ := bind_ok h
      cases h
      have hone : Ev inner H q.1 ∧ q.2.1.length ≤ 1001 * (f * (n + 2)) + n + 1 := by
        cases t with
        | link _ => cases hl _ (List.mem_cons_self ..)
        | builtin b => cases hq; exact ⟨.refl .., Nat.zero_le _⟩
        | obj id =>
          refine ⟨((flatten1_deep cfg n inner 1001).obj H id q hS hq).ev, ?_⟩
          by_cases hi : inner id
          · have := (flatten1_cheap cfg n f inner 1001).solid H id q hS hN hF hq hi
            omega
          · have := (flatten1_cheap cfg n f inner 1001).leaf H id q hS hq hi
            omega
      obtain ⟨E, hlen⟩ := hone
      have := ih q.1 p (E.shape hS) (E.narrow hN) (E.flow.fewFields hF) (fun u hu => hl u (List.mem_cons_of_mem _ hu)) hp
      have ho : q.2.2.toList.length ≤ 1 := by cases q.2.2 <;> simp
      simp only [List.length_append]
      omega

end GoXml.Xsdgen
