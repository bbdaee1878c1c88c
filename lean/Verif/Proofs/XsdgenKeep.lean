import Verif.Proofs.XsdgenClosed
set_option autoImplicit false

/-! What no pass changes: the built-in type at the end of a chain of bases, and types derived from the type of any content. -/

namespace GoXml.Xsdgen
open Xsd GoMap

/-- The built-in type at the end of the chain of bases, which has at most the given number of steps. -/
inductive EndsIn (H : THeap) : Ty → Builtin → Nat → Prop
  | builtin (b : Builtin) (k : Nat) : EndsIn H (.builtin b) b k
  | obj {id : Nat} {t : Ty} {b : Builtin} {k : Nat} : baseOf H (.obj id) = some t → EndsIn H t b k → EndsIn H (.obj id) b (k + 1)

theorem EndsIn.of {H : THeap} {x a : Ty} (h : Ancestor H x a) {b : Builtin} (ha : a = .builtin b) : ∃ k, EndsIn H x b k := by
  induction h with
  | self t => subst ha; exact ⟨0, .builtin b 0⟩
  | @base t c a hb _ ih =>
    obtain ⟨k, hk⟩ := ih ha
    cases t with
    | builtin x => cases hb
    | link x => cases hb
    | obj id => exact ⟨k + 1, .obj hb hk⟩

theorem EndsIn.anc {H : THeap} {x : Ty} {b : Builtin} {k : Nat} (h : EndsIn H x b k) : Ancestor H x (.builtin b) := by
  induction h with
  | builtin b k => exact .self _
  | obj hb _ ih => exact .base hb ih

theorem EndsIn.mono {H : THeap} {x : Ty} {b : Builtin} {k : Nat} (h : EndsIn H x b k) : EndsIn H x b (k + 1) := by
  induction h with
  | builtin b k => exact .builtin ..
  | obj hb _ ih => exact .obj hb ih

theorem EndsIn.succ {H : THeap} {id : Nat} {b : Builtin} {k : Nat} (h : EndsIn H (.obj id) b k) : ∃ j, k = j + 1 := by
  cases h with
  | obj _ _ => exact ⟨_, rfl⟩

def IsComplex (H : THeap) (id : Nat) : Prop := ∃ c, H[id]? = some (.complex c)

/-- What is kept of a heap. -/
structure Keep (H G : THeap) : Prop where
  ends : ∀ id b k, EndsIn H (.obj id) b (k + 1) → ∃ t, baseOf G (.obj id) = some t ∧ EndsIn H t b k
  any : ∀ id, FromAny H id → IsComplex G id ∧
    (baseOf G (.obj id) = some (.builtin AnyType) ∨ ∃ bid, baseOf G (.obj id) = some (.obj bid) ∧ FromAny H bid)

theorem Keep.refl (H : THeap) : Keep H H where
  ends := by
    intro id b k h
    cases h with
    | obj hb h => exact ⟨_, hb, h⟩
  any := by
    intro id h
    cases h with
    | base h1 h2 => exact ⟨⟨_, h1⟩, Or.inl (by simp only [baseOf, h1]; exact h2)⟩
    | step h1 h2 h3 => exact ⟨⟨_, h1⟩, Or.inr ⟨_, by simp only [baseOf, h1]; exact h2, h3⟩⟩

theorem Keep.endsIn {H G : THeap} (h : Keep H G) : ∀ {k : Nat} {x : Ty} {b : Builtin}, EndsIn H x b k → EndsIn G x b k := by
  intro k
  induction k with
  | zero =>
    intro x b hx
    cases hx with
    | builtin => exact .builtin ..
  | succ k ih =>
    intro x b hx
    cases x with
    | builtin y => cases hx; exact .builtin ..
    | link y => cases hx
    | obj id =>
      obtain ⟨t, ht, hk⟩ := h.ends id b k hx
      exact .obj ht (ih hk)

theorem Keep.fromAny {H G : THeap} (h : Keep H G) {id : Nat} (ha : FromAny H id) : ∃ c, G[id]? = some (.complex c) ∧
    (c.base = some (.builtin AnyType) ∨ ∃ bid, c.base = some (.obj bid) ∧ FromAny H bid) := by
  obtain ⟨⟨c, hc⟩, h2⟩ := h.any id ha
  simp only [baseOf, hc] at h2
  exact ⟨c, hc, h2⟩

/-- An object is replaced. -/
theorem Keep.put {H G : THeap} (h : Keep H G) {id : Nat} {o' : TObj}
    (hb : ∀ b k, EndsIn H (.obj id) b (k + 1) → ∃ t, o'.base = some t ∧ EndsIn H t b k)
    (ha : FromAny H id → (∃ c, o' = .complex c) ∧ (o'.base = some (.builtin AnyType) ∨ ∃ bid, o'.base = some (.obj bid) ∧ FromAny H bid)) :
    Keep H (G.set id o') := by
  by_cases hlt : id < G.length
  · have he : (G.set id o')[id]? = some o' := List.getElem?_set_self hlt
    constructor
    · intro k b n hk
      by_cases e : id = k
      · subst e
        simp only [baseOf, he]
        exact hb b n hk
      · simp only [baseOf, List.getElem?_set_ne e]
        exact h.ends k b n hk
    · intro k hk
      by_cases e : id = k
      · subst e
        obtain ⟨⟨c, rfl⟩, h2⟩ := ha hk
        simp only [IsComplex, baseOf, he]
        exact ⟨⟨c, rfl⟩, h2⟩
      · simp only [IsComplex, baseOf, List.getElem?_set_ne e]
        exact h.any k hk
  · rw [List.set_eq_of_length_le (Nat.not_lt.mp hlt)]
    exact h

/-- An object is replaced by one of the same kind with the same base. -/
theorem Keep.putSame {H G : THeap} (h : Keep H G) {id : Nat} {c c' : ComplexT} (hc : G[id]? = some (.complex c)) (hb : c'.base = c.base) :
    Keep H (G.set id (.complex c')) := by
  refine h.put ?_ ?_
  · intro b k hk
    obtain ⟨t, ht, h2⟩ := h.ends id b k hk
    simp only [baseOf, hc] at ht
    exact ⟨t, by rw [← ht]; exact hb, h2⟩
  · intro ha
    obtain ⟨-, h2⟩ := h.any id ha
    simp only [baseOf, hc, TObj.base] at h2
    refine ⟨⟨_, rfl⟩, ?_⟩
    simp only [TObj.base]
    rw [hb]
    exact h2

theorem Keep.ext {H G K : THeap} (h : Keep H G) (he : Ext G K) : Keep H K := by
  cases he with
  | same => exact h
  | grow h1 h2 h3 h4 h5 h6 => exact h.putSame h1 h6

theorem Keep.exts {H G K : THeap} (h : Keep H G) (he : Exts G K) : Keep H K := he.keep (Keep H) (fun _ _ e k => k.ext e) h

/-! ### Simple types -/

theorem baseChain_builtin {G : THeap} {t : Ty} {b : Builtin} {k : Nat} (he : EndsIn G t b k) : ∀ {n : Nat} {o : Option Builtin}
    {r : List Ty × Option Builtin}, baseChain G n o (some t) = .ok r → r.2 = some b := by
  induction he with
  | builtin b k =>
    intro n o r h
    cases n with
    | zero => cases h
    | succ n => cases h; rfl
  | @obj id t b k hb _ ih =>
    intro n o r h
    cases n with
    | zero => cases h
    | succ n =>
      simp only [baseChain] at h
      obtain ⟨q, hq, h⟩ := bind_ok h
      cases h
      rw [hb] at hq
      exact ih (r := q) hq

theorem baseChain_builtin_mem {G : THeap} : ∀ {n : Nat} {o : Option Builtin} {t : Option Ty} {r : List Ty × Option Builtin},
    baseChain G n o t = .ok r → ∀ j, Ty.obj j ∈ r.1 → ∀ b k, EndsIn G (.obj j) b k → r.2 = some b := by
  intro n
  induction n with
  | zero => intro o t r h; cases h
  | succ n ih =>
    intro o t r h j hj b k hk
    cases t with
    | none => cases h; cases hj
    | some t =>
      cases t with
      | builtin x => cases h; cases hj
      | link x =>
        simp only [baseChain] at h
        obtain ⟨q, hq, h⟩ := bind_ok h
        cases h
        rcases List.mem_cons.mp hj with e | hj
        · cases e
        · exact ih hq j hj b k hk
      | obj x =>
        have h0 := h
        simp only [baseChain] at h
        obtain ⟨q, hq, h⟩ := bind_ok h
        cases h
        rcases List.mem_cons.mp hj with e | hj
        · cases e
          exact baseChain_builtin hk h0
        · exact ih hq j hj b k hk

theorem Keep.setSimple {H G : THeap} (h : Keep H G) {b : Option Ty} {t : Ty}
    (hb : ∀ j, t = .obj j → ∀ x k, EndsIn H (.obj j) x (k + 1) → b = some (.builtin x)) : Keep H (setSimpleBase b G t) := by
  unfold setSimpleBase
  split
  · rename_i id
    split
    · rename_i s hs
      refine h.put ?_ ?_
      · intro x k hk
        exact ⟨_, hb id rfl x k hk, .builtin ..⟩
      · intro ha
        obtain ⟨⟨c, hc⟩, -⟩ := h.any id ha
        rw [hs] at hc
        cases hc
    · exact h
  · exact h

theorem Keep.setSimples {H : THeap} {b : Option Ty} : ∀ (l : List Ty) {G : THeap}, Keep H G →
    (∀ j, Ty.obj j ∈ l → ∀ x k, EndsIn H (.obj j) x (k + 1) → b = some (.builtin x)) → Keep H (l.foldl (setSimpleBase b) G) := by
  intro l
  induction l with
  | nil => exact fun h _ => h
  | cons t l ih =>
    intro G h hb
    refine ih (h.setSimple ?_) (fun j hj => hb j (List.mem_cons_of_mem _ hj))
    intro j hj
    exact hb j (hj ▸ List.mem_cons_self ..)

theorem flattenSimple_keep {H G : THeap} (h : Keep H G) {n id : Nat} {s : SimpleT} {r : Flat} (hs : G[id]? = some (.simple s))
    (hr : flattenSimple n G id s = .ok r) : Keep H r.1 ∧
      ∀ b k, EndsIn H (.obj id) b k → (r.2.2 = some (.obj id) ∨ r.2.2 = some (.builtin b)) ∧
        (nonTrivialBuiltin (some (.builtin b)) = true → r.2.2 = some (.obj id)) ∧
        (s.list = false → s.union = [] → keptDoc s.restriction = none → nonTrivialBuiltin (some (.builtin b)) = false → r.2.2 = some (.builtin b)) := by
  obtain ⟨q, hq, hr⟩ := bind_ok hr
  have hb0 : baseOf G (.obj id) = s.base := by simp only [baseOf, hs, TObj.base]
  have hself : ∀ x k, EndsIn H (.obj id) x k → q.2 = some x := by
    intro x k hk
    obtain ⟨j, rfl⟩ := hk.succ
    obtain ⟨t, ht, hk'⟩ := h.ends id x j hk
    rw [hb0] at ht
    rw [ht] at hq
    exact baseChain_builtin (h.endsIn hk') hq
  have hall : ∀ j, Ty.obj j ∈ q.1.filter (isSimple G) → ∀ x k, EndsIn H (.obj j) x (k + 1) → q.2.map Ty.builtin = some (.builtin x) := by
    intro j hj x k hk
    rw [baseChain_builtin_mem hq j (List.mem_filter.mp hj).1 x _ (h.endsIn hk)]
    rfl
  have hno : ¬ FromAny H id := by
    intro ha
    obtain ⟨⟨c, hc⟩, -⟩ := h.any id ha
    rw [hs] at hc
    cases hc
  have k1 : Keep H (setSimpleBase (q.2.map Ty.builtin) ((q.1.filter (isSimple G)).foldl (setSimpleBase (q.2.map Ty.builtin)) G) (.obj id)) := by
    refine (Keep.setSimples _ h hall).setSimple ?_
    intro j hj x k hk
    cases hj
    rw [hself x _ hk]
    rfl
  dsimp only at hr
  split at hr
  · rename_i hcond
    cases hr
    refine ⟨k1, fun b k hk => ⟨Or.inl rfl, fun _ => rfl, ?_⟩⟩
    intro h1 h2 h3 h4
    rw [hself b k hk] at hcond
    simp [h1, h2, h4] at hcond
  · rename_i hcond
    split at hr
    · rename_i d hd
      cases hr
      refine ⟨k1.put ?_ (fun ha => absurd ha hno), fun b k hk => ⟨Or.inl rfl, fun _ => rfl, ?_⟩⟩
      · intro b k hk
        refine ⟨_, ?_, .builtin b k⟩
        simp only [TObj.base]
        rw [hself b _ hk]
        rfl
      · intro _ _ h3
        rw [h3] at hd
        cases hd
    · cases hr
      refine ⟨k1, fun b k hk => ?_⟩
      rw [hself b k hk] at hcond ⊢
      refine ⟨Or.inr rfl, ?_, fun _ _ _ _ => rfl⟩
      intro hnt
      exact absurd (Or.inr (Or.inr hnt)) hcond

/-! ### flatten1 -/

/-- What the calls do. -/
def Keeps (H : THeap) (recur : THeap → Option Ty → Run Flat) : Prop :=
  ∀ G t r, Keep H G → recur G t = .ok r → Keep H r.1 ∧
    (∀ v b k, t = some v → EndsIn H v b k → ∃ u, r.2.2 = some u ∧ EndsIn H u b k) ∧
    ∀ id, t = some (.obj id) → FromAny H id → r.2.2 = some (.obj id)

theorem fieldLoop_keep {H : THeap} {recur : THeap → Option Ty → Run Flat} {get : THeap → Nat → Option Ty} {set : THeap → Nat → Ty → THeap}
    (hrec : Keeps H recur) (hset : ∀ G i t, Keep H G → Keep H (set G i t)) : ∀ (is : List Nat) (G : THeap) (r : THeap × List Ty),
    Keep H G → fieldLoop recur get set is G = .ok r → Keep H r.1 := by
  intro is
  induction is with
  | nil => intro G r h hr; cases hr; exact h
  | cons i is ih =>
    intro G r h hr
    obtain ⟨q, hq, hr⟩ := bind_ok hr
    split at hr
    · cases hr
    · obtain ⟨p, hp, hr⟩ := bind_ok hr
      cases hr
      exact ih _ p (hset _ _ _ (hrec _ _ _ h hq).1) hp

theorem Keep.setElem {H G : THeap} (h : Keep H G) (id i : Nat) (t : Ty) : Keep H (setElemType G id i t) := by
  unfold setElemType
  split
  · rename_i c hc; exact h.putSame hc rfl
  · exact h

theorem Keep.setAttr {H G : THeap} (h : Keep H G) (id i : Nat) (t : Ty) : Keep H (setAttrType G id i t) := by
  unfold setAttrType
  split
  · rename_i c hc; exact h.putSame hc rfl
  · exact h

theorem flattenComplex_keep {H : THeap} {recur : THeap → Option Ty → Run Flat} (hrec : Keeps H recur) {G : THeap} (h : Keep H G) {id : Nat}
    {c : ComplexT} {r : Flat} (hr : flattenComplex recur G id c = .ok r) : Keep H r.1 := by
  obtain ⟨e, he, hr⟩ := bind_ok hr
  obtain ⟨a, ha, hr⟩ := bind_ok hr
  obtain ⟨b, hb, hr⟩ := bind_ok hr
  have k1 := fieldLoop_keep hrec (fun G i t k => k.setElem id i t) _ _ _ h he
  have k2 := fieldLoop_keep hrec (fun G i t k => k.setAttr id i t) _ _ _ k1 ha
  obtain ⟨k3, k4, k5⟩ := hrec _ _ _ k2 hb
  split at hr
  · cases hr
  · rename_i t ht
    cases hr
    show Keep H (setComplexBase b.1 id t)
    unfold setComplexBase
    split
    · rename_i x hx
      refine k3.put ?_ ?_
      · intro y k hk
        obtain ⟨v, hv, hk'⟩ := k2.ends id y k hk
        obtain ⟨u, hu, hk''⟩ := k4 v y k hv hk'
        rw [ht] at hu
        cases hu
        exact ⟨t, rfl, hk''⟩
      · intro hany
        refine ⟨⟨_, rfl⟩, ?_⟩
        simp only [TObj.base]
        rcases (k2.any id hany).2 with h1 | ⟨bid, h1, h2⟩
        · obtain ⟨u, hu, hk''⟩ := k4 _ AnyType 0 h1 (.builtin ..)
          rw [ht] at hu
          cases hu
          cases hk''
          exact Or.inl rfl
        · have := k5 bid h1 h2
          rw [ht] at this
          cases this
          exact Or.inr ⟨bid, rfl, h2⟩
    · exact k3

theorem flatten1_keep (cfg : Config) (n : Nat) (H : THeap) : ∀ d, Keeps H (flatten1 cfg n d) := by
  intro d
  induction d with
  | zero =>
    intro G t r h hr
    cases hr
    exact ⟨h, fun v b k hv hk => ⟨v, hv, hk⟩, fun id hid _ => hid⟩
  | succ d ih =>
    intro G t r h hr
    cases t with
    | none => cases hr
    | some t =>
      cases t with
      | link x => cases hr
      | builtin x => cases hr; exact ⟨h, fun v b k hv hk => ⟨v, hv, hk⟩, fun id hid _ => hid⟩
      | obj id =>
        have hcomplex : ∀ c, G[id]? = some (.complex c) → flattenComplex (flatten1 cfg n d) G id c = .ok r → Keep H r.1 ∧
            (∀ v b k, some (Ty.obj id) = some v → EndsIn H v b k → ∃ u, r.2.2 = some u ∧ EndsIn H u b k) ∧
            ∀ id', some (Ty.obj id) = some (.obj id') → FromAny H id' → r.2.2 = some (.obj id') := by
          intro c hc hr
          have hres := flattenComplex_result hr
          refine ⟨flattenComplex_keep ih h hr, ?_, ?_⟩
          · intro v b k hv hk
            cases hv
            exact ⟨_, hres, hk⟩
          · intro id' e _
            cases e
            exact hres
        simp only [flatten1] at hr
        split at hr
        · cases hr
        · rename_i s hs
          obtain ⟨k1, k2⟩ := flattenSimple_keep h hs hr
          refine ⟨k1, ?_, ?_⟩
          · intro v b k hv hk
            cases hv
            rcases (k2 b k hk).1 with e | e
            · exact ⟨_, e, hk⟩
            · exact ⟨_, e, .builtin ..⟩
          · intro id' e ha
            cases e
            obtain ⟨⟨c, hc⟩, -⟩ := h.any id ha
            rw [hs] at hc
            cases hc
        · rename_i c hc
          split at hr
          · rename_i b hb
            split at hr
            · rename_i hcond
              cases hr
              refine ⟨h, ?_, ?_⟩
              · intro v x k hv hk
                cases hv
                obtain ⟨j, rfl⟩ := hk.succ
                obtain ⟨t, ht, hk'⟩ := h.ends id x j hk
                simp only [baseOf, hc, TObj.base, hb] at ht
                cases ht
                cases hk'
                exact ⟨_, rfl, .builtin ..⟩
              · intro id' e ha
                cases e
                obtain ⟨c', hc', h2⟩ := h.fromAny ha
                rw [hc] at hc'
                cases hc'
                rw [hb] at h2
                rcases h2 with h2 | ⟨_, h2, -⟩
                · cases h2; exact absurd rfl hcond.1
                · cases h2
            · exact hcomplex c hc hr
          · rename_i bid hb
            split at hr
            · rename_i hcond
              obtain ⟨k1, k2, k3⟩ := ih _ _ _ h hr
              refine ⟨k1, ?_, ?_⟩
              · intro v x k hv hk
                cases hv
                obtain ⟨j, rfl⟩ := hk.succ
                obtain ⟨t, ht, hk'⟩ := h.ends id x j hk
                simp only [baseOf, hc, TObj.base, hb] at ht
                cases ht
                obtain ⟨u, hu, hk''⟩ := k2 _ x j rfl hk'
                exact ⟨u, hu, hk''.mono⟩
              · intro id' e ha
                cases e
                obtain ⟨c', hc', h2⟩ := h.fromAny ha
                rw [hc] at hc'
                cases hc'
                rw [hb] at h2
                rcases h2 with h2 | ⟨bid', h2, h3⟩
                · cases h2
                · cases h2
                  obtain ⟨⟨x, hx⟩, -⟩ := h.any bid h3
                  have := hcond.1
                  simp only [isSimple, hx] at this
                  cases this
            · exact hcomplex c hc hr
          · exact hcomplex c hc hr

end GoXml.Xsdgen
