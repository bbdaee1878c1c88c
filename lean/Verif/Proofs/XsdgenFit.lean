import Verif.Proofs.XsdgenFlow
set_option autoImplicit false

/-! What `flatten1` passes on has local conditions, if types are not recursive. -/

namespace GoXml.Xsdgen
open Xsd

/-- Every type is of higher rank than those that its definition refers to. -/
def Ranked (rk : Nat → Nat) (H : THeap) : Prop := ∀ a b, Uses H a b → rk b < rk a

theorem Ranked.ancestor {rk : Nat → Nat} {H : THeap} (h : Ranked rk H) {x y : Ty} (ha : Ancestor H x y) :
    ∀ i j, x = .obj i → y = .obj j → rk j ≤ rk i := by
  induction ha with
  | self t => rintro i j rfl h; cases h; exact Nat.le_refl _
  | @base t b a hb hr ih =>
    rintro i j rfl hj
    cases b with
    | builtin x => subst hj; cases builtin_ancestor hr
    | link x =>
      subst hj
      cases hr with
      | base h1 _ => cases h1
    | obj k => exact Nat.le_trans (ih k j rfl hj) (Nat.le_of_lt (h _ _ (.base hb)))

theorem Types.ranked {rk : Nat → Nat} {H : THeap} {Q : Nat → Prop} {xs ys : List Ty} (hr : Ranked rk H) (h : Types H Q xs ys) {a b : Nat}
    (hb : Ty.obj b ∈ ys) (hx : ∀ y, Ty.obj y ∈ xs → rk y < rk a) : rk b < rk a := by
  obtain ⟨i, hi⟩ := List.mem_iff_getElem?.mp hb
  rcases h.at_ i _ hi with h | ⟨_, h⟩
  · exact hx b (List.mem_of_getElem? h)
  · obtain ⟨y, hy, hay⟩ := h b rfl
    exact Nat.lt_of_le_of_lt (hr.ancestor hay y b rfl rfl) (hx y (List.mem_of_getElem? hy))

theorem Flow.ranked {rk : Nat → Nat} {H H' : THeap} {Q : Nat → Prop} (h : Flow H H' Q) (hr : Ranked rk H) : Ranked rk H' := by
  intro a b hu
  cases hu with
  | base hb =>
    rcases h.bases a _ hb with h | ⟨c, hc, hanc⟩
    · cases h
    · obtain ⟨k, rfl⟩ := ancestor_obj hanc
      exact Nat.lt_of_le_of_lt (hr.ancestor hanc k b rfl rfl) (hr _ _ (.base hc))
  | elem hc' he ht =>
    obtain ⟨o, ho, hch⟩ := h.change a _ hc'
    cases o with
    | simple _ => cases hch
    | complex c =>
      refine hch.2.2.1.ranked hr (b := b) (List.mem_map.mpr ⟨_, he, ht⟩) ?_
      intro y hy
      obtain ⟨e', he', ht'⟩ := List.mem_map.mp hy
      exact hr _ _ (.elem ho he' ht')
  | attr hc' he ht =>
    obtain ⟨o, ho, hch⟩ := h.change a _ hc'
    cases o with
    | simple _ => cases hch
    | complex c =>
      refine hch.2.2.2.1.ranked hr (b := b) (List.mem_map.mpr ⟨_, he, ht⟩) ?_
      intro y hy
      obtain ⟨e', he', ht'⟩ := List.mem_map.mp hy
      exact hr _ _ (.attr ho he' ht')

/-- A change to another object. -/
theorem Fit.off {G G' : THeap} {P : Nat → Prop} {id k : Nat} (h : Fit G P k) (hk : ¬ Ancestor G (.obj k) (.obj id))
    (hoff : ∀ j, j ≠ id → G'[j]? = G[j]?) : Fit G' P k := by
  have key : ∀ {x y : Ty}, Ancestor G' x y → ¬ Ancestor G x (.obj id) → Ancestor G x y := by
    intro x y hxy
    induction hxy with
    | self t => exact fun _ => .self _
    | @base t b a hb hr ih =>
      intro hn
      have hb' : baseOf G t = some b := by
        cases t with
        | builtin _ => exact hb
        | link _ => exact hb
        | obj i =>
          have hne : i ≠ id := fun e => hn (e ▸ .self _)
          simpa only [baseOf, hoff i hne] using hb
      exact .base hb' (ih fun h => hn (.base hb' h))
  intro a ha
  have ha' := key ha hk
  obtain ⟨o, ho, hl⟩ := h a ha'
  refine ⟨o, ?_, hl⟩
  rw [hoff a fun e => hk (e ▸ ha')]
  exact ho

def Fits (rk : Nat → Nat) (d : Nat) (recur : THeap → Option Ty → Run Flat) : Prop :=
  ∀ H t r, Linked H → Ranked rk H → (∀ v, t = some v → NotLink v) → (∀ id, t = some (.obj id) → rk id < d) → recur H t = .ok r →
    ∀ j, (Ty.obj j ∈ r.2.1 ∨ r.2.2 = some (.obj j)) → Fit r.1 (Pushed r.2.1) j ∧ ∃ id, t = some (.obj id) ∧ rk j ≤ rk id

theorem fieldLoop_fits {rk : Nat → Nat} {d : Nat} {recur : THeap → Option Ty → Run Flat} {get : THeap → Nat → Option Ty}
    {set : THeap → Nat → Ty → THeap} {id : Nat} (hrec : Flows recur) (hfit : Fits rk d recur) (hacc : Access get set)
    (hoff : ∀ H i t j, j ≠ id → (set H i t)[j]? = H[j]?) (huse : ∀ H i y, get H i = some (.obj y) → Uses H id y) (hd : rk id ≤ d) :
    ∀ (is : List Nat) (H : THeap) (r : THeap × List Ty), Linked H → Ranked rk H → fieldLoop recur get set is H = .ok r →
      ∀ j, Ty.obj j ∈ r.2 → Fit r.1 (Pushed r.2) j ∧ rk j < rk id := by
  intro is
  induction is with
  | nil =>
    intro H r hl hr h
    cases h
    intro j hj
    cases hj
  | cons i is ih =>
    intro H r hl hr h
    obtain ⟨q, hq, h⟩ := bind_ok h
    have hget : ∀ v, get H i = some v → NotLink v := fun v hv => hacc.linked H i v hl hv
    have hgd : ∀ y, get H i = some (.obj y) → rk y < rk id := fun y hy => hr _ _ (huse H i y hy)
    obtain ⟨k1, k2⟩ := hrec H _ q hl hget hq
    have k3 := hfit H _ q hl hr hget (fun y hy => Nat.lt_of_lt_of_le (hgd y hy) hd) hq
    obtain ⟨q1, q2, q3⟩ := q
    cases q3 with
    | none => cases h
    | some t =>
      obtain ⟨p, hp, h⟩ := bind_ok h
      cases h
      obtain ⟨hn, ha⟩ := k2 t rfl
      have hcov : Cov (Pushed (q2 ++ [t])) t := cov_of_mem (by simp) hn
      have f1 : Flow H (set q1 i t) (Pushed (q2 ++ [t])) := hacc.put _ _ _ i t (k1.mono pushed_left) hcov (ResOk.obj ha)
      obtain ⟨f2, _⟩ := fieldLoop_flow hrec hacc _ _ _ (f1.linked hl) hp
      have hr1 : Ranked rk q1 := k1.ranked hr
      have e : q2 ++ t :: p.2 = (q2 ++ [t]) ++ p.2 := by simp
      intro j hj
      have hgoal : Fit p.1 (Pushed ((q2 ++ [t]) ++ p.2)) j ∧ rk j < rk id := by
        have hj : Ty.obj j ∈ (q2 ++ [t]) ++ p.2 := by rw [← e]; exact hj
        rcases List.mem_append.mp hj with hj | hj
        · have hj' : Ty.obj j ∈ q2 ∨ some t = some (Ty.obj j) := by
            rcases List.mem_append.mp hj with hj | hj
            · exact Or.inl hj
            · simp only [List.mem_singleton] at hj
              exact Or.inr (by rw [hj])
          obtain ⟨g1, y, hy, hle⟩ := k3 j hj'
          have hlt : rk j < rk id := Nat.lt_of_le_of_lt hle (hgd y hy)
          refine ⟨?_, hlt⟩
          have g2 : Fit (set q1 i t) (Pushed q2) j := by
            refine Fit.off g1 ?_ (fun k hk => hoff q1 i t k hk)
            intro hanc
            exact absurd (hr1.ancestor hanc j id rfl rfl) (by omega)
          exact f2.fit (fun k hk => pushed_left k (pushed_left k hk)) pushed_right g2
        · obtain ⟨g1, g2⟩ := ih _ _ (f1.linked hl) (f1.ranked hr) hp j hj
          exact ⟨g1.mono pushed_right, g2⟩
      rw [← e] at hgoal
      exact hgoal

theorem setComplexBase_off (G : THeap) (id : Nat) (t : Ty) (j : Nat) (hj : j ≠ id) : (setComplexBase G id t)[j]? = G[j]? := by
  unfold setComplexBase
  split
  · exact List.getElem?_set_ne (Ne.symm hj)
  · rfl

theorem setElemType_off (G : THeap) (id i : Nat) (t : Ty) (j : Nat) (hj : j ≠ id) : (setElemType G id i t)[j]? = G[j]? := by
  unfold setElemType
  split
  · exact List.getElem?_set_ne (Ne.symm hj)
  · rfl

theorem setAttrType_off (G : THeap) (id i : Nat) (t : Ty) (j : Nat) (hj : j ≠ id) : (setAttrType G id i t)[j]? = G[j]? := by
  unfold setAttrType
  split
  · exact List.getElem?_set_ne (Ne.symm hj)
  · rfl

theorem elemType_uses {H : THeap} {id i y : Nat} (h : elemType H id i = some (.obj y)) : Uses H id y := by
  simp only [elemType] at h
  split at h
  · rename_i c hc
    obtain ⟨e, he, ht⟩ := Option.map_eq_some_iff.mp h
    exact .elem hc (List.mem_of_getElem? he) ht
  · cases h

theorem attrType_uses {H : THeap} {id i y : Nat} (h : attrType H id i = some (.obj y)) : Uses H id y := by
  simp only [attrType] at h
  split at h
  · rename_i c hc
    obtain ⟨e, he, ht⟩ := Option.map_eq_some_iff.mp h
    exact .attr hc (List.mem_of_getElem? he) ht
  · cases h

theorem flattenComplex_fits {rk : Nat → Nat} {d : Nat} {recur : THeap → Option Ty → Run Flat} (hrec : Flows recur)
    (hfit : Fits rk d recur) {H : THeap} {id : Nat} {c : ComplexT} {r : Flat} (hl : Linked H) (hr : Ranked rk H)
    (hc : H[id]? = some (.complex c)) (hd : rk id ≤ d) (h : flattenComplex recur H id c = .ok r) :
    ∀ j, (Ty.obj j ∈ r.2.1 ∨ r.2.2 = some (.obj j)) → Fit r.1 (Pushed r.2.1) j ∧ rk j ≤ rk id := by
  obtain ⟨hflow, hres, hloc⟩ := flattenComplex_flow hrec hl hc h
  obtain ⟨e, he, h⟩ := bind_ok h
  obtain ⟨a, ha, h⟩ := bind_ok h
  obtain ⟨b, hb, h⟩ := bind_ok h
  obtain ⟨f1, _⟩ := fieldLoop_flow hrec (access_elem id) _ _ _ hl he
  obtain ⟨f2, _⟩ := fieldLoop_flow hrec (access_attr id) _ _ _ (f1.linked hl) ha
  have p1 := fieldLoop_fits hrec hfit (access_elem id) (fun G i t j hj => setElemType_off G id i t j hj) (fun G i y hy => elemType_uses hy) hd
    _ _ _ hl hr he
  have p2 := fieldLoop_fits hrec hfit (access_attr id) (fun G i t j hj => setAttrType_off G id i t j hj) (fun G i y hy => attrType_uses hy) hd
    _ _ _ (f1.linked hl) (f1.ranked hr) ha
  have hl2 := f2.linked (f1.linked hl)
  have hr2 := f2.ranked (f1.ranked hr)
  have hbl : ∀ v, baseOf a.1 (.obj id) = some v → NotLink v := by
    intro v hv
    obtain ⟨o1, ho1, g1⟩ := f1.get hc
    cases o1 with
    | simple _ => cases g1
    | complex x1 =>
      obtain ⟨o2, ho2, g2⟩ := f2.get ho1
      cases o2 with
      | simple _ => cases g2
      | complex x2 =>
        simp only [baseOf, ho2, TObj.base] at hv
        exact (hl2 id x2 ho2).2.2 v hv
  have hbd : ∀ y, baseOf a.1 (.obj id) = some (.obj y) → rk y < rk id := fun y hy => hr2 _ _ (.base hy)
  obtain ⟨f3, r3⟩ := hrec a.1 _ b hl2 hbl hb
  have p3 := hfit a.1 _ b hl2 hr2 hbl (fun y hy => Nat.lt_of_lt_of_le (hbd y hy) hd) hb
  have hr3 : Ranked rk b.1 := f3.ranked hr2
  obtain ⟨b1, b2, b3⟩ := b
  cases b3 with
  | none => cases h
  | some t =>
    cases h
    obtain ⟨hn, hanc⟩ := r3 t rfl
    have f3' : Flow a.1 (setComplexBase b1 id t) (Pushed (b2 ++ if c.mixed then [t] else [])) := by
      refine (f3.mono pushed_left).setBase id t hn ?_ ?_
      · intro x hx hm
        have : x.mixed = c.mixed := by
          obtain ⟨o, ho, g⟩ := (f1.trans (R := fun _ => True) (fun _ _ => trivial) (fun _ _ => trivial) f2).change id _ hx
          rw [hc] at ho
          cases ho
          exact g.2.1
        rw [this] at hm
        exact cov_of_mem (by simp [hm]) hn
      · exact hanc
    -- those passed on for the base
    have hbase : ∀ j, (Ty.obj j ∈ b2 ∨ some t = some (Ty.obj j)) →
        Fit (setComplexBase b1 id t) (Pushed (e.2 ++ a.2 ++ b2 ++ if c.mixed then [t] else [])) j ∧ rk j ≤ rk id := by
      intro j hj
      obtain ⟨g1, y, hy, hle⟩ := p3 j hj
      have hlt : rk j < rk id := Nat.lt_of_le_of_lt hle (hbd y hy)
      refine ⟨?_, Nat.le_of_lt hlt⟩
      have g2 : Fit (setComplexBase b1 id t) (Pushed b2) j := by
        refine Fit.off g1 ?_ (fun k hk => setComplexBase_off b1 id t k hk)
        intro hanc
        exact absurd (hr3.ancestor hanc j id rfl rfl) (by omega)
      refine g2.mono ?_
      intro k hk
      exact pushed_left k (pushed_right k hk)
    intro j hj
    rcases hj with hj | hj
    · simp only [List.mem_append] at hj
      rcases hj with ((hj | hj) | hj) | hj
      · obtain ⟨g1, g2⟩ := p1 j hj
        refine ⟨?_, Nat.le_of_lt g2⟩
        have g3 := (f2.trans (R := Pushed (a.2 ++ (b2 ++ if c.mixed then [t] else []))) pushed_left pushed_right f3').fit
          (R := Pushed (e.2 ++ a.2 ++ b2 ++ if c.mixed then [t] else [])) ?_ ?_ g1
        · exact g3
        · intro k hk
          exact pushed_left k (pushed_left k (pushed_left k hk))
        · intro k hk
          simp only [Pushed, List.mem_append] at hk ⊢
          tauto
      · obtain ⟨g1, g2⟩ := p2 j hj
        refine ⟨?_, Nat.le_of_lt g2⟩
        refine f3'.fit ?_ ?_ g1
        · intro k hk
          simp only [Pushed, List.mem_append] at hk ⊢
          tauto
        · intro k hk
          simp only [Pushed, List.mem_append] at hk ⊢
          tauto
      · exact hbase j (Or.inl hj)
      · refine hbase j (Or.inr ?_)
        by_cases hm : c.mixed
        · simp only [hm, if_true, List.mem_singleton] at hj
          rw [hj]
        · simp [hm] at hj
    · cases hj
      refine ⟨?_, Nat.le_refl _⟩
      intro x hx
      generalize hG : setComplexBase b1 id t = G at *
      cases hx with
      | self => exact hloc
      | @base _ u _ hu hux =>
        have : u = t := by
          obtain ⟨o, ho, _⟩ := hloc
          have hx : ∃ x, b1[id]? = some (.complex x) := by
            obtain ⟨o2, ho2, g2⟩ := f1.get hc
            cases o2 with
            | simple _ => cases g2
            | complex x2 =>
              obtain ⟨o3, ho3, g3⟩ := f2.get ho2
              cases o3 with
              | simple _ => cases g3
              | complex x3 =>
                obtain ⟨o4, ho4, g4⟩ := f3.get ho3
                cases o4 with
                | simple _ => cases g4
                | complex x4 => exact ⟨x4, ho4⟩
          obtain ⟨x, hx⟩ := hx
          have hlt := (List.getElem?_eq_some_iff.mp hx).1
          simp only [setComplexBase, hx] at hG
          subst hG
          simp only [baseOf, List.getElem?_set_self hlt, TObj.base, Option.some.injEq] at hu
          exact hu.symm
        subst this
        cases u with
        | builtin x => cases builtin_ancestor hux
        | link x => cases hn
        | obj k => exact (hbase k (Or.inr rfl)).1 x hux

theorem flatten1_fits (rk : Nat → Nat) (cfg : Config) (n : Nat) : ∀ d, Fits rk d (flatten1 cfg n d) := by
  intro d
  induction d with
  | zero =>
    intro H t r hl hr ht hd h
    cases h
    intro j hj
    rcases hj with hj | hj
    · cases hj
    · exact absurd (hd j hj) (Nat.not_lt_zero _)
  | succ d ih =>
    intro H t r hl hr ht hd h
    cases t with
    | none => cases h
    | some t =>
      cases t with
      | link x => cases h
      | builtin b =>
        cases h
        intro j hj
        rcases hj with hj | hj
        · cases hj
        · cases hj
      | obj id =>
        have hid : rk id ≤ d := Nat.le_of_lt_succ (hd id rfl)
        have hcomplex : ∀ c, H[id]? = some (.complex c) → flattenComplex (flatten1 cfg n d) H id c = .ok r →
            ∀ j, (Ty.obj j ∈ r.2.1 ∨ r.2.2 = some (.obj j)) → Fit r.1 (Pushed r.2.1) j ∧ ∃ i, some (Ty.obj id) = some (Ty.obj i) ∧ rk j ≤ rk i := by
          intro c hc h j hj
          obtain ⟨g1, g2⟩ := flattenComplex_fits (flatten1_flow cfg n d) ih hl hr hc hid h j hj
          exact ⟨g1, id, rfl, g2⟩
        simp only [flatten1] at h
        split at h
        · cases h
        · rename_i s hs
          obtain ⟨k1, k2, k3⟩ := flattenSimple_spec hs h
          have hpush : ∀ j, Ty.obj j ∈ r.2.1 → Ancestor H (.obj id) (.obj j) := by
            obtain ⟨q, hq, h⟩ := bind_ok h
            have hsub : r.2.1 = q.1.filter (isSimple H) := by
              dsimp only at h
              split at h
              · cases h; rfl
              · split at h <;> cases h <;> rfl
            intro j hj
            rw [hsub] at hj
            obtain ⟨t, ht, ha⟩ := baseChain_obj hq j (List.mem_filter.mp hj).1
            exact .base (by simp only [baseOf, hs, TObj.base]; exact ht) ha
          intro j hj
          have hj' : j = id ∨ Ty.obj j ∈ r.2.1 := by
            rcases hj with hj | hj
            · exact Or.inr hj
            · rcases k3 with k3 | k3
              · rw [k3] at hj; cases hj; exact Or.inl rfl
              · obtain ⟨x, hx⟩ := k3.1 _ hj
                cases hx
          have hanc : Ancestor H (.obj id) (.obj j) := by
            rcases hj' with rfl | hj
            · exact .self _
            · exact hpush j hj
          refine ⟨?_, id, rfl, hr.ancestor hanc id j rfl rfl⟩
          obtain ⟨s', hs', hp⟩ := k2 j hj'
          intro x hx
          cases hx with
          | self => exact ⟨_, hs', hp⟩
          | base hb hr' =>
            simp only [baseOf, hs', TObj.base] at hb
            obtain ⟨y, rfl⟩ := hp _ hb
            cases builtin_ancestor hr'
        · rename_i c hc
          split at h
          · split at h
            · cases h
              intro j hj
              rcases hj with hj | hj
              · cases hj
              · cases hj
            · exact hcomplex c hc h
          · rename_i bid hb
            split at h
            · have hlt : rk bid < rk id := hr _ _ (.base (by simp only [baseOf, hc, TObj.base, hb]))
              intro j hj
              obtain ⟨g1, i, hi, hle⟩ := ih _ _ _ hl hr (fun v hv => by cases hv; trivial)
                (fun i hi => by cases hi; omega) h j hj
              cases hi
              exact ⟨g1, id, rfl, Nat.le_of_lt (Nat.lt_of_le_of_lt hle hlt)⟩
            · exact hcomplex c hc h
          · exact hcomplex c hc h

end GoXml.Xsdgen
