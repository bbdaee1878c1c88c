import Verif.Spec.XsdResolve
import Verif.Proofs.XsdParse
set_option autoImplicit false

/-! Helper lemmas for the propagation of mixed content. -/

namespace GoXml.Xsd

theorem isMixed_complex {H : THeap} {id : Nat} {c : ComplexT} (h : H[id]? = some (.complex c)) :
    IsMixed H (.obj id) ↔ c.mixed = true ∨ (∃ b s, c.base = some (.obj b) ∧ H[b]? = some (.simple s)) ∨
      (∃ b, c.base = some b ∧ c.extends_ = true ∧ IsMixed H b) := by
  constructor
  · intro hm
    cases hm with
    | declared h1 h2 => rw [h] at h1; cases h1; exact Or.inl h2
    | simpleBase h1 h2 h3 => rw [h] at h1; cases h1; exact Or.inr (Or.inl ⟨_, _, h2, h3⟩)
    | extension h1 h2 h3 h4 => rw [h] at h1; cases h1; exact Or.inr (Or.inr ⟨_, h2, h3, h4⟩)
  · rintro (h1 | ⟨b, s, h1, h2⟩ | ⟨b, h1, h2, h3⟩)
    · exact .declared h h1
    · exact .simpleBase h h1 h2
    · exact .extension h h1 h2 h3

theorem isMixed_builtin {H : THeap} {b : Builtin} : IsMixed H (.builtin b) ↔ b = 0 := by
  constructor
  · intro h; cases h; rfl
  · rintro rfl; exact .any

theorem isMixed_simple {H : THeap} {id : Nat} {s : SimpleT} (h : H[id]? = some (.simple s)) : ¬ IsMixed H (.obj id) := by
  intro hm
  cases hm with
  | declared h1 => rw [h] at h1; cases h1
  | simpleBase h1 => rw [h] at h1; cases h1
  | extension h1 => rw [h] at h1; cases h1

open Classical in
/-- What an object becomes. -/
noncomputable def settled (H0 : THeap) (id : Nat) (o : TObj) : TObj := o.withMixed (decide (IsMixed H0 (.obj id)))

/-- The states that can occur: each object is as at first or as it will be. -/
def Between (H0 H : THeap) : Prop :=
  H.length = H0.length ∧ ∀ (id : Nat) o, H0[id]? = some o → H[id]? = some o ∨ H[id]? = some (settled H0 id o)

theorem withMixed_base (m : Bool) (o : TObj) : (o.withMixed m).base = o.base := by cases o <;> rfl

theorem between_base {H0 H : THeap} (hb : Between H0 H) (t : Ty) : baseOf H t = baseOf H0 t := by
  cases t with
  | builtin b => rfl
  | link n => rfl
  | obj id =>
    simp only [baseOf]
    cases h0 : H0[id]? with
    | none =>
      have : H[id]? = none := by rw [List.getElem?_eq_none_iff] at *; rw [hb.1]; exact h0
      simp [this]
    | some o =>
      rcases hb.2 id o h0 with h | h
      · simp [h]
      · simp only [h]; exact withMixed_base _ o

theorem onChain_obj {H : THeap} {id : Nat} {o : TObj} {b u : Ty} (h : H[id]? = some o) (hb : o.base = some b) :
    OnChain H (.obj id) u ↔ u = .obj id ∨ OnChain H b u := by
  constructor
  · intro hc
    cases hc with
    | refl => exact Or.inl rfl
    | step h1 h2 h3 => rw [h] at h1; cases h1; rw [hb] at h2; cases h2; exact Or.inr h3
  · rintro (rfl | hc)
    · exact .refl _
    · exact .step h hb hc

theorem onChain_last {H : THeap} {id : Nat} {o : TObj} {u : Ty} (h : H[id]? = some o) (hb : o.base = none) :
    OnChain H (.obj id) u ↔ u = .obj id := by
  constructor
  · intro hc
    cases hc with
    | refl => rfl
    | step h1 h2 h3 => rw [h] at h1; cases h1; rw [hb] at h2; cases h2
  · rintro rfl; exact .refl _

theorem settled_last {H0 : THeap} {id : Nat} {o : TObj} (h : H0[id]? = some o) (hb : o.base = none) : settled H0 id o = o := by
  cases o with
  | simple s => rfl
  | complex c =>
    have hm := isMixed_complex h
    have hb : c.base = none := hb
    simp only [hb, reduceCtorEq, false_and, exists_false, or_false] at hm
    unfold settled TObj.withMixed
    simp only [hm]
    cases c; simp

theorem propagate_step (H0 : THeap) (fuel : Nat) : ∀ (H : THeap) (t : Ty) (n : Nat), Between H0 H → Chain H0 n t → n ≤ fuel →
    ∃ H', propagateMixed fuel H t (baseOf H t) = some H' ∧ Between H0 H' ∧
      ∀ (id : Nat) o, H0[id]? = some o →
        (OnChain H0 t (.obj id) → H'[id]? = some (settled H0 id o)) ∧
        (¬ OnChain H0 t (.obj id) → H'[id]? = H[id]?) := by
  classical
  induction fuel with
  | zero =>
    intro H t n hb hc hn
    obtain rfl : n = 0 := by omega
    refine ⟨H, by rw [propagateMixed], hb, ?_⟩
    intro id o ho
    cases hc with
    | builtin _ b => exact ⟨fun h => (by cases h), fun _ => rfl⟩
    | last h1 h2 =>
      rename_i i o1
      rw [onChain_last h1 h2]
      refine ⟨?_, fun _ => rfl⟩
      intro he
      cases he
      have h1' := h1
      rw [ho] at h1'; cases h1'
      rw [settled_last ho h2]
      rcases hb.2 _ o ho with h | h
      · exact h
      · rw [h, settled_last ho h2]
  | succ fuel ih =>
    intro H t n hb hc hn
    rw [between_base hb]
    cases hc with
    | builtin _ b => exact ⟨H, rfl, hb, fun id o ho => ⟨fun h => (by cases h), fun _ => rfl⟩⟩
    | last h1 h2 =>
      rename_i i o1
      have : baseOf H0 (.obj i) = none := by simp only [baseOf, h1]; exact h2
      refine ⟨H, by rw [this, propagateMixed], hb, ?_⟩
      intro id o ho
      rw [onChain_last h1 h2]
      refine ⟨?_, fun _ => rfl⟩
      intro he
      cases he
      have h1' := h1
      rw [ho] at h1'; cases h1'
      rw [settled_last ho h2]
      rcases hb.2 _ _ ho with h | h
      · exact h
      · rw [h, settled_last ho h2]
    | step h1 h2 h3 =>
      rename_i n i o1 b
      have hbase : baseOf H0 (.obj i) = some b := by simp only [baseOf, h1]; exact h2
      obtain ⟨H1, e1, hb1, hH1⟩ := ih H b n hb h3 (by omega)
      rw [hbase, propagateMixed, e1]
      simp only
      -- reduce to the value of cell i
      suffices hs : ∃ H', (match H1[i]? with
            | some (.complex c) => if c.mixed then some H1 else (mixStep H1 c b).map fun c' => H1.set i (.complex c')
            | _ => some H1) = some H' ∧ H'.length = H1.length ∧ H'[i]? = some (settled H0 i o1) ∧
            ∀ j : Nat, j ≠ i → H'[j]? = H1[j]? by
        obtain ⟨H', e, hl, hi, hj⟩ := hs
        refine ⟨H', e, ⟨by rw [hl, hb1.1], ?_⟩, ?_⟩
        · intro id o ho
          by_cases hid : id = i
          · subst hid
            rw [ho] at h1; cases h1
            exact Or.inr hi
          · rw [hj id hid]; exact hb1.2 id o ho
        · intro id o ho
          rw [onChain_obj h1 h2]
          by_cases hid : id = i
          · subst hid
            rw [ho] at h1; cases h1
            exact ⟨fun _ => hi, fun h => absurd (Or.inl rfl) h⟩
          · rw [hj id hid]
            have hne : ¬ Ty.obj id = Ty.obj i := by simpa using hid
            simp only [hne, false_or]
            exact hH1 id o ho
      cases o1 with
      | simple s =>
        have hi1 : H1[i]? = some (.simple s) := by
          rcases hb1.2 i _ h1 with h | h
          · exact h
          · exact h
        rw [hi1]
        exact ⟨H1, rfl, rfl, hi1, fun _ _ => rfl⟩
      | complex c =>
        have hbc : c.base = some b := h2
        have hlt : i < H1.length := by rw [hb1.1]; exact (List.getElem?_eq_some_iff.mp h1).1
        have hc1 : ∃ c1, H1[i]? = some (.complex c1) ∧
            (c1 = c ∨ c1 = { c with mixed := decide (IsMixed H0 (.obj i)) }) := by
          rcases hb1.2 i _ h1 with h | h
          · exact ⟨c, h, Or.inl rfl⟩
          · exact ⟨_, h, Or.inr rfl⟩
        obtain ⟨c1, hi1, hc1⟩ := hc1
        rw [hi1]
        simp only
        by_cases hm1 : c1.mixed = true
        · rw [if_pos hm1]
          refine ⟨H1, rfl, rfl, ?_, fun _ _ => rfl⟩
          rw [hi1]
          rcases hc1 with rfl | rfl
          · have : IsMixed H0 (.obj i) := .declared h1 hm1
            unfold settled TObj.withMixed
            simp only [this, decide_true]
            cases c1; simp_all
          · rfl
        · rw [if_neg hm1]
          have hnm : c.mixed = false := by
            rcases hc1 with rfl | rfl
            · simpa using hm1
            · simp only [decide_eq_true_eq] at hm1
              by_contra hcm
              exact hm1 (.declared h1 (by simpa using hcm))
          have hc1c : c1 = c := by
            rcases hc1 with rfl | rfl
            · rfl
            · simp only [decide_eq_true_eq] at hm1
              cases c; simp_all
          subst hc1c
          have hmix := isMixed_complex h1
          simp only [hnm, Bool.false_eq_true, false_or, hbc, Option.some.injEq] at hmix
          have key : ∀ m : Bool, (m = true ↔ IsMixed H0 (.obj i)) → mixStep H1 c1 b = some { c1 with mixed := m } →
              ∃ H', (mixStep H1 c1 b).map (fun c' => H1.set i (.complex c')) = some H' ∧ H'.length = H1.length ∧
                H'[i]? = some (settled H0 i (.complex c1)) ∧ ∀ j : Nat, j ≠ i → H'[j]? = H1[j]? := by
            intro m hm he
            rw [he]
            refine ⟨_, rfl, by simp, ?_, ?_⟩
            · rw [List.getElem?_set_self hlt]
              unfold settled TObj.withMixed
              have : m = decide (IsMixed H0 (.obj i)) := by
                rw [Bool.eq_iff_iff, decide_eq_true_iff]; exact hm
              rw [this]
            · intro j hj
              rw [List.getElem?_set_ne (Ne.symm hj)]
          cases b with
          | builtin b0 =>
            have hmix : IsMixed H0 (.obj i) ↔ c1.extends_ = true ∧ b0 = 0 := by
              rw [hmix]
              constructor
              · rintro (⟨b, s, h, _⟩ | ⟨b, h, h5, h6⟩)
                · cases h
                · cases h; exact ⟨h5, isMixed_builtin.mp h6⟩
              · rintro ⟨h5, rfl⟩; exact Or.inr ⟨_, rfl, h5, .any⟩
            by_cases h0 : b0 = 0
            · subst h0
              apply key c1.extends_
              · rw [hmix]; simp
              · simp [mixStep, AnyType, hnm]
            · apply key false
              · rw [hmix]; simp [h0]
              · have : ¬ b0 = AnyType := h0
                simp only [mixStep, if_neg this]
                cases c1; simp_all
          | link n => cases h3
          | obj j =>
            have hj0 : ∃ oj, H0[j]? = some oj := by
              cases h3 with
              | last h _ => exact ⟨_, h⟩
              | step h _ _ => exact ⟨_, h⟩
            obtain ⟨oj, hj0⟩ := hj0
            have hj1 := (hH1 j oj hj0).1 (.refl _)
            cases oj with
            | simple s =>
              apply key true
              · rw [hmix]; simp only [true_iff]; exact Or.inl ⟨j, s, rfl, hj0⟩
              · have : H1[j]? = some (.simple s) := hj1
                simp [mixStep, this]
            | complex bc =>
              have hmix : IsMixed H0 (.obj i) ↔ c1.extends_ = true ∧ IsMixed H0 (.obj j) := by
                rw [hmix]
                constructor
                · rintro (⟨b, s, h, h'⟩ | ⟨b, h, h5, h6⟩)
                  · cases h; rw [hj0] at h'; cases h'
                  · cases h; exact ⟨h5, h6⟩
                · rintro ⟨h5, h6⟩; exact Or.inr ⟨_, rfl, h5, h6⟩
              have hj1 : H1[j]? = some (.complex { bc with mixed := decide (IsMixed H0 (.obj j)) }) := hj1
              by_cases he : c1.extends_ = true
              · apply key (decide (IsMixed H0 (.obj j)))
                · rw [hmix]; simp [he]
                · simp [mixStep, hj1, he]
              · apply key false
                · rw [hmix]; simp [he]
                · simp only [mixStep, hj1, if_neg he]
                  cases c1; simp_all

theorem between_refl (H0 : THeap) : Between H0 H0 := ⟨rfl, fun _ _ h => Or.inl h⟩

theorem propagateAll_eq (H0 : THeap) (ts : List Ty) : ∀ H : THeap, Between H0 H → (∀ t ∈ ts, Chain H0 1001 t) →
    ∃ H', propagateAll H ts = some H' ∧ Between H0 H' ∧
      ∀ (id : Nat) o, H0[id]? = some o →
        ((∃ t ∈ ts, OnChain H0 t (.obj id)) → H'[id]? = some (settled H0 id o)) ∧
        ((¬ ∃ t ∈ ts, OnChain H0 t (.obj id)) → H'[id]? = H[id]?) := by
  induction ts with
  | nil => intro H hb _; exact ⟨H, rfl, hb, fun id o ho => ⟨fun h => by simp at h, fun _ => rfl⟩⟩
  | cons t ts ih =>
    intro H hb hc
    obtain ⟨H1, e1, hb1, h1⟩ := propagate_step H0 1001 H t 1001 hb (hc t (by simp)) (Nat.le_refl _)
    obtain ⟨H2, e2, hb2, h2⟩ := ih H1 hb1 fun u hu => hc u (by simp [hu])
    refine ⟨H2, by rw [propagateAll, e1]; exact e2, hb2, ?_⟩
    intro id o ho
    by_cases hts : ∃ u ∈ ts, OnChain H0 u (.obj id)
    · refine ⟨fun _ => (h2 id o ho).1 hts, fun hn => ?_⟩
      obtain ⟨u, hu, hou⟩ := hts
      exact absurd ⟨u, by simp [hu], hou⟩ hn
    · have e := (h2 id o ho).2 hts
      constructor
      · rintro ⟨u, hu, hou⟩
        rcases List.mem_cons.mp hu with rfl | hu
        · rw [e]; exact (h1 id o ho).1 hou
        · exact absurd ⟨u, hu, hou⟩ hts
      · intro hn
        rw [e]
        exact (h1 id o ho).2 fun hou => hn ⟨t, by simp, hou⟩

/-- Two states in which all objects are as prescribed are equal. -/
theorem between_ext {H0 H1 H2 : THeap} (h1 : Between H0 H1) (h2 : Between H0 H2)
    (h : ∀ (id : Nat) o, H0[id]? = some o → H1[id]? = H2[id]?) : H1 = H2 := by
  apply List.ext_getElem?
  intro id
  cases h0 : H0[id]? with
  | some o => exact h id o h0
  | none =>
    rw [List.getElem?_eq_none_iff] at h0
    rw [List.getElem?_eq_none (by rw [h1.1]; exact h0), List.getElem?_eq_none (by rw [h2.1]; exact h0)]

theorem between_isMixed {H0 H : THeap} (hb : Between H0 H) (t : Ty) : IsMixed H t ↔ IsMixed H0 t := by
  classical
  have hc : ∀ (id : Nat) c', H[id]? = some (.complex c') → ∃ c, H0[id]? = some (.complex c) ∧ c'.base = c.base ∧
      c'.extends_ = c.extends_ ∧ (c.mixed = true → c'.mixed = true) ∧ (c'.mixed = true → IsMixed H0 (.obj id)) := by
    intro id c' h
    have hlt : id < H0.length := by rw [← hb.1]; exact (List.getElem?_eq_some_iff.mp h).1
    obtain ⟨o, ho⟩ : ∃ o, H0[id]? = some o := ⟨_, List.getElem?_eq_getElem hlt⟩
    rcases hb.2 id o ho with h' | h'
    · rw [h] at h'; cases h'
      exact ⟨c', ho, rfl, rfl, fun x => x, fun hm => .declared ho hm⟩
    · rw [h] at h'
      cases o with
      | simple s => cases h'
      | complex c =>
        cases h'
        exact ⟨c, ho, rfl, rfl, fun hm => by simpa using IsMixed.declared ho hm, fun hm => by simpa using hm⟩
  have hc2 : ∀ (id : Nat) c, H0[id]? = some (.complex c) → ∃ c', H[id]? = some (.complex c') := by
    intro id c ho
    rcases hb.2 id _ ho with h' | h'
    · exact ⟨_, h'⟩
    · exact ⟨_, h'⟩
  have hs : ∀ (id : Nat) s, H[id]? = some (.simple s) ↔ H0[id]? = some (.simple s) := by
    intro id s
    constructor
    · intro h
      have hlt : id < H0.length := by rw [← hb.1]; exact (List.getElem?_eq_some_iff.mp h).1
      obtain ⟨o, ho⟩ : ∃ o, H0[id]? = some o := ⟨_, List.getElem?_eq_getElem hlt⟩
      rcases hb.2 id o ho with h' | h'
      · rw [h] at h'; cases h'; exact ho
      · rw [h] at h'
        cases o with
        | simple s => cases h'; exact ho
        | complex c => cases h'
    · intro h
      rcases hb.2 id _ h with h' | h'
      · exact h'
      · exact h'
  constructor
  · intro h
    induction h with
    | any => exact .any
    | declared h1 h2 => exact (hc _ _ h1).choose_spec.2.2.2.2 h2
    | simpleBase h1 h2 h3 =>
      obtain ⟨c, g1, g2, g3, g4, g5⟩ := hc _ _ h1
      exact .simpleBase g1 (g2 ▸ h2) ((hs _ _).mp h3)
    | extension h1 h2 h3 _ ih =>
      obtain ⟨c, g1, g2, g3, g4, g5⟩ := hc _ _ h1
      exact .extension g1 (g2 ▸ h2) (g3 ▸ h3) ih
  · intro h
    induction h with
    | any => exact .any
    | declared h1 h2 =>
      obtain ⟨c', h'⟩ := hc2 _ _ h1
      obtain ⟨c, g1, g2, g3, g4, g5⟩ := hc _ _ h'
      rw [h1] at g1; cases g1
      exact .declared h' (g4 h2)
    | simpleBase h1 h2 h3 =>
      obtain ⟨c', h'⟩ := hc2 _ _ h1
      obtain ⟨c, g1, g2, g3, g4, g5⟩ := hc _ _ h'
      rw [h1] at g1; cases g1
      exact .simpleBase h' (by rw [g2]; exact h2) ((hs _ _).mpr h3)
    | extension h1 h2 h3 _ ih =>
      obtain ⟨c', h'⟩ := hc2 _ _ h1
      obtain ⟨c, g1, g2, g3, g4, g5⟩ := hc _ _ h'
      rw [h1] at g1; cases g1
      exact .extension h' (by rw [g2]; exact h2) (by rw [g3]; exact h3) ih

end GoXml.Xsd
