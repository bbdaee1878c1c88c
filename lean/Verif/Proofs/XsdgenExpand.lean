import Verif.Proofs.XsdgenTypes
import Verif.Props.Graph
import Mathlib.Data.List.Nodup
set_option autoImplicit false

/-! Lemmas about `expandComplexTypes`. -/

namespace GoXml.Xsdgen
open Xsd

/-! ### Inherited fields -/

theorem zipIdx_shift {α : Type} (l : List α) (k : Nat) : l.zipIdx (k + 1) = (l.zipIdx k).map fun p => (p.1, p.2 + 1) := by
  induction l generalizing k with
  | nil => rfl
  | cons x xs ih => simp only [List.zipIdx_cons, List.map_cons, ih]

theorem inheritedElems_cons (c : ComplexT) (cs : List ComplexT) : inheritedElems (c :: cs) =
    (inheritedElems cs).filter (fun e => decide (e.name ∉ c.elements.map (·.name))) ++ c.elements := by
  unfold inheritedElems
  rw [List.zipIdx_cons, List.reverse_cons, List.flatMap_append]
  congr 1
  · rw [zipIdx_shift, ← List.map_reverse, List.flatMap_map, List.filter_flatMap]
    congr 1
    funext p
    rw [List.filter_filter]
    apply List.filter_congr
    intro e _
    simp only [List.take_succ_cons, List.mem_cons, forall_eq_or_imp]
    simp only [Bool.decide_and]
  · simp

theorem inheritedAttrs_cons (c : ComplexT) (cs : List ComplexT) : inheritedAttrs (c :: cs) =
    c.attributes ++ (inheritedAttrs cs).filter (fun e => decide (e.name ∉ c.attributes.map (·.name))) := by
  unfold inheritedAttrs
  rw [List.zipIdx_cons, List.flatMap_cons]
  congr 1
  · simp
  · rw [zipIdx_shift, List.flatMap_map, List.filter_flatMap]
    congr 1
    funext p
    rw [List.filter_filter]
    apply List.filter_congr
    intro e _
    simp only [List.take_succ_cons, List.mem_cons, forall_eq_or_imp]
    simp only [Bool.decide_and]

theorem withInherited_nil (c : ComplexT) : withInherited c [] = c := by
  have h1 : inheritedElems [] = [] := rfl
  have h2 : inheritedAttrs [] = [] := rfl
  simp only [withInherited, inheritedElems_cons, inheritedAttrs_cons, h1, h2, List.filter_nil, List.nil_append, List.append_nil, if_true]

/-! ### Ancestors -/

theorem Ancestor.trans {H : THeap} {a b c : Ty} (h1 : Ancestor H a b) (h2 : Ancestor H b c) : Ancestor H a c := by
  induction h1 with
  | self => exact h2
  | base hb _ ih => exact .base hb (ih h2)

theorem Ancestor.step {H : THeap} {a b c : Ty} (h1 : Ancestor H a b) (h2 : baseOf H b = some c) : Ancestor H a c :=
  h1.trans (.base h2 (.self c))

/-- A type with a finite chain of bases is not derived from itself. -/
theorem no_cycle {H : THeap} {n : Nat} {t : Ty} (h : EndsWithin H n t) : ∀ b, baseOf H t = some b → ¬ Ancestor H b t := by
  induction h with
  | none h => intro b hb; rw [h] at hb; cases hb
  | @base n t b hb _ ih =>
    intro b' hb' ha
    rw [hb] at hb'
    obtain rfl := Option.some.inj hb'
    cases ha with
    | self => exact ih _ hb (.self _)
    | base h1 h2 => exact ih _ h1 (h2.step hb)

theorem EndsWithin.ancestor {H : THeap} {n : Nat} {t a : Ty} (h : EndsWithin H n t) (ha : Ancestor H t a) : EndsWithin H n a := by
  induction ha generalizing n with
  | self => exact h
  | base hb _ ih =>
    cases h with
    | none h => rw [h] at hb; cases hb
    | base h1 h2 =>
      rw [h1] at hb
      obtain rfl := Option.some.inj hb
      have : ∀ {n : Nat} {t : Ty}, EndsWithin H n t → EndsWithin H (n + 1) t := by
        intro n t h
        induction h with
        | none h => exact .none h
        | base h _ ih => exact .base h ih
      exact this (ih h2)

/-! ### The list of all types -/

/-- What holds of `index` and `alltypes`; `P` are the types that may be listed. -/
structure IdxInv (H : THeap) (P : Ty → Prop) (index : GoMap XName Nat) (all : List Ty) : Prop where
  listed : ∀ (i : Nat) (v : Ty), all[i]? = some v → index.get (xmlName H v) = some i
  named : ∀ (nm : XName) (i : Nat), index.get nm = some i → ∃ v, all[i]? = some v ∧ xmlName H v = nm
  within : ∀ v ∈ all, P v

theorem indexFrom_get (H : THeap) : ∀ (vs : List Ty) (index : GoMap XName Nat) (i : Nat), (vs.map (xmlName H)).Nodup →
    ∀ nm, (indexFrom H index i vs).get nm =
      match vs.findIdx? (fun v => decide (xmlName H v = nm)) with
      | some j => some (i + j)
      | none => index.get nm := by
  intro vs
  induction vs with
  | nil => intro index i _ nm; rfl
  | cons v vs ih =>
    intro index i hnd nm
    rw [List.map_cons, List.nodup_cons] at hnd
    simp only [indexFrom]
    rw [ih _ _ hnd.2, List.findIdx?_cons]
    by_cases h : xmlName H v = nm
    · have : vs.findIdx? (fun v => decide (xmlName H v = nm)) = none := by
        rw [List.findIdx?_eq_none_iff]
        intro x hx
        simp only [decide_eq_false_iff_not]
        intro hh
        exact hnd.1 (List.mem_map.mpr ⟨x, hx, hh.trans h.symm⟩)
      rw [this]
      simp [h, GoMap.get_set]
    · simp only [h, decide_false]
      cases vs.findIdx? (fun v => decide (xmlName H v = nm)) with
      | none => simp [GoMap.get_set, h]
      | some j => simp; omega

theorem idx_start (H : THeap) (P : Ty → Prop) (types : List Ty) (hnd : (types.map (xmlName H)).Nodup)
    (hP : ∀ v ∈ types, P v) : IdxInv H P (indexFrom H [] 0 types) types := by
  constructor
  · intro i v hv
    rw [indexFrom_get H _ _ _ hnd]
    have : types.findIdx? (fun w => decide (xmlName H w = xmlName H v)) = some i := by
      rw [List.findIdx?_eq_some_iff_getElem]
      obtain ⟨hi, he⟩ := List.getElem?_eq_some_iff.mp hv
      refine ⟨hi, by simp [he], ?_⟩
      intro j hj
      simp only [decide_eq_true_eq]
      intro hh
      have := (List.Nodup.getElem_inj_iff hnd (i := j) (hi := by simp; omega) (j := i) (hj := by simpa using hi)).mp
        (by simp [hh, he])
      omega
    rw [this]; simp
  · intro nm i h
    rw [indexFrom_get H _ _ _ hnd] at h
    cases hf : types.findIdx? (fun v => decide (xmlName H v = nm)) with
    | none => rw [hf] at h; cases h
    | some j =>
      rw [hf] at h
      simp at h
      subst h
      rw [List.findIdx?_eq_some_iff_getElem] at hf
      obtain ⟨hj, he, _⟩ := hf
      exact ⟨types[j], List.getElem?_eq_getElem hj, by simpa using he⟩
  · exact hP

theorem extendBases_inv (H : THeap) (P : Ty → Prop) (hP : ∀ a b, P a → P b → xmlName H a = xmlName H b → a = b)
    (hB : ∀ a b, P a → baseOf H a = some b → P b) :
    ∀ (n : Nat) (index : GoMap XName Nat) (all : List Ty) (v : Ty), IdxInv H P index all → P v → EndsWithin H n v →
      ∃ index' all', extendBases H (n + 1) index all (baseOf H v) = .ok (index', all') ∧ IdxInv H P index' all' ∧
        (∃ more, all' = all ++ more) ∧ ∀ b, baseOf H v = some b → ∀ a, Ancestor H b a → a ∈ all' := by
  intro n
  induction n with
  | zero =>
    intro index all v hi _ he
    cases he with
    | none h =>
      rw [h]
      exact ⟨index, all, rfl, hi, ⟨[], by simp⟩, fun b hb => by cases hb⟩
  | succ n ih =>
    intro index all v hi hv he
    cases he with
    | none h =>
      rw [h]
      exact ⟨index, all, rfl, hi, ⟨[], by simp⟩, fun b hb => by cases hb⟩
    | @base _ _ b h1 h2 =>
      rw [h1]
      have hb : P b := hB v b hv h1
      simp only [extendBases]
      cases hg : index.get (xmlName H b) with
      | some i =>
        simp only
        obtain ⟨w, hw, hn⟩ := hi.named _ _ hg
        have hwm : w ∈ all := List.mem_of_getElem? hw
        obtain rfl := hP w b (hi.within w hwm) hb hn
        obtain ⟨index', all', e1, e2, ⟨more, e3⟩, e4⟩ := ih index all w hi hb h2
        refine ⟨index', all', e1, e2, ⟨more, e3⟩, ?_⟩
        intro b' hb' a ha
        obtain rfl := Option.some.inj hb'
        cases ha with
        | self => rw [e3]; exact List.mem_append_left _ hwm
        | base k1 k2 => exact e4 _ k1 _ k2
      | none =>
        simp only
        have hi' : IdxInv H P (index.set (xmlName H b) all.length) (all ++ [b]) := by
          constructor
          · intro i v hv
            rw [GoMap.get_set]
            by_cases hlt : i < all.length
            · rw [List.getElem?_append_left hlt] at hv
              have := hi.listed i v hv
              rw [if_neg]
              · exact this
              · intro hh; rw [hh, this] at hg; cases hg
            · rw [List.getElem?_append_right (by omega)] at hv
              have hz : i = all.length := by
                rcases Nat.lt_or_ge all.length i with h | h
                · rw [List.getElem?_eq_none (by simp; omega)] at hv; cases hv
                · omega
              subst hz
              simp at hv
              subst hv
              simp
          · intro nm i hm
            rw [GoMap.get_set] at hm
            split at hm
            · obtain rfl := Option.some.inj hm
              rename_i hh
              exact ⟨b, by simp, hh⟩
            · obtain ⟨w, hw, hn⟩ := hi.named _ _ hm
              refine ⟨w, ?_, hn⟩
              rw [List.getElem?_append_left (List.getElem?_eq_some_iff.mp hw).1]
              exact hw
          · intro w hw
            rcases List.mem_append.mp hw with h | h
            · exact hi.within w h
            · simp at h; subst h; exact hb
        obtain ⟨index', all', e1, e2, ⟨more, e3⟩, e4⟩ := ih _ _ b hi' hb h2
        refine ⟨index', all', e1, e2, ⟨[b] ++ more, by rw [e3]; simp⟩, ?_⟩
        intro b' hb' a ha
        obtain rfl := Option.some.inj hb'
        cases ha with
        | self => rw [e3]; simp
        | base k1 k2 => exact e4 _ k1 _ k2

theorem extendAll_inv (H : THeap) (P : Ty → Prop) (hP : ∀ a b, P a → P b → xmlName H a = xmlName H b → a = b)
    (hB : ∀ a b, P a → baseOf H a = some b → P b) (n : Nat) :
    ∀ (vs : List Ty) (index : GoMap XName Nat) (all : List Ty), IdxInv H P index all → (∀ v ∈ vs, P v ∧ EndsWithin H n v) →
      ∃ index' all', extendAll H (n + 1) index all vs = .ok (index', all') ∧ IdxInv H P index' all' ∧
        (∃ more, all' = all ++ more) ∧ ∀ v ∈ vs, ∀ b, baseOf H v = some b → ∀ a, Ancestor H b a → a ∈ all' := by
  intro vs
  induction vs with
  | nil => intro index all hi _; exact ⟨index, all, rfl, hi, ⟨[], by simp⟩, by simp⟩
  | cons v vs ih =>
    intro index all hi hv
    obtain ⟨i1, a1, e1, e2, ⟨m1, e3⟩, e4⟩ := extendBases_inv H P hP hB n index all v hi (hv v (by simp)).1 (hv v (by simp)).2
    obtain ⟨i2, a2, f1, f2, ⟨m2, f3⟩, f4⟩ := ih i1 a1 e2 (fun w hw => hv w (by simp [hw]))
    refine ⟨i2, a2, ?_, f2, ⟨m1 ++ m2, by rw [f3, e3]; simp⟩, ?_⟩
    · simp only [extendAll, e1, Run.bind, f1]
    · intro w hw b hb a ha
      rcases List.mem_cons.mp hw with rfl | hw
      · rw [f3]; exact List.mem_append_left _ (e4 b hb a ha)
      · exact f4 w hw b hb a ha

/-! ### The graph -/

theorem complexBase_iff {H : THeap} {c : ComplexT} {bid : Nat} {b : ComplexT} :
    complexBase H c = some (bid, b) ↔ c.base = some (.obj bid) ∧ H[bid]? = some (.complex b) := by
  unfold complexBase
  constructor
  · intro h
    split at h
    · rename_i bid' hb
      split at h
      · rename_i b' hb'
        simp at h
        obtain ⟨rfl, rfl⟩ := h
        exact ⟨hb, hb'⟩
      · cases h
    · cases h
  · rintro ⟨h1, h2⟩
    simp only [h1, h2]

/-- The edges that the graph should have. -/
def Edge (H : THeap) (all : List Ty) (i j : Nat) : Prop :=
  ∃ id c bid b, all[i]? = some (.obj id) ∧ H[id]? = some (.complex c) ∧ complexBase H c = some (bid, b) ∧ all[j]? = some (.obj bid)

theorem graphEdges_spec (H : THeap) (index : GoMap XName Nat) : ∀ (vs : List Ty) (i : Nat),
    (∀ id c bid b, Ty.obj id ∈ vs → H[id]? = some (.complex c) → complexBase H c = some (bid, b) → ∃ j, index.get b.name = some j) →
    ∃ es, graphEdges H index i vs = some es ∧ ∀ e, e ∈ es ↔ ∃ k id c bid b j, vs[k]? = some (.obj id) ∧
      H[id]? = some (.complex c) ∧ complexBase H c = some (bid, b) ∧ index.get b.name = some j ∧
      e = (((i + k : Nat) : Int), (j : Int)) := by
  intro vs
  induction vs with
  | nil => intro i _; exact ⟨[], rfl, by simp⟩
  | cons v vs ih =>
    intro i hv
    obtain ⟨es, h1, h2⟩ := ih (i + 1) (fun id c bid b hm => hv id c bid b (by simp [hm]))
    have skip : (∀ id c bid b, v = .obj id → H[id]? = some (.complex c) → complexBase H c ≠ some (bid, b)) →
        ∀ e, e ∈ es ↔ ∃ k id c bid b j, (v :: vs)[k]? = some (.obj id) ∧
          H[id]? = some (.complex c) ∧ complexBase H c = some (bid, b) ∧ index.get b.name = some j ∧
          e = (((i + k : Nat) : Int), (j : Int)) := by
      intro hs e
      rw [h2]
      constructor
      · rintro ⟨k, id, c, bid, b, j, k1, k2, k3, k4, rfl⟩
        exact ⟨k + 1, id, c, bid, b, j, by simpa using k1, k2, k3, k4, by simp; omega⟩
      · rintro ⟨k, id, c, bid, b, j, k1, k2, k3, k4, rfl⟩
        cases k with
        | zero => simp at k1; exact absurd k3 (hs id c bid b k1 k2)
        | succ k => exact ⟨k, id, c, bid, b, j, by simpa using k1, k2, k3, k4, by simp; omega⟩
    cases v with
    | builtin b => exact ⟨es, by simp only [graphEdges, h1], skip (fun _ _ _ _ h => by cases h)⟩
    | link b => exact ⟨es, by simp only [graphEdges, h1], skip (fun _ _ _ _ h => by cases h)⟩
    | obj id =>
      cases ho : H[id]? with
      | none =>
        refine ⟨es, by simp only [graphEdges, ho, h1], skip ?_⟩
        rintro id' c bid b ⟨⟩ h; rw [ho] at h; cases h
      | some o =>
        cases o with
        | simple s =>
          refine ⟨es, by simp only [graphEdges, ho, h1], skip ?_⟩
          rintro id' c bid b ⟨⟩ h; rw [ho] at h; cases h
        | complex c =>
          cases hb : complexBase H c with
          | none =>
            refine ⟨es, by simp only [graphEdges, ho, hb, h1], skip ?_⟩
            rintro id' c' bid b ⟨⟩ h
            rw [ho] at h
            obtain rfl := TObj.complex.inj (Option.some.inj h)
            rw [hb]; simp
          | some bb =>
            obtain ⟨bid, b⟩ := bb
            obtain ⟨j, hj⟩ := hv id c bid b (by simp) ho hb
            refine ⟨(((i : Nat) : Int), (j : Int)) :: es, by simp only [graphEdges, ho, hb, hj, h1], ?_⟩
            intro e
            rw [List.mem_cons, h2]
            constructor
            · rintro (rfl | ⟨k, id, c, bid, b, j, k1, k2, k3, k4, rfl⟩)
              · exact ⟨0, id, c, bid, b, j, by simp, ho, hb, hj, by simp⟩
              · exact ⟨k + 1, id, c, bid, b, j, by simpa using k1, k2, k3, k4, by simp; omega⟩
            · rintro ⟨k, id', c', bid', b', j', k1, k2, k3, k4, rfl⟩
              cases k with
              | zero =>
                simp at k1; subst k1
                rw [ho] at k2
                obtain rfl := TObj.complex.inj (Option.some.inj k2)
                rw [hb] at k3
                simp at k3
                obtain ⟨rfl, rfl⟩ := k3
                rw [hj] at k4
                simp at k4; subst k4
                exact Or.inl (by simp)
              | succ k => exact Or.inr ⟨k, id', c', bid', b', j', by simpa using k1, k2, k3, k4, by simp; omega⟩

/-! ### The walk -/

/-- The heap after the types at the given positions were expanded. -/
structure WalkInv (H : THeap) (all : List Ty) (done : List Int) (H' : THeap) : Prop where
  len : H'.length = H.length
  other : ∀ id : Nat, (∀ i ∈ done, all[i.toNat]? ≠ some (.obj id)) → H'[id]? = H[id]?
  exp : ∀ i ∈ done, ∀ id : Nat, all[i.toNat]? = some (.obj id) → ∃ c cs, Lineage H id (c :: cs) ∧ H'[id]? = some (.complex (withInherited c cs))

theorem Lineage.head {H : THeap} {id : Nat} {c : ComplexT} {cs : List ComplexT} (h : Lineage H id (c :: cs)) :
    H[id]? = some (.complex c) := by
  cases h with
  | top h _ => exact h
  | derived h _ _ => exact h

theorem Lineage.ne_nil {H : THeap} {id : Nat} {cs : List ComplexT} (h : Lineage H id cs) : cs ≠ [] := by
  cases h <;> simp

theorem Lineage.complex {H : THeap} {id : Nat} {cs : List ComplexT} (h : Lineage H id cs) : ∃ c, H[id]? = some (.complex c) := by
  cases h with
  | top h _ => exact ⟨_, h⟩
  | derived h _ _ => exact ⟨_, h⟩

theorem Lineage.unique {H : THeap} {id : Nat} {cs ds : List ComplexT} (h : Lineage H id cs) (h' : Lineage H id ds) : cs = ds := by
  induction h generalizing ds with
  | top h1 h2 =>
    cases h' with
    | top k1 _ => rw [h1] at k1; cases k1; rfl
    | derived k1 k2 k3 =>
      rw [h1] at k1; cases k1
      obtain ⟨b, hb⟩ := k3.complex
      exact absurd hb (h2 _ _ k2)
  | derived h1 h2 h3 ih =>
    cases h' with
    | top k1 k2 =>
      rw [h1] at k1; cases k1
      obtain ⟨b, hb⟩ := h3.complex
      exact absurd hb (k2 _ _ h2)
    | derived k1 k2 k3 =>
      rw [h1] at k1; cases k1
      rw [h2] at k2; cases k2
      rw [ih k3]

theorem expandWalk_inv (H : THeap) (all : List Ty)
    (hinj : ∀ (i j : Nat) (id : Nat), all[i]? = some (.obj id) → all[j]? = some (.obj id) → i = j) :
    ∀ (rest done : List Int) (H' : THeap), WalkInv H all done H' → (done ++ rest).Nodup → (∀ i ∈ done ++ rest, 0 ≤ i) →
    (∀ i ∈ rest, ∃ id c, all[i.toNat]? = some (.obj id) ∧ H[id]? = some (.complex c)) →
    (∀ l1 i l2, rest = l1 ++ i :: l2 → ∀ id c bid b, all[i.toNat]? = some (.obj id) → H[id]? = some (.complex c) →
      complexBase H c = some (bid, b) → ∃ j ∈ done ++ l1, all[j.toNat]? = some (.obj bid)) →
    ∃ H2, expandWalk all H' rest = some H2 ∧ WalkInv H all (done ++ rest) H2 := by
  intro rest
  induction rest with
  | nil => intro done H' hw _ _ _ _; exact ⟨H', rfl, by simpa using hw⟩
  | cons i rest ih =>
    intro done H' hw hnd hpos hcx hdep
    obtain ⟨id, c, ha, hc⟩ := hcx i (by simp)
    have hid : id < H.length := (List.getElem?_eq_some_iff.mp hc).1
    -- the type itself was not changed yet
    have hfresh : ∀ j ∈ done, all[j.toNat]? ≠ some (.obj id) := by
      intro j hj hh
      have e := hinj _ _ _ hh ha
      have h1 := hpos j (by simp [hj])
      have h2 := hpos i (by simp)
      have : j = i := by omega
      subst this
      exact (List.nodup_append.mp hnd).2.2 j hj j (by simp) rfl
    have hcur : H'[id]? = some (.complex c) := by rw [hw.other id hfresh]; exact hc
    -- the state after the step
    have step : ∀ (o : ComplexT) (cs : List ComplexT), Lineage H id (c :: cs) → o = withInherited c cs →
        WalkInv H all (done ++ [i]) (H'.set id (.complex o)) := by
      intro o cs hl ho
      constructor
      · simp [hw.len]
      · intro id' h'
        have hne : id ≠ id' := by
          rintro rfl
          exact h' i (by simp) ha
        rw [List.getElem?_set_ne hne]
        exact hw.other id' (fun j hj => h' j (by simp [hj]))
      · intro j hj id' h'
        by_cases hne : id = id'
        · subst hne
          refine ⟨c, cs, hl, ?_⟩
          rw [List.getElem?_set_self (by rw [hw.len]; exact hid), ho]
        · rw [List.getElem?_set_ne hne]
          rcases List.mem_append.mp hj with hj | hj
          · exact hw.exp j hj id' h'
          · simp at hj; subst hj
            rw [ha] at h'; simp at h'; exact absurd h' hne
    have fin : ∀ (o : ComplexT) (cs : List ComplexT), Lineage H id (c :: cs) → o = withInherited c cs →
        expandOne all H' i = some (H'.set id (.complex o)) →
        ∃ H2, expandWalk all H' (i :: rest) = some H2 ∧ WalkInv H all (done ++ i :: rest) H2 := by
      intro o cs hl ho he
      have e : done ++ i :: rest = (done ++ [i]) ++ rest := by simp
      obtain ⟨H2, k1, k2⟩ := ih (done ++ [i]) _ (step o cs hl ho) (by rw [← e]; exact hnd) (by rw [← e]; exact hpos)
        (fun j hj => hcx j (by simp [hj]))
        (fun l1 j l2 hr id c bid b h1 h2 h3 => by
          obtain ⟨q, hq, hq'⟩ := hdep (i :: l1) j l2 (by rw [hr]; rfl) id c bid b h1 h2 h3
          exact ⟨q, by simpa using hq, hq'⟩)
      exact ⟨H2, by simp only [expandWalk, he, k1], by rw [e]; exact k2⟩
    cases hb : complexBase H c with
    | none =>
      have hl : Lineage H id [c] := .top hc (fun bid b h1 h2 => by
        have := complexBase_iff.mpr ⟨h1, h2⟩
        rw [hb] at this; cases this)
      have hb' : complexBase H' c = none := by
        cases h : complexBase H' c with
        | none => rfl
        | some bb =>
          obtain ⟨bid, b⟩ := bb
          obtain ⟨h1, h2⟩ := complexBase_iff.mp h
          by_cases hd : ∃ j ∈ done, all[j.toNat]? = some (.obj bid)
          · obtain ⟨j, hj, hj'⟩ := hd
            obtain ⟨c', cs, hl', _⟩ := hw.exp j hj bid hj'
            have := complexBase_iff.mpr ⟨h1, hl'.head⟩
            rw [hb] at this; cases this
          · rw [hw.other bid (fun j hj hh => hd ⟨j, hj, hh⟩)] at h2
            have := complexBase_iff.mpr ⟨h1, h2⟩
            rw [hb] at this; cases this
      refine fin c [] hl (withInherited_nil c).symm ?_
      simp only [expandOne, ha, hcur, hb']
      congr 1
      apply List.ext_getElem?
      intro k
      rw [List.getElem?_set]
      split
      · rename_i hk; subst hk; rw [hcur, if_pos (by rw [hw.len]; exact hid)]
      · rfl
    | some bb =>
      obtain ⟨bid, b⟩ := bb
      obtain ⟨h1, h2⟩ := complexBase_iff.mp hb
      obtain ⟨j, hj, hj'⟩ := hdep [] i rest rfl id c bid b ha hc hb
      rw [List.append_nil] at hj
      obtain ⟨b', cs, hl', hcur'⟩ := hw.exp j hj bid hj'
      have hbb : complexBase H' c = some (bid, withInherited b' cs) := complexBase_iff.mpr ⟨h1, hcur'⟩
      refine fin (withInherited c (b' :: cs)) (b' :: cs) (.derived hc h1 hl') rfl ?_
      simp only [expandOne, ha, hcur, hbb]
      congr 3
      simp only [withInherited]
      rw [inheritedElems_cons c, inheritedAttrs_cons c]
      rfl

theorem split_unique {α : Type} {x : α} : ∀ {p q r s : List α}, p ++ x :: r = q ++ x :: s → x ∉ p → x ∉ q → p = q := by
  intro p
  induction p with
  | nil =>
    intro q r s h _ hq
    cases q with
    | nil => rfl
    | cons y ys => simp at h; exact absurd (by simp [h.1]) hq
  | cons z zs ih =>
    intro q r s h hp hq
    cases q with
    | nil => simp at h; exact absurd (by simp [h.1]) hp
    | cons y ys =>
      simp at h hp hq
      rw [h.1, ih h.2 hp.2 hq.2]

theorem before_split {i j : Int} {l l1 l2 : List Int} (hnd : l.Nodup) (hl : l = l1 ++ i :: l2) (hb : Dep.Before j i l) : j ∈ l1 := by
  obtain ⟨m1, m2, m3, e⟩ := hb
  have e' : l = (m1 ++ j :: m2) ++ i :: m3 := by rw [e]; simp
  have h1 : i ∉ l1 := by
    rw [hl] at hnd
    intro h; exact (List.nodup_append.mp hnd).2.2 i h i (by simp) rfl
  have h2 : i ∉ m1 ++ j :: m2 := by
    rw [e'] at hnd
    intro h; exact (List.nodup_append.mp hnd).2.2 i h i (by simp) rfl
  have := split_unique (hl.symm.trans e') h1 h2
  rw [this]; simp

/-- `expandComplexTypes` ends, and gives every listed complex type and every complex ancestor of a listed
type its inherited fields. -/
theorem expand_spec (n : Nat) (H : THeap) (types : List Ty) (hnd : (types.map (xmlName H)).Nodup)
    (hdist : ∀ t1 ∈ types, ∀ t2 ∈ types, ∀ a1 a2, Ancestor H t1 a1 → Ancestor H t2 a2 → xmlName H a1 = xmlName H a2 → a1 = a2)
    (hfin : ∀ t ∈ types, EndsWithin H n t) :
    ∃ H', expandComplexTypes (n + 1) H types = .ok H' ∧ H'.length = H.length ∧
      ∀ id : Nat,
        ((∀ t ∈ types, ¬ Ancestor H t (.obj id)) → H'[id]? = H[id]?) ∧
        ((∀ c, H[id]? ≠ some (.complex c)) → H'[id]? = H[id]?) ∧
        (∀ t ∈ types, Ancestor H t (.obj id) → ∀ c, H[id]? = some (.complex c) →
          ∃ cs, Lineage H id (c :: cs) ∧ H'[id]? = some (.complex (withInherited c cs))) := by
  let P : Ty → Prop := fun t => ∃ v ∈ types, Ancestor H v t
  have hP : ∀ a b, P a → P b → xmlName H a = xmlName H b → a = b := by
    rintro a b ⟨v, hv, ha⟩ ⟨w, hw, hb⟩ he
    exact hdist v hv w hw a b ha hb he
  have hB : ∀ a b, P a → baseOf H a = some b → P b := by
    rintro a b ⟨v, hv, ha⟩ hb
    exact ⟨v, hv, ha.step hb⟩
  have hPt : ∀ v ∈ types, P v := fun v hv => ⟨v, hv, .self v⟩
  obtain ⟨index, all, e1, e2, ⟨more, e3⟩, e4⟩ := extendAll_inv H P hP hB n types _ _ (idx_start H P types hnd hPt)
    (fun v hv => ⟨hPt v hv, hfin v hv⟩)
  have hall : ∀ v, v ∈ all ↔ P v := by
    intro v
    refine ⟨e2.within v, ?_⟩
    rintro ⟨w, hw, ha⟩
    cases ha with
    | self => rw [e3]; exact List.mem_append_left _ hw
    | base h1 h2 => exact e4 w hw _ h1 _ h2
  have hends : ∀ v, P v → EndsWithin H n v := by
    rintro v ⟨w, hw, ha⟩
    exact (hfin w hw).ancestor ha
  have hinj : ∀ (i j : Nat) (v : Ty), all[i]? = some v → all[j]? = some v → i = j := by
    intro i j v hi hj
    have h1 := e2.listed i _ hi
    have h2 := e2.listed j _ hj
    rw [h1] at h2
    exact Option.some.inj h2
  -- bases of listed types are listed
  have hbase : ∀ id c bid b, Ty.obj id ∈ all → H[id]? = some (.complex c) → complexBase H c = some (bid, b) →
      baseOf H (.obj id) = some (.obj bid) ∧ H[bid]? = some (.complex b) ∧
      ∃ j, all[j]? = some (.obj bid) ∧ index.get b.name = some j := by
    intro id c bid b hm hc hb
    obtain ⟨h1, h2⟩ := complexBase_iff.mp hb
    have hbo : baseOf H (.obj id) = some (.obj bid) := by simp only [baseOf, hc, TObj.base, h1]
    have hin := (hall _).mpr (hB _ _ ((hall _).mp hm) hbo)
    obtain ⟨j, hj⟩ := List.mem_iff_getElem?.mp hin
    refine ⟨hbo, h2, j, hj, ?_⟩
    have := e2.listed j _ hj
    simpa only [xmlName, h2, TObj.name] using this
  obtain ⟨es, g1, g2⟩ := graphEdges_spec H index all 0 (fun id c bid b hm hc hb => by
    obtain ⟨_, _, j, _, hj⟩ := hbase id c bid b hm hc hb
    exact ⟨j, hj⟩)
  -- what an edge is
  have hedge : ∀ x y : Int, (x, y) ∈ es → ∃ (k j id : Nat) (c : ComplexT) (bid : Nat) (b : ComplexT), x = (k : Int) ∧ y = (j : Int) ∧
      all[k]? = some (.obj id) ∧ H[id]? = some (.complex c) ∧ complexBase H c = some (bid, b) ∧ all[j]? = some (.obj bid) ∧
      baseOf H (.obj id) = some (.obj bid) ∧ H[bid]? = some (.complex b) := by
    intro x y hxy
    obtain ⟨k, id, c, bid, b, j, k1, k2, k3, k4, k5⟩ := (g2 (x, y)).mp hxy
    obtain ⟨q1, q2, j', q3, q4⟩ := hbase id c bid b (List.mem_of_getElem? k1) k2 k3
    rw [k4] at q4
    obtain rfl := Option.some.inj q4
    simp only [Prod.mk.injEq, Nat.zero_add] at k5
    exact ⟨k, j, id, c, bid, b, k5.1, k5.2, k1, k2, k3, q3, q1, q2⟩
  have hreach : ∀ x y, Dep.Reach es x y → ∃ (k j : Nat) (s t b : Ty), x = (k : Int) ∧ y = (j : Int) ∧ all[k]? = some s ∧
      all[j]? = some t ∧ baseOf H s = some b ∧ Ancestor H b t := by
    intro x y h
    induction h with
    | edge h =>
      obtain ⟨k, j, id, c, bid, b, h1, h2, h3, h4, h5, h6, h7, h8⟩ := hedge _ _ h
      exact ⟨k, j, _, _, _, h1, h2, h3, h6, h7, .self _⟩
    | step _ h ih =>
      obtain ⟨k, j, s, t, b, i1, i2, i3, i4, i5, i6⟩ := ih
      obtain ⟨k', j', id, c, bid, b', h1, h2, h3, h4, h5, h6, h7, h8⟩ := hedge _ _ h
      have : j = k' := by omega
      subst this
      rw [h3] at i4
      obtain rfl := Option.some.inj i4
      exact ⟨k, j', s, _, b, i1, h2, i3, h6, i5, i6.step h7⟩
  have hac : ∀ v, ¬ Dep.Reach es v v := by
    intro v h
    obtain ⟨k, j, s, t, b, i1, i2, i3, i4, i5, i6⟩ := hreach v v h
    have : k = j := by omega
    subst this
    rw [i3] at i4
    obtain rfl := Option.some.inj i4
    exact no_cycle (hends s (e2.within s (List.mem_of_getElem? i3))) b i5 i6
  obtain ⟨out, o1, o2, o3⟩ := Dep.C23_flatten_visits_once es
  obtain ⟨out', o4, o5⟩ := Dep.C24_flatten_acyclic es hac
  rw [o1] at o4
  obtain rfl := Option.some.inj o4
  have hvert : ∀ i ∈ out, ∃ (k id : Nat) (c : ComplexT), i = (k : Int) ∧ all[k]? = some (.obj id) ∧ H[id]? = some (.complex c) := by
    intro i hi
    obtain ⟨⟨x, y⟩, he, hv⟩ := (o3 i).mp hi
    obtain ⟨k, j, id, c, bid, b, h1, h2, h3, h4, h5, h6, h7, h8⟩ := hedge _ _ he
    rcases hv with rfl | rfl
    · exact ⟨k, id, c, h1, h3, h4⟩
    · exact ⟨j, bid, b, h2, h6, h8⟩
  obtain ⟨H2, w1, w2⟩ := expandWalk_inv H all (fun i j id => hinj i j _) out [] H ⟨rfl, fun _ _ => rfl, by simp⟩ (by simpa using o2)
    (by
      intro i hi
      obtain ⟨k, _, _, rfl, _⟩ := hvert i (by simpa using hi)
      omega)
    (by
      intro i hi
      obtain ⟨k, id, c, rfl, h1, h2⟩ := hvert i hi
      exact ⟨id, c, by simpa using h1, h2⟩)
    (by
      intro l1 i l2 hr id c bid b h1 h2 h3
      obtain ⟨k, _, _, rfl, _, _⟩ := hvert i (by rw [hr]; simp)
      have h1' : all[k]? = some (.obj id) := by simpa using h1
      obtain ⟨q1, q2, j, q3, q4⟩ := hbase id c bid b (List.mem_of_getElem? h1') h2 h3
      have : (((k : Nat) : Int), ((j : Nat) : Int)) ∈ es := (g2 _).mpr ⟨k, id, c, bid, b, j, h1', h2, h3, q4, by simp⟩
      have hb := o5 _ _ (.edge this)
      exact ⟨(j : Int), by simpa using before_split o2 hr hb, by simpa using q3⟩)
  rw [List.nil_append] at w2
  refine ⟨H2, ?_, w2.len, ?_⟩
  · simp only [expandComplexTypes, e1, Run.bind, g1, o1, w1]
  intro id
  have hnot : (∀ i ∈ out, all[i.toNat]? ≠ some (.obj id)) → H2[id]? = H[id]? := w2.other id
  refine ⟨?_, ?_, ?_⟩
  · intro h
    apply hnot
    intro i hi hh
    obtain ⟨v, hv, ha⟩ := e2.within _ (List.mem_of_getElem? hh)
    exact h v hv ha
  · intro h
    apply hnot
    intro i hi hh
    obtain ⟨k, id', c, rfl, h1, h2⟩ := hvert i hi
    simp only [Int.toNat_natCast] at hh
    rw [h1] at hh
    simp at hh
    subst hh
    exact h c h2
  · intro t ht ha c hc
    by_cases hd : ∃ i ∈ out, all[i.toNat]? = some (.obj id)
    · obtain ⟨i, hi, hh⟩ := hd
      obtain ⟨c', cs, hl, he⟩ := w2.exp i hi id hh
      have := hl.head
      rw [hc] at this
      cases this
      exact ⟨cs, hl, he⟩
    · refine ⟨[], ?_, ?_⟩
      · refine .top hc (fun bid b h1 h2 => hd ?_)
        have hm : Ty.obj id ∈ all := (hall _).mpr ⟨t, ht, ha⟩
        obtain ⟨k, hk⟩ := List.mem_iff_getElem?.mp hm
        have hcb := complexBase_iff.mpr ⟨h1, h2⟩
        obtain ⟨q1, q2, j, q3, q4⟩ := hbase id c bid b hm hc hcb
        have : (((k : Nat) : Int), ((j : Nat) : Int)) ∈ es := (g2 _).mpr ⟨k, id, c, bid, b, j, hk, hc, hcb, q4, by simp⟩
        exact ⟨(k : Int), (o3 _).mpr ⟨_, this, Or.inl rfl⟩, by simpa using hk⟩
      · rw [hnot (fun i hi hh => hd ⟨i, hi, hh⟩), hc, withInherited_nil]

end GoXml.Xsdgen
