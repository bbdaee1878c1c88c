import Verif.Proofs.XsdgenFlatten
set_option autoImplicit false

/-! `flatten` gives only types that the flattened types need. -/

namespace GoXml.Xsdgen
open Xsd

theorem Needs.trans {H : THeap} {a b c : Nat} (h1 : Needs H a b) (h2 : Needs H b c) : Needs H a c := by
  induction h1 with
  | self _ => exact h2
  | step h _ ih => exact .step h (ih h2)

/-- The heap refers to no type that was not needed in the heap at the beginning, and names are the same. -/
structure Kept (H0 H : THeap) : Prop where
  uses : ∀ a b, Uses H a b → Needs H0 a b
  names : ∀ t, xmlName H t = xmlName H0 t

theorem Kept.refl (H : THeap) : Kept H H := ⟨fun _ _ h => .step h (.self _), fun _ => rfl⟩

/-- Replacing one object by another of the same name that refers only to needed types. -/
theorem Kept.set {H0 H : THeap} (h : Kept H0 H) (id : Nat) (o o' : TObj) (ho : H[id]? = some o) (hn : o'.name = o.name)
    (hu : ∀ b, Uses (H.set id o') id b → Needs H0 id b) : Kept H0 (H.set id o') := by
  have hlt := (List.getElem?_eq_some_iff.mp ho).1
  constructor
  · intro a b hab
    by_cases e : a = id
    · subst e; exact hu b hab
    · have hg : (H.set id o')[a]? = H[a]? := List.getElem?_set_ne (fun h => e h.symm)
      apply h.uses
      cases hab with
      | base hb => exact .base (by simpa only [baseOf, hg] using hb)
      | elem h1 h2 h3 => exact .elem (hg ▸ h1) h2 h3
      | attr h1 h2 h3 => exact .attr (hg ▸ h1) h2 h3
  · intro t
    rw [← h.names t]
    cases t with
    | builtin _ => rfl
    | link _ => rfl
    | obj a =>
      by_cases e : a = id
      · subst e; simp only [xmlName, ho, List.getElem?_set_self hlt, hn]
      · simp only [xmlName, List.getElem?_set_ne (show id ≠ a from fun h => e h.symm)]

theorem Kept.setSimpleBase {H0 H : THeap} (h : Kept H0 H) (b : Option Builtin) (t : Ty) :
    Kept H0 (setSimpleBase (b.map .builtin) H t) := by
  unfold Xsdgen.setSimpleBase
  split
  · rename_i id
    split
    · rename_i s hs
      have hlt := (List.getElem?_eq_some_iff.mp hs).1
      refine h.set id _ _ hs rfl ?_
      intro c hc
      cases hc with
      | base hb =>
        simp only [baseOf, List.getElem?_set_self hlt, TObj.base] at hb
        cases b <;> cases hb
      | elem h1 _ _ => rw [List.getElem?_set_self hlt] at h1; cases h1
      | attr h1 _ _ => rw [List.getElem?_set_self hlt] at h1; cases h1
    · exact h
  · exact h

theorem Kept.foldl {H0 : THeap} (b : Option Builtin) : ∀ (l : List Ty) (H : THeap), Kept H0 H →
    Kept H0 (l.foldl (Xsdgen.setSimpleBase (b.map .builtin)) H) := by
  intro l
  induction l with
  | nil => intro H h; exact h
  | cons t l ih => intro H h; exact ih _ (h.setSimpleBase b t)

theorem baseChain_needs {H0 H : THeap} (hk : Kept H0 H) : ∀ (n : Nat) (o : Option Builtin) (id : Nat) (r : List Ty × Option Builtin),
    baseChain H n o (baseOf H (.obj id)) = .ok r → ∀ j, Ty.obj j ∈ r.1 → Needs H0 id j := by
  intro n
  induction n with
  | zero => intro o id r h; cases h
  | succ n ih =>
    intro o id r h j hj
    cases hb : baseOf H (.obj id) with
    | none => rw [hb] at h; simp only [baseChain, Run.ok.injEq] at h; subst h; cases hj
    | some t =>
      rw [hb] at h
      cases t with
      | builtin x => simp only [baseChain, Run.ok.injEq] at h; subst h; cases hj
      | link x =>
        simp only [baseChain, baseOf] at h
        cases n with
        | zero => cases h
        | succ n =>
          simp only [baseChain, Run.bind, Run.ok.injEq] at h
          subst h
          simp at hj
      | obj bid =>
        simp only [baseChain] at h
        cases hr : baseChain H n (some AnyType) (baseOf H (.obj bid)) with
        | ok q =>
          rw [hr] at h
          simp only [Run.bind, Run.ok.injEq] at h
          subst h
          have hn : Needs H0 id bid := hk.uses _ _ (.base hb)
          rcases List.mem_cons.mp hj with hj | hj
          · cases hj; exact hn
          · exact hn.trans (ih _ _ _ hr j hj)
        | error => rw [hr] at h; cases h
        | panic => rw [hr] at h; cases h
        | running => rw [hr] at h; cases h

/-- What is shown of a call that flattens `t`. -/
def Good (H0 : THeap) (t : Option Ty) (r : Flat) : Prop :=
  Kept H0 r.1 ∧ ∀ j, (Ty.obj j ∈ r.2.1 ∨ r.2.2 = some (.obj j)) → ∃ id, t = some (.obj id) ∧ Needs H0 id j

theorem flattenSimple_good {H0 H : THeap} (hk : Kept H0 H) (n id : Nat) (s : SimpleT) (hs : H[id]? = some (.simple s)) (r : Flat)
    (h : flattenSimple n H id s = .ok r) : Good H0 (some (.obj id)) r := by
  unfold flattenSimple at h
  have hb : s.base = baseOf H (.obj id) := by simp only [baseOf, hs, TObj.base]
  cases hr : baseChain H n none s.base with
  | error => rw [hr] at h; cases h
  | panic => rw [hr] at h; cases h
  | running => rw [hr] at h; cases h
  | ok q =>
    rw [hr] at h
    simp only [Run.bind] at h
    have hch : ∀ j, Ty.obj j ∈ q.1.filter (isSimple H) → Needs H0 id j := by
      intro j hj
      rw [hb] at hr
      exact baseChain_needs hk n none id q hr j (List.mem_filter.mp hj).1
    have hk1 := Kept.foldl q.2 (q.1.filter (isSimple H)) H hk
    have hk2 := hk1.setSimpleBase q.2 (.obj id)
    generalize hX : Xsdgen.setSimpleBase (q.2.map .builtin) ((q.1.filter (isSimple H)).foldl (Xsdgen.setSimpleBase (q.2.map .builtin)) H) (.obj id) = X at *
    have hself : Needs H0 id id := .self id
    split at h
    · simp only [Run.ok.injEq] at h
      subst h
      refine ⟨hk2, ?_⟩
      rintro j (hj | hj)
      · exact ⟨id, rfl, hch j hj⟩
      · cases hj; exact ⟨id, rfl, hself⟩
    · split at h
      · simp only [Run.ok.injEq] at h
        subst h
        rename_i d _
        refine ⟨?_, ?_⟩
        · have hx : X[id]? = some (.simple { s with base := q.2.map .builtin }) := by
            rw [← hX, setSimpleBase_get, foldl_setSimpleBase, hs]
            by_cases hm : Ty.obj id ∈ q.1.filter (isSimple H)
            · simp only [if_pos hm, if_true]
            · simp only [if_neg hm, if_true]
          have hlt := (List.getElem?_eq_some_iff.mp hx).1
          refine hk2.set id _ _ hx rfl ?_
          intro c hc
          cases hc with
          | base hb =>
            simp only [baseOf, List.getElem?_set_self hlt, TObj.base] at hb
            cases hq : q.2 <;> rw [hq] at hb <;> cases hb
          | elem h1 _ _ => rw [List.getElem?_set_self hlt] at h1; cases h1
          | attr h1 _ _ => rw [List.getElem?_set_self hlt] at h1; cases h1
        · rintro j (hj | hj)
          · exact ⟨id, rfl, hch j hj⟩
          · cases hj; exact ⟨id, rfl, hself⟩
      · simp only [Run.ok.injEq] at h
        subst h
        refine ⟨hk2, ?_⟩
        rintro j (hj | hj)
        · exact ⟨id, rfl, hch j hj⟩
        · simp only at hj
          cases hq : q.2 <;> rw [hq] at hj <;> cases hj

/-- `t` may be put into the object `id`. -/
def Allowed (H0 : THeap) (id : Nat) (t : Ty) : Prop := ∀ j, t = .obj j → Needs H0 id j

theorem Kept.setElem {H0 H : THeap} (h : Kept H0 H) (id i : Nat) (t : Ty) (ht : Allowed H0 id t) :
    Kept H0 (setElemType H id i t) := by
  unfold setElemType
  split
  · rename_i c hc
    have hlt := (List.getElem?_eq_some_iff.mp hc).1
    refine h.set id _ _ hc rfl ?_
    intro b hb
    cases hb with
    | base hb =>
      simp only [baseOf, List.getElem?_set_self hlt, TObj.base] at hb
      exact h.uses _ _ (.base (by simpa only [baseOf, hc, TObj.base] using hb))
    | elem h1 h2 h3 =>
      rw [List.getElem?_set_self hlt] at h1
      cases h1
      obtain ⟨k, hk⟩ := List.mem_iff_getElem?.mp h2
      rw [List.getElem?_modify] at hk
      by_cases e : i = k
      · subst e
        simp only [if_true, Option.map_eq_map, Option.map_eq_some_iff] at hk
        obtain ⟨x, _, rfl⟩ := hk
        exact ht b h3
      · simp [e] at hk
        exact h.uses _ _ (.elem hc (List.mem_of_getElem? hk) h3)
    | attr h1 h2 h3 =>
      rw [List.getElem?_set_self hlt] at h1
      cases h1
      exact h.uses _ _ (.attr hc h2 h3)
  · exact h

theorem Kept.setAttr {H0 H : THeap} (h : Kept H0 H) (id i : Nat) (t : Ty) (ht : Allowed H0 id t) :
    Kept H0 (setAttrType H id i t) := by
  unfold setAttrType
  split
  · rename_i c hc
    have hlt := (List.getElem?_eq_some_iff.mp hc).1
    refine h.set id _ _ hc rfl ?_
    intro b hb
    cases hb with
    | base hb =>
      simp only [baseOf, List.getElem?_set_self hlt, TObj.base] at hb
      exact h.uses _ _ (.base (by simpa only [baseOf, hc, TObj.base] using hb))
    | attr h1 h2 h3 =>
      rw [List.getElem?_set_self hlt] at h1
      cases h1
      obtain ⟨k, hk⟩ := List.mem_iff_getElem?.mp h2
      rw [List.getElem?_modify] at hk
      by_cases e : i = k
      · subst e
        simp only [if_true, Option.map_eq_map, Option.map_eq_some_iff] at hk
        obtain ⟨x, _, rfl⟩ := hk
        exact ht b h3
      · simp [e] at hk
        exact h.uses _ _ (.attr hc (List.mem_of_getElem? hk) h3)
    | elem h1 h2 h3 =>
      rw [List.getElem?_set_self hlt] at h1
      cases h1
      exact h.uses _ _ (.elem hc h2 h3)
  · exact h

theorem Kept.setBase {H0 H : THeap} (h : Kept H0 H) (id : Nat) (t : Ty) (ht : Allowed H0 id t) :
    Kept H0 (setComplexBase H id t) := by
  unfold setComplexBase
  split
  · rename_i c hc
    have hlt := (List.getElem?_eq_some_iff.mp hc).1
    refine h.set id _ _ hc rfl ?_
    intro b hb
    cases hb with
    | base hb =>
      simp only [baseOf, List.getElem?_set_self hlt, TObj.base, Option.some.injEq] at hb
      exact ht b hb
    | attr h1 h2 h3 =>
      rw [List.getElem?_set_self hlt] at h1
      cases h1
      exact h.uses _ _ (.attr hc h2 h3)
    | elem h1 h2 h3 =>
      rw [List.getElem?_set_self hlt] at h1
      cases h1
      exact h.uses _ _ (.elem hc h2 h3)
  · exact h

theorem fieldLoop_good {H0 : THeap} {recur : THeap → Option Ty → Run Flat} {get : THeap → Nat → Option Ty}
    {set : THeap → Nat → Ty → THeap} (id : Nat)
    (hrec : ∀ H t r, Kept H0 H → recur H t = .ok r → Good H0 t r)
    (hget : ∀ H i t, Kept H0 H → get H i = some t → Allowed H0 id t)
    (hset : ∀ H i t, Kept H0 H → Allowed H0 id t → Kept H0 (set H i t)) :
    ∀ (is : List Nat) (H : THeap) (r : THeap × List Ty), Kept H0 H → fieldLoop recur get set is H = .ok r →
      Kept H0 r.1 ∧ ∀ t ∈ r.2, Allowed H0 id t := by
  intro is
  induction is with
  | nil =>
    intro H r hk h
    simp only [fieldLoop, Run.ok.injEq] at h
    subst h
    exact ⟨hk, by simp⟩
  | cons i is ih =>
    intro H r hk h
    simp only [fieldLoop] at h
    cases hr : recur H (get H i) with
    | error => rw [hr] at h; cases h
    | panic => rw [hr] at h; cases h
    | running => rw [hr] at h; cases h
    | ok q =>
      rw [hr] at h
      obtain ⟨hk1, hq⟩ := hrec _ _ _ hk hr
      obtain ⟨q1, q2, q3⟩ := q
      have hall : ∀ j, (Ty.obj j ∈ q2 ∨ q3 = some (.obj j)) → Needs H0 id j := by
        intro j hj
        obtain ⟨k, h1, h2⟩ := hq j hj
        exact (hget _ _ _ hk h1 k rfl).trans h2
      cases q3 with
      | none => cases h
      | some t =>
        have ht : Allowed H0 id t := fun j hj => hall j (Or.inr (by rw [hj]))
        simp only [Run.bind] at h
        cases hr2 : fieldLoop recur get set is (set q1 i t) with
        | error => rw [hr2] at h; cases h
        | panic => rw [hr2] at h; cases h
        | running => rw [hr2] at h; cases h
        | ok p =>
          rw [hr2] at h
          simp only [Run.ok.injEq] at h
          subst h
          obtain ⟨k1, k2⟩ := ih _ _ (hset _ _ _ hk1 ht) hr2
          refine ⟨k1, ?_⟩
          intro u hu
          rcases List.mem_append.mp hu with hu | hu
          · intro j hj; subst hj; exact hall j (Or.inl hu)
          · rcases List.mem_cons.mp hu with rfl | hu
            · exact ht
            · exact k2 u hu

theorem flattenComplex_good {H0 : THeap} {recur : THeap → Option Ty → Run Flat}
    (hrec : ∀ H t r, Kept H0 H → recur H t = .ok r → Good H0 t r) (H : THeap) (id : Nat) (c : ComplexT) (r : Flat)
    (hk : Kept H0 H) (h : flattenComplex recur H id c = .ok r) : Good H0 (some (.obj id)) r ∧ r.2.2 = some (.obj id) := by
  unfold flattenComplex at h
  have hget1 : ∀ H i t, Kept H0 H → elemType H id i = some t → Allowed H0 id t := by
    intro H i t hk h j hj
    subst hj
    unfold elemType at h
    split at h
    · rename_i c hc
      obtain ⟨e, he, h3⟩ := Option.map_eq_some_iff.mp h
      exact hk.uses _ _ (.elem hc (List.mem_of_getElem? he) h3)
    · cases h
  have hget2 : ∀ H i t, Kept H0 H → attrType H id i = some t → Allowed H0 id t := by
    intro H i t hk h j hj
    subst hj
    unfold attrType at h
    split at h
    · rename_i c hc
      obtain ⟨e, he, h3⟩ := Option.map_eq_some_iff.mp h
      exact hk.uses _ _ (.attr hc (List.mem_of_getElem? he) h3)
    · cases h
  cases h1 : fieldLoop recur (fun H i => elemType H id i) (fun H i t => setElemType H id i t) (List.range c.elements.length) H with
  | error => rw [h1] at h; cases h
  | panic => rw [h1] at h; cases h
  | running => rw [h1] at h; cases h
  | ok e =>
    rw [h1] at h
    obtain ⟨k1, k2⟩ := fieldLoop_good id hrec hget1 (fun H i t hk ht => hk.setElem id i t ht) _ _ _ hk h1
    simp only [Run.bind] at h
    cases h2 : fieldLoop recur (fun H i => attrType H id i) (fun H i t => setAttrType H id i t) (List.range c.attributes.length) e.1 with
    | error => rw [h2] at h; cases h
    | panic => rw [h2] at h; cases h
    | running => rw [h2] at h; cases h
    | ok a =>
      rw [h2] at h
      obtain ⟨k3, k4⟩ := fieldLoop_good id hrec hget2 (fun H i t hk ht => hk.setAttr id i t ht) _ _ _ k1 h2
      simp only at h
      cases h3 : recur a.1 (baseOf a.1 (.obj id)) with
      | error => rw [h3] at h; cases h
      | panic => rw [h3] at h; cases h
      | running => rw [h3] at h; cases h
      | ok b =>
        rw [h3] at h
        obtain ⟨b1, b2, b3⟩ := b
        obtain ⟨k5, k6⟩ := hrec _ _ _ k3 h3
        have hb : ∀ j, (Ty.obj j ∈ b2 ∨ b3 = some (.obj j)) → Needs H0 id j := by
          intro j hj
          obtain ⟨q, q1, q2⟩ := k6 j hj
          exact (k3.uses _ _ (.base q1)).trans q2
        cases b3 with
        | none => cases h
        | some t =>
          simp only [Run.ok.injEq] at h
          subst h
          have ht : Allowed H0 id t := fun j hj => hb j (Or.inr (by rw [hj]))
          refine ⟨⟨k5.setBase id t ht, ?_⟩, rfl⟩
          rintro j (hj | hj)
          · refine ⟨id, rfl, ?_⟩
            simp only [List.mem_append] at hj
            rcases hj with ((hj | hj) | hj) | hj
            · exact k2 _ hj j rfl
            · exact k4 _ hj j rfl
            · exact hb j (Or.inl hj)
            · split at hj
              · simp at hj; exact ht j hj.symm
              · cases hj
          · cases hj; exact ⟨id, rfl, .self id⟩

theorem flatten1_good (cfg : Config) (n : Nat) {H0 : THeap} : ∀ (d : Nat) (H : THeap) (t : Option Ty) (r : Flat),
    Kept H0 H → flatten1 cfg n d H t = .ok r → Good H0 t r := by
  intro d
  induction d with
  | zero =>
    intro H t r hk h
    simp only [flatten1, Run.ok.injEq] at h
    subst h
    refine ⟨hk, ?_⟩
    rintro j (hj | hj)
    · cases hj
    · exact ⟨j, hj, .self j⟩
  | succ d ih =>
    intro H t r hk h
    cases t with
    | none => cases h
    | some t =>
      cases t with
      | link x => cases h
      | builtin b =>
        simp only [flatten1, Run.ok.injEq] at h
        subst h
        refine ⟨hk, ?_⟩
        rintro j (hj | hj) <;> cases hj
      | obj id =>
        simp only [flatten1] at h
        split at h
        · cases h
        · rename_i s hs
          exact flattenSimple_good hk n id s hs r h
        · rename_i c hc
          split at h
          · split at h
            · simp only [Run.ok.injEq] at h
              subst h
              refine ⟨hk, ?_⟩
              rintro j (hj | hj) <;> cases hj
            · exact (flattenComplex_good (fun H t r => ih H t r) H id c r hk h).1
          · rename_i bid hb
            split at h
            · obtain ⟨k1, k2⟩ := ih _ _ _ hk h
              refine ⟨k1, fun j hj => ?_⟩
              obtain ⟨k, q1, q2⟩ := k2 j hj
              cases q1
              exact ⟨id, rfl, (hk.uses _ _ (.base (by simp only [baseOf, hc, TObj.base, hb]))).trans q2⟩
            · exact (flattenComplex_good (fun H t r => ih H t r) H id c r hk h).1
          · exact (flattenComplex_good (fun H t r => ih H t r) H id c r hk h).1

theorem skipped_iff (cfg : Config) (name : XName) : skipped cfg name = false ↔ name.loc ≠ b!"_self" ∧ Selected cfg name := by
  unfold skipped Selected
  simp only [Bool.or_eq_false_iff, decide_eq_false_iff_not]
  cases h1 : cfg.filterTypes with
  | none =>
    cases h2 : cfg.allowTypes with
    | none => simp
    | some m => simp; intro _; cases h : GoMap.get m name <;> simp
  | some f =>
    cases h2 : cfg.allowTypes with
    | none => simp
    | some m =>
      have : (GoMap.get m name).getD false = true ↔ GoMap.get m name = some true := by
        cases GoMap.get m name <;> simp
      simp [this, and_comm, and_assoc, and_left_comm]

theorem flattenLoop_good (cfg : Config) (n : Nat) {H0 : THeap} : ∀ (ts : List Ty) (H : THeap) (r : THeap × List Ty),
    Kept H0 H → flattenLoop cfg n H ts = .ok r → Kept H0 r.1 ∧
      ∀ j, Ty.obj j ∈ r.2 → ∃ id, Ty.obj id ∈ ts ∧ Selected cfg (xmlName H0 (.obj id)) ∧ Needs H0 id j := by
  intro ts
  induction ts with
  | nil =>
    intro H r hk h
    simp only [flattenLoop, Run.ok.injEq] at h
    subst h
    exact ⟨hk, by simp⟩
  | cons t ts ih =>
    intro H r hk h
    simp only [flattenLoop] at h
    split at h
    · obtain ⟨k1, k2⟩ := ih H r hk h
      refine ⟨k1, fun j hj => ?_⟩
      obtain ⟨id, q1, q2⟩ := k2 j hj
      exact ⟨id, List.mem_cons_of_mem _ q1, q2⟩
    · rename_i hs
      cases h1 : flatten1 cfg n 1001 H (some t) with
      | error => rw [h1] at h; cases h
      | panic => rw [h1] at h; cases h
      | running => rw [h1] at h; cases h
      | ok f =>
        rw [h1] at h
        obtain ⟨k1, k2⟩ := flatten1_good cfg n 1001 H (some t) f hk h1
        simp only [Run.bind] at h
        cases h2 : flattenLoop cfg n f.1 ts with
        | error => rw [h2] at h; cases h
        | panic => rw [h2] at h; cases h
        | running => rw [h2] at h; cases h
        | ok q =>
          rw [h2] at h
          simp only [Run.ok.injEq] at h
          subst h
          obtain ⟨k3, k4⟩ := ih _ _ k1 h2
          refine ⟨k3, fun j hj => ?_⟩
          have hsel : Selected cfg (xmlName H0 t) := by
            rw [← hk.names]
            exact ((skipped_iff cfg _).mp (by simpa using hs)).2
          simp only [List.mem_append] at hj
          rcases hj with (hj | hj) | hj
          · obtain ⟨id, q1, q2⟩ := k2 j (Or.inl hj)
            cases q1
            exact ⟨id, by simp, hsel, q2⟩
          · obtain ⟨id, q1, q2⟩ := k2 j (Or.inr (by simpa using hj))
            cases q1
            exact ⟨id, by simp, hsel, q2⟩
          · obtain ⟨id, q1, q2⟩ := k4 j hj
            exact ⟨id, List.mem_cons_of_mem _ q1, q2⟩

end GoXml.Xsdgen
