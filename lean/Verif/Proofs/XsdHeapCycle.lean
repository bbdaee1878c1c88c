import Verif.Proofs.XsdHeapRef
set_option autoImplicit false

/-! Cyclic structures: searching ends only if there are none, unpacking groups makes none, and `hasCycle`
reports nothing else. -/

namespace GoXml.Xsd

/-- `c` points to a child of the element at `p`. -/
def KidRel (h : EHeap) (c p : Ptr) : Prop := ∃ e, h.get p = some e ∧ KidOf e c

theorem transGen_of_below {h : EHeap} {p q : Ptr} (hb : Below h p q) : Relation.TransGen (KidRel h) q p := by
  induction hb with
  | kid hg hk => exact .single ⟨_, hg, hk⟩
  | step _ hg hk ih => exact .trans (.single ⟨_, hg, hk⟩) ih

theorem acc_not_below {h : EHeap} {p : Ptr} (ha : Acc (KidRel h) p) : ¬ Below h p p := by
  intro hb
  have ht := ha.transGen
  have hpp := transGen_of_below hb
  clear hb ha
  induction ht with
  | intro x _ ih => exact ih x hpp hpp

theorem acc_below {h : EHeap} {p q : Ptr} (ha : Acc (KidRel h) p) (hb : Below h p q) : Acc (KidRel h) q := by
  induction hb with
  | kid hg hk => exact ha.inv ⟨_, hg, hk⟩
  | step _ hg hk ih => exact ih.inv ⟨_, hg, hk⟩

theorem acc_of_searchH {h : EHeap} {pred : HElem → Bool} (n : Nat) : ∀ (s : HSlice) (ps : List Ptr), searchH h pred n s = some ps →
    ∀ c : Ptr, c.arr = s.arr → c.idx < s.len → Acc (KidRel h) c := by
  induction n with
  | zero => intro s ps hs; cases hs
  | succ n ih =>
    intro s ps hs c hc1 hc2
    rw [searchH] at hs
    refine ⟨_, ?_⟩
    rintro d ⟨e, hg, hk⟩
    have hc : (h.cells s)[c.idx]? = some e := by rw [cells_get, if_pos hc2, ← hc1]; exact hg
    obtain ⟨qs, hq⟩ := searchCells_recur _ _ _ _ _ _ hs e (List.mem_of_getElem? hc)
    exact ih _ _ hq d hk.1 hk.2

/-- If a search ends there is no cycle below the root, and it is not part of one. -/
theorem acc_of_searchPtr {h : EHeap} {pred : HElem → Bool} {n : Nat} {root : Ptr} {ps : List Ptr} (hs : searchPtr h n pred root = some ps) :
    Acc (KidRel h) root := by
  unfold searchPtr at hs
  refine ⟨_, ?_⟩
  rintro c ⟨e, hg, hk⟩
  rw [hg] at hs
  exact acc_of_searchH n _ _ hs c hk.1 hk.2

/-- A search that meets a cycle does not end. -/
theorem searchPtr_cycle {h : EHeap} {pred : HElem → Bool} (n : Nat) {root p : Ptr} (hb : Below h root p) (hc : Below h p p) :
    searchPtr h n pred root = none := by
  cases hs : searchPtr h n pred root with
  | none => rfl
  | some ps => exact absurd hc (acc_not_below (acc_below (acc_of_searchPtr hs) hb))

theorem slicesOk_unpackAt {h : EHeap} (hs : SlicesOk h) (p : Ptr) : SlicesOk (unpackAt h p) := by
  unfold unpackAt
  cases hg : h.get p with
  | none => exact hs
  | some el =>
    refine slicesOk_step hs p _ ?_ _ rfl
    intro e he
    obtain ⟨c, h1, h2⟩ := List.mem_flatMap.mp he
    split at h2
    · obtain ⟨i, _, h3⟩ := mem_cells.mp h2; exact ⟨_, h3⟩
    · simp only [List.mem_singleton] at h2; subst h2
      obtain ⟨i, _, h3⟩ := mem_cells.mp h1; exact ⟨_, h3⟩

/-- Unpacking one element makes no cycle. -/
theorem acc_unpackAt {h : EHeap} (hs : SlicesOk h) (p : Ptr) {q : Ptr} (hq : q.arr < h.length) (ha : Acc (KidRel h) q) :
    Acc (KidRel (unpackAt h p)) q := by
  unfold unpackAt
  cases hg : h.get p with
  | none => exact ha
  | some el =>
    dsimp only
    have hold : ∀ {q c : Ptr}, KidRel h c q → c.arr < h.length := by
      rintro q c ⟨e, hge, hk⟩
      obtain ⟨d, hd⟩ := get_some_of_len (hs q e hge) hk.2
      have := get_lt hd
      rw [hk.1]; exact this
    have ht := ha.transGen
    clear ha
    induction ht with
    | intro q _ ih =>
      have hnew : ∀ x ∈ ((h.cells el.kids).flatMap fun c => if isGroup c then h.cells c.kids else [c]), p = q →
          ∃ c, h.get c = some x ∧ Relation.TransGen (KidRel h) c q := by
        rintro x hx rfl
        obtain ⟨c, h1, h2⟩ := List.mem_flatMap.mp hx
        obtain ⟨i, hi, h3⟩ := mem_cells.mp h1
        have hc : KidRel h ⟨el.kids.arr, i⟩ p := ⟨el, hg, rfl, hi⟩
        split at h2
        · obtain ⟨j, hj, h4⟩ := mem_cells.mp h2
          exact ⟨_, h4, .trans (.single ⟨c, h3, rfl, hj⟩) (.single hc)⟩
        · simp only [List.mem_singleton] at h2; subst h2
          exact ⟨_, h3, .single hc⟩
      generalize hch : ((h.cells el.kids).flatMap fun c => if isGroup c then h.cells c.kids else [c]) = children at hnew ih
      refine ⟨_, ?_⟩
      rintro c ⟨e, hge, hk⟩
      by_cases hqp : p = q
      · subst hqp
        rw [get_put_self _ (get_append_of_some _ hg)] at hge
        cases hge
        obtain ⟨hk1, hk2⟩ := hk
        dsimp only at hk1 hk2
        refine ⟨_, ?_⟩
        rintro d ⟨e, hge, hk⟩
        have hpc : p ≠ c := by
          rintro rfl
          have := get_lt hg
          omega
        rw [get_put_ne _ hpc] at hge
        have hcell : EHeap.get (h ++ [children]) c = children[c.idx]? := by
          have := get_new h children c.idx
          rw [← hk1] at this; exact this
        rw [hcell] at hge
        obtain ⟨c', h1, h2⟩ := hnew e (List.mem_of_getElem? hge) rfl
        exact ih d (.trans (.single ⟨e, h1, hk⟩) h2) (hold (q := c') ⟨e, h1, hk⟩)
      · rw [get_put_ne _ hqp, get_append_left _ _ hq] at hge
        exact ih c (.single ⟨e, hge, hk⟩) (hold (q := q) ⟨e, hge, hk⟩)

theorem unpackAt_length (h : EHeap) (p : Ptr) : h.length ≤ (unpackAt h p).length := by
  unfold unpackAt
  cases h.get p with
  | none => exact Nat.le_refl _
  | some el => dsimp only; rw [put_length]; simp

theorem acc_unpackFold (ps : List Ptr) : ∀ {h : EHeap}, SlicesOk h → ∀ {q : Ptr}, q.arr < h.length → Acc (KidRel h) q →
    SlicesOk (ps.foldl unpackAt h) ∧ Acc (KidRel (ps.foldl unpackAt h)) q := by
  induction ps with
  | nil => intro h hs q _ ha; exact ⟨hs, ha⟩
  | cons p ps ih =>
    intro h hs q hq ha
    exact ih (slicesOk_unpackAt hs p) (Nat.lt_of_lt_of_le hq (unpackAt_length h p)) (acc_unpackAt hs p hq ha)

/-! ### hasCycle -/

theorem cycleLoop_false {recur : Ptr → List Ptr → Option (Bool × List Ptr)} {arr : Nat}
    (hr : ∀ c v v', recur c (c :: v) = some (false, v') → ∀ x ∈ v', x ∈ v) (is : List Nat) : ∀ {v v' : List Ptr},
    cycleLoop recur arr is v = some (false, v') → ∀ x ∈ v', x ∈ v := by
  induction is with
  | nil => intro v v' h x hx; simp only [cycleLoop, Option.some.injEq, Prod.mk.injEq, true_and] at h; rw [h]; exact hx
  | cons i is ih =>
    intro v v' h x hx
    rw [cycleLoop] at h
    split at h
    · cases h
    · cases hc : recur ⟨arr, i⟩ (⟨arr, i⟩ :: v) with
      | none => rw [hc] at h; cases h
      | some r =>
        obtain ⟨b, w⟩ := r
        rw [hc] at h
        cases b with
        | true => simp at h
        | false => exact hr _ _ _ hc _ (ih (by simpa using h) x hx)

theorem hasCycle_false {h : EHeap} (n : Nat) : ∀ {p : Ptr} {v v' : List Ptr}, hasCycle h n p v = some (false, v') →
    ∀ x ∈ v', x ∈ v ∧ x ≠ p := by
  induction n with
  | zero => intro p v v' h; cases h
  | succ n ih =>
    intro p v v' hc x hx
    rw [hasCycle] at hc
    cases hg : h.get p with
    | none => rw [hg] at hc; cases hc
    | some el =>
      rw [hg] at hc
      dsimp only at hc
      cases hl : cycleLoop (hasCycle h n) el.kids.arr (List.range (h.cells el.kids).length) (p :: v) with
      | none => rw [hl] at hc; cases hc
      | some r =>
        obtain ⟨b, w⟩ := r
        rw [hl] at hc
        cases b with
        | true => simp at hc
        | false =>
          simp only [Option.map_some, Bool.false_eq_true, if_false, Option.some.injEq, Prod.mk.injEq, true_and] at hc
          subst hc
          simp only [List.mem_filter, decide_eq_true_eq] at hx
          have := cycleLoop_false (recur := hasCycle h n) (fun c v v' hc x hx => by
            obtain ⟨h1, h2⟩ := ih hc x hx
            rcases List.mem_cons.mp h1 with h3 | h3
            · exact absurd h3 h2
            · exact h3) _ hl x hx.1
          rcases List.mem_cons.mp this with h3 | h3
          · exact absurd h3 hx.2
          · exact ⟨h3, hx.2⟩

theorem cycleLoop_true {h : EHeap} {n : Nat} {p : Ptr} {el : HElem} (hg : h.get p = some el)
    (ih : ∀ {c : Ptr} {v v' : List Ptr}, Below h p c → hasCycle h n c v = some (true, v') → (∀ x ∈ v, x = c ∨ Below h x c) → ∃ q, Below h p q ∧ Below h q q)
    (is : List Nat) : ∀ {v v' : List Ptr}, (∀ i ∈ is, i < el.kids.len) →
    cycleLoop (hasCycle h n) el.kids.arr is v = some (true, v') → (∀ x ∈ v, x = p ∨ Below h x p) →
      ∃ q, (q = p ∨ Below h p q) ∧ Below h q q := by
  induction is with
  | nil => intro v v' _ h; simp [cycleLoop] at h
  | cons i is ihl =>
    intro v v' hi hc hv
    have hkid : Below h p ⟨el.kids.arr, i⟩ := .kid hg ⟨rfl, hi i (by simp)⟩
    rw [cycleLoop] at hc
    split at hc
    · rename_i hm
      rcases hv _ hm with h1 | h1
      · refine ⟨p, Or.inl rfl, ?_⟩
        rw [h1] at hkid; exact hkid
      · exact ⟨_, Or.inr hkid, below_trans h1 hkid⟩
    · cases hcc : hasCycle h n ⟨el.kids.arr, i⟩ (⟨el.kids.arr, i⟩ :: v) with
      | none => rw [hcc] at hc; cases hc
      | some r =>
        obtain ⟨b, w⟩ := r
        rw [hcc] at hc
        have hv' : ∀ x ∈ (⟨el.kids.arr, i⟩ :: v : List Ptr), x = ⟨el.kids.arr, i⟩ ∨ Below h x ⟨el.kids.arr, i⟩ := by
          intro x hx
          rcases List.mem_cons.mp hx with h1 | h1
          · exact Or.inl h1
          · rcases hv x h1 with h2 | h2
            · subst h2; exact Or.inr hkid
            · exact Or.inr (below_trans h2 hkid)
        cases b with
        | true =>
          obtain ⟨q, h1, h2⟩ := ih hkid hcc hv'
          exact ⟨q, Or.inr h1, h2⟩
        | false =>
          refine ihl (fun j hj => hi j (by simp [hj])) (by simpa using hc) ?_
          intro x hx
          obtain ⟨h1, h2⟩ := hasCycle_false n hcc x hx
          rcases List.mem_cons.mp h1 with h3 | h3
          · exact absurd h3 h2
          · exact hv x h3

/-- `hasCycle` reports only cycles. -/
theorem hasCycle_true {h : EHeap} (n : Nat) : ∀ {p : Ptr} {v v' : List Ptr}, hasCycle h n p v = some (true, v') →
    (∀ x ∈ v, x = p ∨ Below h x p) → ∃ q, (q = p ∨ Below h p q) ∧ Below h q q := by
  induction n with
  | zero => intro p v v' h; cases h
  | succ n ih =>
    intro p v v' hc hv
    rw [hasCycle] at hc
    cases hg : h.get p with
    | none => rw [hg] at hc; cases hc
    | some el =>
      rw [hg] at hc
      dsimp only at hc
      cases hl : cycleLoop (hasCycle h n) el.kids.arr (List.range (h.cells el.kids).length) (p :: v) with
      | none => rw [hl] at hc; cases hc
      | some r =>
        obtain ⟨b, w⟩ := r
        rw [hl] at hc
        cases b with
        | false => simp at hc
        | true =>
          refine cycleLoop_true hg ?_ _ ?_ hl ?_
          · intro c v v' hb hcc hvv
            obtain ⟨q, h1, h2⟩ := ih hcc hvv
            rcases h1 with h1 | h1
            · subst h1; exact ⟨q, hb, h2⟩
            · exact ⟨q, below_trans hb h1, h2⟩
          · intro i hi
            have := List.mem_range.mp hi
            unfold EHeap.cells at this
            simp at this; omega
          · intro x hx
            rcases List.mem_cons.mp hx with h1 | h1
            · exact Or.inl h1
            · exact hv x h1

/-- The last loop reports no error. -/
theorem unpackAll_no_error {n : Nat} (roots : List Ptr) : ∀ {h : EHeap}, SlicesOk h → unpackAll n roots h ≠ .error := by
  induction roots with
  | nil => intro h _ hc; cases hc
  | cons root roots ih =>
    intro h hs hc
    rw [unpackAll] at hc
    unfold unpackGroups at hc
    cases hp : searchPtr h n (fun e => (h.cells e.kids).any isGroup) root with
    | none => rw [hp] at hc; cases hc
    | some ps =>
      rw [hp] at hc
      dsimp only [Option.map_some] at hc
      have hlt : root.arr < h.length := by
        unfold searchPtr at hp
        cases hg : h.get root with
        | none => rw [hg] at hp; cases hp
        | some r => exact get_lt hg
      obtain ⟨h1, h2⟩ := acc_unpackFold ps hs hlt (acc_of_searchPtr hp)
      cases hcy : hasCycle (ps.foldl unpackAt h) n root [] with
      | none => rw [hcy] at hc; cases hc
      | some r =>
        obtain ⟨b, v⟩ := r
        rw [hcy] at hc
        cases b with
        | false => exact ih h1 hc
        | true =>
          obtain ⟨q, h3, h4⟩ := hasCycle_true n hcy (fun x hx => by cases hx)
          rcases h3 with rfl | h3
          · exact acc_not_below h2 h4
          · exact acc_not_below (acc_below h2 h3) h4

theorem slicesOk_derefAt {ix : Index} {h h' : EHeap} {id : Int} (hs : SlicesOk h) (hd : derefAt ix h id = some h') : SlicesOk h' := by
  unfold derefAt at hd
  obtain ⟨p, _, hd⟩ := Option.bind_eq_some_iff.mp hd
  obtain ⟨el, _, hd⟩ := Option.bind_eq_some_iff.mp hd
  split at hd
  · cases hd; exact hs
  · obtain ⟨dep, _, hd⟩ := Option.bind_eq_some_iff.mp hd
    obtain ⟨q, _, hd⟩ := Option.bind_eq_some_iff.mp hd
    obtain ⟨real, _, hd⟩ := Option.map_eq_some_iff.mp hd
    subst hd
    refine slicesOk_step hs p _ ?_ _ rfl
    intro e he
    obtain ⟨i, _, h3⟩ := mem_cells.mp he
    exact ⟨_, h3⟩

theorem slicesOk_derefAll {ix : Index} (ids : List Int) : ∀ {h h' : EHeap}, SlicesOk h → derefAll ix h ids = some h' → SlicesOk h' := by
  induction ids with
  | nil => intro h h' hs hd; simp only [derefAll, Option.some.injEq] at hd; subst hd; exact hs
  | cons id ids ih =>
    intro h h' hs hd
    rw [derefAll] at hd
    obtain ⟨h1, h2, h3⟩ := Option.bind_eq_some_iff.mp hd
    exact ih (slicesOk_derefAt hs h2) h3

/-! ### More steps do not matter -/

theorem searchCells_mono {r r' : HSlice → Option (List Ptr)} (hr : ∀ s ps, r s = some ps → r' s = some ps) (pred : HElem → Bool) (arr : Nat)
    (es : List HElem) : ∀ (i : Nat) (ps : List Ptr), searchCells r pred arr i es = some ps → searchCells r' pred arr i es = some ps := by
  induction es with
  | nil => intro i ps h; exact h
  | cons e es ih =>
    intro i ps h
    rw [searchCells] at h ⊢
    cases ha : r e.kids with
    | none => rw [ha] at h; cases h
    | some a =>
      cases hb : searchCells r pred arr (i + 1) es with
      | none => rw [ha, hb] at h; cases h
      | some b =>
        rw [ha, hb] at h
        rw [hr _ _ ha, ih _ _ hb]
        exact h

theorem searchH_mono {h : EHeap} {pred : HElem → Bool} (n : Nat) : ∀ (s : HSlice) (ps : List Ptr), searchH h pred n s = some ps →
    searchH h pred (n + 1) s = some ps := by
  induction n with
  | zero => intro s ps hs; cases hs
  | succ n ih =>
    intro s ps hs
    rw [searchH] at hs ⊢
    exact searchCells_mono ih pred _ _ _ _ hs

theorem searchPtr_mono {h : EHeap} {pred : HElem → Bool} {n m : Nat} (hm : n ≤ m) {root : Ptr} {ps : List Ptr}
    (hs : searchPtr h n pred root = some ps) : searchPtr h m pred root = some ps := by
  induction hm with
  | refl => exact hs
  | step _ ih =>
    unfold searchPtr at ih ⊢
    cases hg : h.get root with
    | none => rw [hg] at ih; cases ih
    | some r =>
      rw [hg] at ih
      exact searchH_mono _ _ _ ih

theorem indexSchemas_mono {h : EHeap} {n m : Nat} (hm : n ≤ m) (roots : List Ptr) : ∀ {ix ix' : Index}, indexSchemas h n roots ix = some ix' →
    indexSchemas h m roots ix = some ix' := by
  induction roots with
  | nil => intro ix ix' h; exact h
  | cons root roots ih =>
    intro ix ix' hi
    rw [indexSchemas] at hi ⊢
    cases hg : h.get root with
    | none => rw [hg] at hi; cases hi
    | some r =>
      cases hp : searchPtr h n (fun _ => true) root with
      | none => rw [hg, hp] at hi; cases hi
      | some ps =>
        rw [hg, hp] at hi
        rw [searchPtr_mono hm hp]
        exact ih hi

end GoXml.Xsd
