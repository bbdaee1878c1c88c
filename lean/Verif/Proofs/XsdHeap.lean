import Verif.Spec.XsdHeap
import Verif.Proofs.GoMap
set_option autoImplicit false

/-! Laws of memory, and what searching and indexing find. -/

namespace GoXml.Xsd

/-! ### Memory -/

theorem get_lt {h : EHeap} {p : Ptr} {e : HElem} (hg : h.get p = some e) : p.arr < h.length := by
  unfold EHeap.get at hg
  cases ha : h[p.arr]? with
  | none => rw [ha] at hg; cases hg
  | some a => exact (List.getElem?_eq_some_iff.mp ha).1

theorem get_append_left (h xs : EHeap) {p : Ptr} (hp : p.arr < h.length) : EHeap.get (h ++ xs) p = h.get p := by
  unfold EHeap.get
  rw [List.getElem?_append_left hp]

theorem get_append_of_some {h : EHeap} (xs : EHeap) {p : Ptr} {e : HElem} (hg : h.get p = some e) :
    EHeap.get (h ++ xs) p = some e := by
  rw [get_append_left h xs (get_lt hg), hg]

theorem get_new (h : EHeap) (a : List HElem) (i : Nat) : EHeap.get (h ++ [a]) ⟨h.length, i⟩ = a[i]? := by
  simp [EHeap.get]

theorem put_length (h : EHeap) (p : Ptr) (e : HElem) : (h.put p e).length = h.length := by
  simp [EHeap.put]

theorem get_put_self {h : EHeap} {p : Ptr} {e0 : HElem} (e : HElem) (hg : h.get p = some e0) : (h.put p e).get p = some e := by
  unfold EHeap.get at hg
  cases ha : h[p.arr]? with
  | none => rw [ha] at hg; cases hg
  | some a =>
    rw [ha] at hg
    have hi : p.idx < a.length := (List.getElem?_eq_some_iff.mp hg).1
    simp [EHeap.get, EHeap.put, ha, hi]

theorem get_put_ne {h : EHeap} {p q : Ptr} (e : HElem) (hn : p ≠ q) : (h.put p e).get q = h.get q := by
  unfold EHeap.get EHeap.put
  rw [List.getElem?_modify]
  by_cases ha : p.arr = q.arr
  · have hi : p.idx ≠ q.idx := fun hi => hn (by cases p; cases q; simp_all)
    cases hh : h[q.arr]? with
    | none => simp
    | some a => simp [ha, List.getElem?_set, hi]
  · simp [ha]

theorem get_put_isSome {h : EHeap} {p q : Ptr} (e : HElem) : ((h.put p e).get q).isSome = (h.get q).isSome := by
  by_cases hn : p = q
  · subst hn
    cases hg : h.get p with
    | some e0 => rw [get_put_self e hg]; rfl
    | none =>
      unfold EHeap.get EHeap.put at *
      rw [List.getElem?_modify]
      cases hh : h[p.arr]? with
      | none => simp
      | some a =>
        rw [hh] at hg
        have : a.length ≤ p.idx := by simpa using hg
        simp [this]
  · rw [get_put_ne e hn]

theorem cells_get (h : EHeap) (s : HSlice) (i : Nat) :
    (h.cells s)[i]? = if i < s.len then h.get ⟨s.arr, i⟩ else none := by
  unfold EHeap.cells EHeap.get
  rw [List.getElem?_take]
  cases h[s.arr]? <;> simp

theorem mem_cells {h : EHeap} {s : HSlice} {e : HElem} : e ∈ h.cells s ↔ ∃ i, i < s.len ∧ h.get ⟨s.arr, i⟩ = some e := by
  rw [List.mem_iff_getElem?]
  constructor
  · rintro ⟨i, hi⟩
    rw [cells_get] at hi
    split at hi
    · exact ⟨i, by assumption, hi⟩
    · cases hi
  · rintro ⟨i, hi, hg⟩
    exact ⟨i, by rw [cells_get, if_pos hi, hg]⟩

/-! ### Searching -/

/-- `p` points to an element in the slice or below one of them. -/
inductive BelowS (h : EHeap) : HSlice → Ptr → Prop
  | here {s : HSlice} {p : Ptr} : p.arr = s.arr → p.idx < s.len → BelowS h s p
  | deeper {s : HSlice} {q : Ptr} {e : HElem} {p : Ptr} : q.arr = s.arr → q.idx < s.len → h.get q = some e →
      BelowS h e.kids p → BelowS h s p

theorem belowS_snoc {h : EHeap} {s : HSlice} {q p : Ptr} {e : HElem} (hb : BelowS h s q) (hg : h.get q = some e)
    (hk : KidOf e p) : BelowS h s p := by
  induction hb with
  | here h1 h2 => exact .deeper h1 h2 hg (.here hk.1 hk.2)
  | deeper h1 h2 h3 _ ih => exact .deeper h1 h2 h3 (ih hg)

theorem below_trans {h : EHeap} {root q p : Ptr} (h1 : Below h root q) (h2 : Below h q p) : Below h root p := by
  induction h2 with
  | kid hg hk => exact .step h1 hg hk
  | step _ hg hk ih => exact .step ih hg hk

theorem below_of_belowS {h : EHeap} {s : HSlice} {p : Ptr} (hb : BelowS h s p) :
    ∀ {root : Ptr} {e : HElem}, h.get root = some e → e.kids = s → Below h root p := by
  induction hb with
  | here h1 h2 => intro root e hg he; subst he; exact .kid hg ⟨h1, h2⟩
  | deeper h1 h2 h3 _ ih =>
    intro root e hg he
    subst he
    exact below_trans (.kid hg ⟨h1, h2⟩) (ih h3 rfl)

theorem below_iff {h : EHeap} {root p : Ptr} : Below h root p ↔ ∃ e, h.get root = some e ∧ BelowS h e.kids p := by
  constructor
  · intro hb
    induction hb with
    | kid hg hk => exact ⟨_, hg, .here hk.1 hk.2⟩
    | step _ hg hk ih =>
      obtain ⟨e, he, hs⟩ := ih
      exact ⟨e, he, belowS_snoc hs hg hk⟩
  · rintro ⟨e, hg, hs⟩
    exact below_of_belowS hs hg rfl

theorem searchCells_mem (recur : HSlice → Option (List Ptr)) (pred : HElem → Bool) (arr : Nat) (es : List HElem) :
    ∀ (i : Nat) (ps : List Ptr), searchCells recur pred arr i es = some ps → ∀ p,
      p ∈ ps ↔ ∃ k e, es[k]? = some e ∧ ((pred e = true ∧ p = ⟨arr, i + k⟩) ∨ ∃ qs, recur e.kids = some qs ∧ p ∈ qs) := by
  induction es with
  | nil => intro i ps h p; simp only [searchCells, Option.some.injEq] at h; subst h; simp
  | cons e es ih =>
    intro i ps h p
    rw [searchCells] at h
    cases ha : recur e.kids with
    | none => rw [ha] at h; cases h
    | some a =>
      cases hb : searchCells recur pred arr (i + 1) es with
      | none => rw [ha, hb] at h; cases h
      | some b =>
        rw [ha, hb] at h
        dsimp only at h
        cases h
        rw [List.mem_append, List.mem_append, ih _ _ hb p]
        constructor
        · rintro ((h1 | h1) | ⟨k, e', hk, h1⟩)
          · split at h1
            · rename_i hp
              exact ⟨0, e, rfl, Or.inl ⟨hp, by simpa using h1⟩⟩
            · cases h1
          · exact ⟨0, e, rfl, Or.inr ⟨a, ha, h1⟩⟩
          · refine ⟨k + 1, e', hk, ?_⟩
            rcases h1 with ⟨h1, h2⟩ | h1
            · exact Or.inl ⟨h1, by rw [h2]; congr 1; omega⟩
            · exact Or.inr h1
        · rintro ⟨k, e', hk, h1⟩
          cases k with
          | zero =>
            simp only [List.getElem?_cons_zero, Option.some.injEq] at hk
            subst hk
            rcases h1 with ⟨h1, h2⟩ | ⟨qs, h1, h2⟩
            · exact Or.inl (Or.inl (by rw [if_pos h1]; simp [h2]))
            · rw [ha] at h1; cases h1; exact Or.inl (Or.inr h2)
          | succ k =>
            refine Or.inr ⟨k, e', by simpa using hk, ?_⟩
            rcases h1 with ⟨h1, h2⟩ | h1
            · exact Or.inl ⟨h1, by rw [h2]; congr 1; omega⟩
            · exact Or.inr h1

theorem searchCells_recur (recur : HSlice → Option (List Ptr)) (pred : HElem → Bool) (arr : Nat) (es : List HElem) :
    ∀ (i : Nat) (ps : List Ptr), searchCells recur pred arr i es = some ps → ∀ e ∈ es, ∃ qs, recur e.kids = some qs := by
  induction es with
  | nil => intro i ps _ e he; cases he
  | cons e es ih =>
    intro i ps h e' he'
    rw [searchCells] at h
    cases ha : recur e.kids with
    | none => rw [ha] at h; cases h
    | some a =>
      cases hb : searchCells recur pred arr (i + 1) es with
      | none => rw [ha, hb] at h; cases h
      | some b =>
        rcases List.mem_cons.mp he' with rfl | h1
        · exact ⟨a, ha⟩
        · exact ih _ _ hb e' h1

theorem searchH_mem (h : EHeap) (pred : HElem → Bool) (n : Nat) : ∀ (s : HSlice) (ps : List Ptr), searchH h pred n s = some ps →
    ∀ p, p ∈ ps ↔ BelowS h s p ∧ ∃ e, h.get p = some e ∧ pred e = true := by
  induction n with
  | zero => intro s ps hs; cases hs
  | succ n ih =>
    intro s ps hs p
    rw [searchH] at hs
    rw [searchCells_mem _ _ _ _ _ _ hs p]
    constructor
    · rintro ⟨k, e, hk, h1⟩
      rw [cells_get] at hk
      split at hk
      · rename_i hlt
        rcases h1 with ⟨h1, rfl⟩ | ⟨qs, h1, h2⟩
        · simp only [Nat.zero_add]
          exact ⟨.here rfl hlt, e, hk, h1⟩
        · obtain ⟨h3, h4⟩ := (ih _ _ h1 p).mp h2
          exact ⟨.deeper (q := ⟨s.arr, k⟩) rfl hlt hk h3, h4⟩
      · cases hk
    · rintro ⟨hb, e, hg, hp⟩
      cases hb with
      | here h1 h2 =>
        refine ⟨p.idx, e, ?_, Or.inl ⟨hp, ?_⟩⟩
        · rw [cells_get, if_pos h2, ← h1]; exact hg
        · rw [Nat.zero_add, ← h1]
      | @deeper _ q e' _ h1 h2 h3 h4 =>
        have hc : (h.cells s)[q.idx]? = some e' := by rw [cells_get, if_pos h2, ← h1]; exact h3
        obtain ⟨qs, hq⟩ := searchCells_recur _ _ _ _ _ _ hs e' (List.mem_of_getElem? hc)
        exact ⟨q.idx, e', hc, Or.inr ⟨qs, hq, (ih _ _ hq p).mpr ⟨h4, e, hg, hp⟩⟩⟩

/-- What a search finds: the elements below the root that satisfy the predicate. -/
theorem searchPtr_mem {h : EHeap} {n : Nat} {pred : HElem → Bool} {root : Ptr} {ps : List Ptr}
    (hs : searchPtr h n pred root = some ps) (p : Ptr) :
    p ∈ ps ↔ Below h root p ∧ ∃ e, h.get p = some e ∧ pred e = true := by
  unfold searchPtr at hs
  cases hg : h.get root with
  | none => rw [hg] at hs; cases hs
  | some r =>
    rw [hg] at hs
    rw [searchH_mem h pred n _ _ hs p, below_iff]
    constructor
    · rintro ⟨h1, h2⟩; exact ⟨⟨r, hg, h1⟩, h2⟩
    · rintro ⟨⟨r', h0, h1⟩, h2⟩
      rw [hg] at h0; cases h0
      exact ⟨h1, h2⟩

/-! ### The index -/

/-- The key under which an element of a schema with the given target namespace is entered. -/
def keyOf (h : EHeap) (pt : Ptr × Str) : Option (XName × XName) :=
  (h.get pt.1).bind fun el =>
    if el.attr [] b!"name" ≠ [] then some (resolveDefault el.scope (el.attr [] b!"name") pt.2, el.name) else none

/-- What is in the index, given the elements entered. -/
structure Indexed (h : EHeap) (ix : Index) (L : List (Ptr × Str)) : Prop where
  ids : ix.eltByID = L.map (·.1)
  sound : ∀ key id, ix.idByName.get key = some id → ∃ pt, L[id]? = some pt ∧ keyOf h pt = some key
  complete : ∀ pt ∈ L, ∀ key, keyOf h pt = some key → (ix.idByName.get key).isSome

theorem indexed_step {h : EHeap} {ix : Index} {L : List (Ptr × Str)} (hi : Indexed h ix L) (tns : Str) (p : Ptr) :
    Indexed h (indexStep h tns ix p) (L ++ [(p, tns)]) := by
  have hlen : ix.eltByID.length = L.length := by rw [hi.ids]; simp
  have hmap : (indexStep h tns ix p).idByName = match keyOf h (p, tns) with
      | some key => GoMap.set ix.idByName key L.length
      | none => ix.idByName := by
    unfold indexStep keyOf
    rw [← hlen]
    dsimp only
    cases h.get p with
    | none => rfl
    | some el =>
      dsimp only [Option.bind_some]
      by_cases hn : el.attr [] b!"name" ≠ []
      · rw [if_pos hn, if_pos hn]
      · rw [if_neg hn, if_neg hn]
  refine ⟨by simp [indexStep, hi.ids], ?_, ?_⟩
  · intro key id hk
    rw [hmap] at hk
    have hold : ix.idByName.get key = some id → ∃ pt, (L ++ [(p, tns)])[id]? = some pt ∧ keyOf h pt = some key := by
      intro hk
      obtain ⟨pt, h1, h2⟩ := hi.sound key id hk
      exact ⟨pt, by rw [List.getElem?_append_left (List.getElem?_eq_some_iff.mp h1).1]; exact h1, h2⟩
    cases hp : keyOf h (p, tns) with
    | none => rw [hp] at hk; exact hold hk
    | some key' =>
      rw [hp] at hk
      dsimp only at hk
      rw [GoMap.get_set] at hk
      split at hk
      · rename_i heq
        cases hk
        exact ⟨(p, tns), by simp, by rw [hp, heq]⟩
      · exact hold hk
  · intro pt hpt key hk
    rw [hmap]
    cases hp : keyOf h (p, tns) with
    | none =>
      rcases List.mem_append.mp hpt with h1 | h1
      · exact hi.complete pt h1 key hk
      · simp only [List.mem_singleton] at h1
        rw [h1, hp] at hk; cases hk
    | some key' =>
      dsimp only
      rw [GoMap.get_set]
      split
      · rfl
      · rename_i hne
        rcases List.mem_append.mp hpt with h1 | h1
        · exact hi.complete pt h1 key hk
        · simp only [List.mem_singleton] at h1
          rw [h1, hp] at hk; cases hk; exact absurd rfl hne

theorem indexed_fold {h : EHeap} (tns : Str) (ps : List Ptr) : ∀ {ix : Index} {L : List (Ptr × Str)}, Indexed h ix L →
    Indexed h (ps.foldl (indexStep h tns) ix) (L ++ ps.map fun p => (p, tns)) := by
  induction ps with
  | nil => intro ix L hi; simpa using hi
  | cons p ps ih =>
    intro ix L hi
    have := ih (indexed_step hi tns p)
    simpa [List.append_assoc] using this

/-- What `indexSchema` makes: the elements below the roots, each with the target namespace of its schema. -/
theorem indexed_schemas {h : EHeap} {n : Nat} (roots : List Ptr) : ∀ {ix ix' : Index} {L : List (Ptr × Str)}, Indexed h ix L →
    indexSchemas h n roots ix = some ix' → ∃ M, Indexed h ix' (L ++ M) ∧
      ∀ p tns, (p, tns) ∈ M ↔ ∃ root ∈ roots, ∃ r, h.get root = some r ∧ tns = r.attr [] b!"targetNamespace" ∧ Below h root p ∧
        (h.get p).isSome := by
  induction roots with
  | nil =>
    intro ix ix' L hi hx
    simp only [indexSchemas, Option.some.injEq] at hx
    subst hx
    exact ⟨[], by simpa using hi, by simp⟩
  | cons root roots ih =>
    intro ix ix' L hi hx
    rw [indexSchemas] at hx
    cases hg : h.get root with
    | none => rw [hg] at hx; cases hx
    | some r =>
      cases hs : searchPtr h n (fun _ => true) root with
      | none => rw [hg, hs] at hx; cases hx
      | some ps =>
        rw [hg, hs] at hx
        dsimp only at hx
        obtain ⟨M, h1, h2⟩ := ih (indexed_fold (r.attr [] b!"targetNamespace") ps hi) hx
        refine ⟨ps.map (fun p => (p, r.attr [] b!"targetNamespace")) ++ M, by rw [← List.append_assoc]; exact h1, ?_⟩
        intro p tns
        rw [List.mem_append, h2 p tns]
        constructor
        · rintro (h3 | ⟨root', h3, h4⟩)
          · obtain ⟨p', h4, h5⟩ := List.mem_map.mp h3
            cases h5
            obtain ⟨h6, e, h7, _⟩ := (searchPtr_mem hs p).mp h4
            exact ⟨root, by simp, r, hg, rfl, h6, by rw [h7]; rfl⟩
          · exact ⟨root', by simp [h3], h4⟩
        · rintro ⟨root', h3, r', h4, h5, h6, h7⟩
          rcases List.mem_cons.mp h3 with rfl | h3
          · rw [hg] at h4; cases h4
            left
            obtain ⟨e, he⟩ := Option.isSome_iff_exists.mp h7
            exact List.mem_map.mpr ⟨p, (searchPtr_mem hs p).mpr ⟨h6, e, he, rfl⟩, by rw [h5]⟩
          · exact Or.inr ⟨root', h3, r', h4, h5, h6, h7⟩

theorem indexed_nil (h : EHeap) : Indexed h {} [] :=
  ⟨rfl, by intro key id hk; simp [GoMap.get] at hk, by simp⟩

end GoXml.Xsd
