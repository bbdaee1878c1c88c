import Verif.Model.Alias
set_option autoImplicit false

/-! Helper lemmas for the memory model of scopes. -/

namespace GoXml.Alias

/-- The slice lies within memory. -/
structure Ok (h : Heap) (s : Slice) : Prop where
  len : s.len ≤ s.cap
  arr : s.arr < h.length
  cap : s.cap ≤ ((h[s.arr]?).getD []).length

theorem writeAt_nil (l : List XName) (i : Nat) : writeAt l i [] = l := by simp [writeAt]

theorem writeAt_length (l xs : List XName) (i : Nat) (h : i + xs.length ≤ l.length) :
    (writeAt l i xs).length = l.length := by
  simp [writeAt]; omega

theorem writeAt_take (l xs : List XName) (i : Nat) (h : i + xs.length ≤ l.length) :
    (writeAt l i xs).take (i + xs.length) = l.take i ++ xs := by
  unfold writeAt
  rw [List.take_append_of_le_length (by simp; omega)]
  rw [List.take_of_length_le (by simp; omega)]

/-- `append` shows the old elements followed by the new ones. -/
theorem append_view (grow : Nat → Nat → Nat) (h : Heap) (s : Slice) (xs : List XName) (hs : Ok h s) :
    view (append grow h s xs).1 (append grow h s xs).2 = view h s ++ xs := by
  have h1 := hs.len
  have h2 := hs.arr
  have h3 := hs.cap
  simp only [append]
  split
  · rename_i hle
    simp only [view, List.getElem?_set_self h2, Option.getD_some]
    exact writeAt_take _ _ _ (by omega)
  · simp only [view, List.getElem?_append_right (Nat.le_refl _), Nat.sub_self, List.getElem?_cons_zero, Option.getD_some]
    have hlen : (List.take s.len ((h[s.arr]?).getD [])).length = s.len := by
      rw [List.length_take]; omega
    rw [List.take_append_of_le_length (by rw [List.length_append, hlen]; exact Nat.le_refl _)]
    rw [List.take_of_length_le (by rw [List.length_append, hlen]; exact Nat.le_refl _)]

theorem append_ok (grow : Nat → Nat → Nat) (h : Heap) (s : Slice) (xs : List XName) (hs : Ok h s) :
    Ok (append grow h s xs).1 (append grow h s xs).2 ∧ ∀ t, Ok h t → Ok (append grow h s xs).1 t := by
  have h1 := hs.len
  have h2 := hs.arr
  have h3 := hs.cap
  simp only [append]
  split
  · rename_i hle
    have key : ∀ t, Ok h t → Ok (h.set s.arr (writeAt ((h[s.arr]?).getD []) s.len xs)) t := by
      intro t ht
      refine ⟨ht.len, by simpa using ht.arr, ?_⟩
      by_cases he : s.arr = t.arr
      · rw [← he, List.getElem?_set_self h2]
        simp only [Option.getD_some]
        rw [writeAt_length _ _ _ (by omega), he]
        exact ht.cap
      · rw [List.getElem?_set_ne he]; exact ht.cap
    refine ⟨⟨hle, by simpa using h2, ?_⟩, key⟩
    exact (key s hs).cap
  · rename_i hle
    refine ⟨⟨Nat.le_max_left _ _, by simp, ?_⟩, ?_⟩
    · simp only [List.getElem?_append_right (Nat.le_refl _), Nat.sub_self, List.getElem?_cons_zero, Option.getD_some,
        List.length_append, List.length_replicate, view, List.length_take]
      omega
    · intro t ht
      refine ⟨ht.len, by simp; have := ht.arr; omega, ?_⟩
      rw [List.getElem?_append_left ht.arr]; exact ht.cap

/-- `append` to a full slice leaves everything else alone. -/
theorem append_full (grow : Nat → Nat → Nat) (h : Heap) (s : Slice) (xs : List XName)
    (hf : s.cap ≤ s.len ∨ xs = []) (t : Slice) (ht : Ok h t) (hs : Ok h s) :
    view (append grow h s xs).1 t = view h t := by
  simp only [append]
  split
  · rename_i hle
    have hx : xs = [] := by
      rcases hf with hf | hf
      · have := hs.len
        have : xs.length = 0 := by omega
        exact List.length_eq_zero_iff.mp this
      · exact hf
    subst hx
    simp only [writeAt_nil, view]
    by_cases he : s.arr = t.arr
    · rw [← he, List.getElem?_set_self hs.arr]
      simp
    · rw [List.getElem?_set_ne he]
  · simp only [view]
    rw [List.getElem?_append_left ht.arr]

/-- Every slice of the state lies within memory. -/
def AllOk (st : State) : Prop := ∀ s ∈ st.scopes, Ok st.heap s

theorem pushScope_ok (grow : Nat → Nat → Nat) (h : Heap) (s : Slice) (ns : List XName) (hs : Ok h s) :
    Ok (pushScope grow h s ns).1 (pushScope grow h s ns).2 ∧ ∀ t, Ok h t → Ok (pushScope grow h s ns).1 t := by
  obtain ⟨a1, a2⟩ := append_ok grow h s ns hs
  simp only [pushScope]
  split
  · exact ⟨⟨Nat.le_refl _, a1.arr, Nat.le_trans a1.len a1.cap⟩, a2⟩
  · exact ⟨hs, fun t ht => ht⟩

theorem step_ok (grow : Nat → Nat → Nat) (st : State) (op : Op) (h : AllOk st) : AllOk (step grow st op) := by
  unfold step
  cases op with
  | push i ns =>
    simp only
    split
    · exact h
    · rename_i s hs
      obtain ⟨a1, a2⟩ := pushScope_ok grow st.heap s ns (h s (List.mem_of_getElem? hs))
      intro t ht
      rcases List.mem_append.mp ht with ht | ht
      · exact a2 t (h t ht)
      · simp only [List.mem_singleton] at ht; subst ht; exact a1
  | join i j =>
    simp only
    split
    · rename_i s t hs hj
      obtain ⟨a1, a2⟩ := append_ok grow st.heap s (view st.heap t) (h s (List.mem_of_getElem? hs))
      intro x hx
      rcases List.mem_append.mp hx with hx | hx
      · exact a2 x (h x hx)
      · simp only [List.mem_singleton] at hx; subst hx; exact a1
    · exact h

theorem run_append (grow : Nat → Nat → Nat) (a b : List Op) :
    run grow (a ++ b) = b.foldl (step grow) (run grow a) := by
  unfold run; rw [List.foldl_append]

theorem foldl_ok (grow : Nat → Nat → Nat) (ops : List Op) (st : State) (h : AllOk st) :
    AllOk (ops.foldl (step grow) st) := by
  induction ops generalizing st with
  | nil => exact h
  | cons op ops ih => exact ih _ (step_ok grow st op h)

theorem start_ok : AllOk start := by
  intro s hs
  simp only [start, List.mem_singleton] at hs
  subst hs
  exact ⟨Nat.le_refl _, by simp [start], by simp⟩

theorem run_ok (grow : Nat → Nat → Nat) (ops : List Op) : AllOk (run grow ops) := foldl_ok grow ops _ start_ok

/-- The scope an operation appends to. -/
def Op.receiver : Op → Nat
  | .push i _ => i
  | .join i _ => i

/-- One operation on a full receiver. -/
theorem step_full (grow : Nat → Nat → Nat) (st : State) (op : Op) (h : AllOk st)
    (hf : ∀ s, st.scopes[op.receiver]? = some s → s.cap ≤ s.len) (i : Nat) (t : Slice)
    (ht : st.scopes[i]? = some t) :
    (step grow st op).scopes[i]? = some t ∧ view (step grow st op).heap t = view st.heap t := by
  have htm := List.mem_of_getElem? ht
  have hi : i < st.scopes.length := by
    obtain ⟨h, _⟩ := List.getElem?_eq_some_iff.mp ht; exact h
  unfold step
  cases op with
  | push r ns =>
    simp only
    split
    · exact ⟨ht, rfl⟩
    · rename_i s hs
      refine ⟨by rw [List.getElem?_append_left hi]; exact ht, ?_⟩
      unfold pushScope
      split
      · exact append_full grow _ _ _ (Or.inl (hf s hs)) t (h t htm) (h s (List.mem_of_getElem? hs))
      · rfl
  | join r j =>
    simp only
    split
    · rename_i s u hs hj
      refine ⟨by rw [List.getElem?_append_left hi]; exact ht, ?_⟩
      exact append_full grow _ _ _ (Or.inl (hf s hs)) t (h t htm) (h s (List.mem_of_getElem? hs))
    · exact ⟨ht, rfl⟩

end GoXml.Alias
