import Verif.Spec.Tree

/-! Property C12: searching. -/

namespace GoXml

mutual
theorem searchAt_mem (fn : List Nat → Element → Bool) (path : List Nat) (el : Element)
    (p : List Nat) (e : Element) :
    (p, e) ∈ searchAt fn path el ↔ ∃ q, p = path ++ q ∧ el.at? q = some e ∧ fn p e = true := by
  match el with
  | .mk n a s c cs =>
    rw [searchAt, List.mem_append, walkAt_mem fn path 0 cs p e]
    constructor
    · rintro (h | ⟨j, q, h1, h2, h3⟩)
      · split at h
        · rename_i hf
          simp at h
          obtain ⟨rfl, rfl⟩ := h
          exact ⟨[], by simp, rfl, hf⟩
        · simp at h
      · refine ⟨j :: q, by simpa using h1, ?_, h3⟩
        simp only [Element.at?, Element.children]
        cases hj : cs[j]? with
        | none => rw [hj] at h2; simp at h2
        | some c => rw [hj] at h2; simpa using h2
    · rintro ⟨q, h1, h2, h3⟩
      cases q with
      | nil =>
        left
        simp only [Element.at?, Option.some.injEq] at h2
        subst h2
        simp only [List.append_nil] at h1
        subst h1
        simp [h3]
      | cons j q =>
        right
        refine ⟨j, q, by simpa using h1, ?_, h3⟩
        simp only [Element.at?, Element.children] at h2
        cases hj : cs[j]? with
        | none => rw [hj] at h2; simp at h2
        | some c => rw [hj] at h2; simpa using h2
theorem walkAt_mem (fn : List Nat → Element → Bool) (path : List Nat) (i : Nat) (cs : List Element)
    (p : List Nat) (e : Element) :
    (p, e) ∈ walkAt fn path i cs ↔ ∃ j q, p = path ++ (i + j) :: q ∧
      (cs[j]?.bind (fun c => c.at? q)) = some e ∧ fn p e = true := by
  match cs with
  | [] => simp [walkAt]
  | c :: cs =>
    rw [walkAt, List.mem_append, searchAt_mem fn (path ++ [i]) c p e, walkAt_mem fn path (i + 1) cs p e]
    constructor
    · rintro (⟨q, h1, h2, h3⟩ | ⟨j, q, h1, h2, h3⟩)
      · exact ⟨0, q, by simpa using h1, by simpa using h2, h3⟩
      · exact ⟨j + 1, q, by rw [h1]; simp; omega, by simpa using h2, h3⟩
    · rintro ⟨j, q, h1, h2, h3⟩
      cases j with
      | zero => left; exact ⟨q, by simpa using h1, by simpa using h2, h3⟩
      | succ j => right; exact ⟨j, q, by rw [h1]; simp; omega, by simpa using h2, h3⟩
end

mutual
theorem searchAt_order (fn : List Nat → Element → Bool) (path : List Nat) (el : Element) :
    ((searchAt fn path el).map (·.1)).Pairwise DocBefore := by
  match el with
  | .mk n a s c cs =>
    rw [searchAt, List.map_append, List.pairwise_append]
    refine ⟨?_, walkAt_order fn path 0 cs, ?_⟩
    · split <;> simp
    · intro p hp q hq
      have : p = path := by
        split at hp <;> simp at hp; exact hp
      subst this
      obtain ⟨⟨q', e⟩, hq1, rfl⟩ := List.mem_map.mp hq
      obtain ⟨j, r, h1, _, _⟩ := (walkAt_mem fn p 0 cs q' e).mp hq1
      simp only [h1]
      exact DocBefore.ancestor _ _ _
theorem walkAt_order (fn : List Nat → Element → Bool) (path : List Nat) (i : Nat) (cs : List Element) :
    ((walkAt fn path i cs).map (·.1)).Pairwise DocBefore := by
  match cs with
  | [] => simp [walkAt]
  | c :: cs =>
    rw [walkAt, List.map_append, List.pairwise_append]
    refine ⟨searchAt_order fn _ c, walkAt_order fn path (i + 1) cs, ?_⟩
    intro p hp q hq
    obtain ⟨⟨p', e⟩, hp1, rfl⟩ := List.mem_map.mp hp
    obtain ⟨⟨q', e'⟩, hq1, rfl⟩ := List.mem_map.mp hq
    obtain ⟨r, h1, _, _⟩ := (searchAt_mem fn _ c p' e).mp hp1
    obtain ⟨j, s, h2, _, _⟩ := (walkAt_mem fn path (i + 1) cs q' e').mp hq1
    simp only [h1, h2, List.append_assoc, List.singleton_append]
    exact DocBefore.sibling _ _ _ _ _ (by omega)
end

/-- Document order is irreflexive, so a list in strict document order has no repetitions. -/
theorem docBefore_irrefl (p : List Nat) : ¬ DocBefore p p := by
  intro h
  generalize hq : p = q at h
  have h' : DocBefore p q := by rw [hq]; exact hq ▸ h
  cases h' with
  | ancestor i q =>
    have := congrArg List.length hq
    simp at this
  | sibling p i j q r hij =>
    simp at hq
    omega

/-- C12. `SearchFunc` returns exactly the proper descendants that satisfy the predicate, in
document order. -/
theorem C12_searchFunc (root : Element) (fn : List Nat → Element → Bool) :
    (∀ p e, (p, e) ∈ root.searchFunc fn ↔ p ≠ [] ∧ root.at? p = some e ∧ fn p e = true) ∧
    ((root.searchFunc fn).map (·.1)).Pairwise DocBefore ∧
    ((root.searchFunc fn).map (·.1)).Nodup := by
  refine ⟨?_, walkAt_order fn [] 0 _, ?_⟩
  · intro p e
    rw [Element.searchFunc, walkAt_mem]
    constructor
    · rintro ⟨j, q, rfl, h2, h3⟩
      refine ⟨by simp, ?_, h3⟩
      simp only [List.nil_append, Nat.zero_add, Element.at?]
      cases hj : root.children[j]? with
      | none => rw [hj] at h2; simp at h2
      | some c => rw [hj] at h2; simpa using h2
    · rintro ⟨h1, h2, h3⟩
      cases p with
      | nil => exact absurd rfl h1
      | cons j q =>
        refine ⟨j, q, by simp, ?_, h3⟩
        simp only [Element.at?] at h2
        cases hj : root.children[j]? with
        | none => rw [hj] at h2; simp at h2
        | some c => rw [hj] at h2; simpa using h2
  · refine (walkAt_order fn [] 0 root.children).imp ?_
    intro a b h e
    subst e
    exact docBefore_irrefl a h

/-- C12 for `Flatten`: all proper descendants. -/
theorem C12_flatten (root : Element) :
    (∀ p e, (p, e) ∈ root.flatten ↔ p ≠ [] ∧ root.at? p = some e) ∧
    (root.flatten.map (·.1)).Pairwise DocBefore := by
  obtain ⟨h1, h2, _⟩ := C12_searchFunc root (fun _ _ => true)
  exact ⟨fun p e => by rw [Element.flatten, h1]; simp, h2⟩

/-- C12 for `Search`: the proper descendants with that local name, in that namespace unless it is
empty. -/
theorem C12_search (root : Element) (space loc : Str) :
    (∀ p e, (p, e) ∈ root.search space loc ↔ p ≠ [] ∧ root.at? p = some e ∧
      e.name.loc = loc ∧ (space = [] ∨ e.name.space = space)) ∧
    ((root.search space loc).map (·.1)).Pairwise DocBefore := by
  obtain ⟨h1, h2, _⟩ := C12_searchFunc root (fun _ el => nameMatches space loc el)
  refine ⟨fun p e => ?_, h2⟩
  rw [Element.search, h1]
  have : nameMatches space loc e = true ↔ e.name.loc = loc ∧ (space = [] ∨ e.name.space = space) := by
    unfold nameMatches
    split
    · rename_i h; simp only [Bool.false_eq_true, false_iff, not_and]; intro h'; exact absurd h'.symm h
    · rename_i h
      simp only [ne_eq, Decidable.not_not] at h
      rw [decide_eq_true_iff]
      constructor
      · intro h2; exact ⟨h.symm, h2.imp id Eq.symm⟩
      · intro h2; exact h2.2.imp id Eq.symm
  simp only [this]

/-- A tree in which the match is below another match. -/
example :
    let leaf := Element.mk ⟨b!"u", b!"a"⟩ [] [] [] []
    let root := Element.mk ⟨b!"u", b!"a"⟩ [] [] []
      [.mk ⟨b!"v", b!"a"⟩ [] [] [] [leaf, .mk ⟨b!"u", b!"b"⟩ [] [] [] []], leaf]
    (root.search b!"u" b!"a").map (·.1) = [[0, 0], [1]] ∧
    (root.search [] b!"a").map (·.1) = [[0], [0, 0], [1]] ∧
    (root.flatten).map (·.1) = [[0], [0, 0], [0, 1], [1]] := by decide +kernel

end GoXml
