import Verif.Proofs.Graph

/-! Properties C23, C24, C25 of the dependency graph. -/

namespace GoXml.Dep

/-- C23. Whatever edges were added (cycles included), `Flatten` terminates and calls `walk`
exactly once for each vertex and for nothing else. -/
theorem C23_flatten_visits_once (ops : List (Int × Int)) :
    ∃ out, (Graph.build ops).flatten = some out ∧ out.Nodup ∧ ∀ v, v ∈ out ↔ IsVertex ops v := by
  obtain ⟨hV, hT, hF⟩ := fuel_ok ops
  obtain ⟨h1, h2, h3, h4⟩ := build_spec ops
  obtain ⟨st', hst, _⟩ := flattenGo_total _ hV (Graph.build ops).fuel (Graph.build ops).targets ⟨[], []⟩ hT hF
  obtain ⟨⟨new, a1, a2, a3, a4, a5⟩, hv⟩ := flattenGo_step (IsVertex ops)
    (fun v _ d hd => ⟨(v, d), (h4 v d).mp hd, Or.inr rfl⟩) _ _ _ _
    (fun t ht => by obtain ⟨d, hd⟩ := (h2 t).mp ht; exact ⟨(t, d), hd, Or.inl rfl⟩) hst
  simp only [List.nil_append] at a1
  refine ⟨st'.out, by simp [Graph.flatten, hst], a1 ▸ a2, ?_⟩
  intro v
  rw [a1]
  refine ⟨a5 v, ?_⟩
  have hvis : ∀ x ∈ st'.visited, x ∈ new := fun x hx => by simpa using (a3 x).mp hx
  rintro ⟨⟨t, d⟩, he, hvv⟩
  simp only at hvv
  rcases hvv with rfl | rfl
  · exact hvis _ (hv _ ((h2 _).mpr ⟨d, he⟩))
  · -- `t` was walked, so its dependencies were visited
    obtain ⟨f, s1, s2, hs1, hs2⟩ : ∃ f s1 s2, flattenGo (Graph.build ops).nodes f ((Graph.build ops).nodes t) s1 = some s2 ∧
        (∀ x ∈ s2.visited, x ∈ st'.visited) := by
      have hgen : ∀ (f : Nat) (ts : List Int) (s s' : WalkSt),
          flattenGo (Graph.build ops).nodes f ts s = some s' → ∀ x ∈ s'.visited, x ∉ s.visited →
          ∃ f s1 s2, flattenGo (Graph.build ops).nodes f ((Graph.build ops).nodes x) s1 = some s2 ∧
            (∀ y ∈ s2.visited, y ∈ s'.visited) := by
        intro f ts s
        induction f, ts, s using flattenGo_induct (Graph.build ops).nodes with
        | case1 f st => intro s' h x hx hn; simp [flattenGo_nil, flattenGo_zero] at h; subst h; exact absurd hx hn
        | case2 t ts st => intro s' h; simp [flattenGo_nil, flattenGo_zero] at h
        | case3 f t ts st hmem ih =>
          intro s' h
          rw [flattenGo_cons, if_pos hmem] at h
          exact ih s' h
        | case4 f t ts st hmem hnone ih =>
          intro s' h
          rw [flattenGo_cons, if_neg hmem, hnone] at h; cases h
        | case5 f t ts st hmem st1 hsome ih1 ih2 =>
          intro s' h x hx hn
          rw [flattenGo_cons, if_neg hmem, hsome] at h
          obtain ⟨⟨new2, _, _, b3, _⟩, _⟩ := flattenGo_step (nodes := (Graph.build ops).nodes)
            (fun _ => True) (fun _ _ _ _ => trivial) _ _ _ _ (by simp) h
          have hsub : ∀ y ∈ st1.visited, y ∈ s'.visited := fun y hy => (b3 y).mpr (Or.inl hy)
          by_cases hx1 : x ∈ st1.visited
          · by_cases hxt : x = t
            · subst hxt; exact ⟨f, _, st1, hsome, hsub⟩
            · obtain ⟨f', s1, s2, e1, e2⟩ := ih1 st1 hsome x hx1 (by simp [hxt, hn])
              exact ⟨f', s1, s2, e1, fun y hy => hsub y (e2 y hy)⟩
          · exact ih2 s' h x hx hx1
      exact hgen _ _ _ _ hst t (hv _ ((h2 t).mpr ⟨_, he⟩)) (by simp)
    obtain ⟨_, hs3⟩ := flattenGo_step (nodes := (Graph.build ops).nodes) (fun _ => True)
      (fun _ _ _ _ => trivial) _ _ _ _ (by simp) hs1
    exact hvis _ (hs2 _ (hs3 _ ((h4 t _).mpr he)))

/-- The statement of C23 on a graph with a cycle and a self-loop. -/
example : (Graph.build [(2, 1), (1, 2), (3, 3), (2, 7)]).flatten = some [7, 2, 1, 3] := by decide +kernel

/-- C24. A dependency that does not itself depend on the target is walked before the target. -/
theorem C24_flatten_topological (ops : List (Int × Int)) (t d : Int) (he : (t, d) ∈ ops)
    (hac : ¬ Reach ops d t) :
    ∃ out, (Graph.build ops).flatten = some out ∧ Before d t out := by
  obtain ⟨out, hout, _, hmem⟩ := C23_flatten_visits_once ops
  refine ⟨out, hout, ?_⟩
  obtain ⟨_, _, _, h4⟩ := build_spec ops
  simp only [Graph.flatten, Option.map_eq_some_iff] at hout
  obtain ⟨st', hst, rfl⟩ := hout
  have := flattenGo_order (nodes := (Graph.build ops).nodes) (Reach ops)
    (fun a b hb => Reach.edge ((h4 a b).mp hb)) (fun a b hab c hc => Reach.step hab ((h4 b c).mp hc))
    _ _ ⟨[], []⟩ st' (by simp) (by simp) hst
  rcases this t ((hmem t).mpr ⟨(t, d), he, Or.inl rfl⟩) d ((h4 t d).mpr he) with h | h
  · exact h
  · exact absurd h hac

/-- C24 for acyclic graphs: every vertex comes after all vertices it transitively depends on. -/
theorem C24_flatten_acyclic (ops : List (Int × Int)) (hac : ∀ v, ¬ Reach ops v v) :
    ∃ out, (Graph.build ops).flatten = some out ∧ ∀ t d, Reach ops t d → Before d t out := by
  obtain ⟨out, hout, hnd, hmem⟩ := C23_flatten_visits_once ops
  refine ⟨out, hout, ?_⟩
  have hpre : ∀ a b c, Reach ops a b → Reach ops b c → Reach ops a c := by
    intro a b c h1 h2
    induction h2 with
    | edge h => exact Reach.step h1 h
    | step _ h ih => exact Reach.step ih h
  have hedge : ∀ t d, (t, d) ∈ ops → Before d t out := by
    intro t d he
    obtain ⟨out', h1, h2⟩ := C24_flatten_topological ops t d he
      (fun h => hac t (hpre _ _ _ (Reach.edge he) h))
    rw [hout] at h1; obtain rfl := Option.some.inj h1; exact h2
  have htr : ∀ a b c, Before c b out → Before b a out → Before c a out := by
    rintro a b c ⟨l1, l2, l3, e1⟩ ⟨m1, m2, m3, e2⟩
    -- `b` occurs once in `out`
    have : l1 ++ c :: l2 = m1 := by
      have e3 : (l1 ++ c :: l2) ++ b :: l3 = m1 ++ b :: (m2 ++ a :: m3) := by
        rw [← e2, e1]; simp
      have hnd' : ((l1 ++ c :: l2) ++ b :: l3).Nodup := by
        have : (l1 ++ c :: l2) ++ b :: l3 = out := by rw [e1]; simp
        rw [this]; exact hnd
      have hb1 : b ∉ l1 ++ c :: l2 := by
        intro hb; exact (List.nodup_append.mp hnd').2.2 b hb b (by simp) rfl
      have hb2 : b ∉ m1 := by
        rw [e3] at hnd'
        intro hb; exact (List.nodup_append.mp hnd').2.2 b hb b (by simp) rfl
      have hgen : ∀ (p q r s : List Int), p ++ b :: r = q ++ b :: s → b ∉ p → b ∉ q → p = q := by
        intro p
        induction p with
        | nil =>
          intro q r s h _ hq
          cases q with
          | nil => rfl
          | cons y ys => simp at h; exact absurd (by simp [h.1]) hq
        | cons x xs ih =>
          intro q r s h hp hq
          cases q with
          | nil => simp at h; exact absurd (by simp [h.1]) hp
          | cons y ys =>
            simp at h hp hq
            rw [h.1, ih ys r s h.2 hp.2 hq.2]
      exact hgen _ _ _ _ e3 hb1 hb2
    refine ⟨l1, l2 ++ b :: m2, m3, ?_⟩
    rw [e2, ← this]; simp
  intro t d h
  induction h with
  | edge h => exact hedge _ _ h
  | step _ h2 ih => exact htr _ _ _ (hedge _ _ h2) ih

example : ∃ out, (Graph.build [(1, 2), (2, 3)]).flatten = some out ∧ Before 3 1 out :=
  ⟨[3, 2, 1], by decide +kernel, [], [2], [], rfl⟩

/-- A graph that meets the hypothesis of `C24_flatten_acyclic`. -/
example : ∀ v, ¬ Reach [(1, 2), (2, 3)] v v := by
  have : ∀ a b, Reach [(1, 2), (2, 3)] a b → a < b := by
    intro a b h
    induction h with
    | edge h => simp at h; omega
    | step _ h ih => simp at h; omega
  intro v h; have := this v v h; omega

/-- C25. The traversal and the number of targets depend on the set of edges only: neither the
order nor the repetition of `Add` calls matters. -/
theorem C25_flatten_edge_set (ops₁ ops₂ : List (Int × Int)) (h : ∀ e, e ∈ ops₁ ↔ e ∈ ops₂) :
    (Graph.build ops₁).flatten = (Graph.build ops₂).flatten ∧
    (Graph.build ops₁).len = (Graph.build ops₂).len := by
  have : Graph.build ops₁ = Graph.build ops₂ := by
    obtain ⟨a1, a2, a3, a4⟩ := build_spec ops₁
    obtain ⟨b1, b2, b3, b4⟩ := build_spec ops₂
    have ht : (Graph.build ops₁).targets = (Graph.build ops₂).targets :=
      asc_ext a1 b1 (fun x => by rw [a2, b2]; exact exists_congr fun d => h _)
    have hn : (Graph.build ops₁).nodes = (Graph.build ops₂).nodes := by
      funext t
      exact asc_ext (a3 t) (b3 t) (fun d => by rw [a4, b4]; exact h _)
    cases h1 : Graph.build ops₁; cases h2 : Graph.build ops₂
    rw [h1, h2] at ht hn
    simp only at ht hn
    rw [ht, hn]
  rw [this]; exact ⟨rfl, rfl⟩

/-- C25, `Len`: it is the length of any duplicate-free list of the distinct targets. -/
theorem C25_len_distinct_targets (ops : List (Int × Int)) (ts : List Int) (hnd : ts.Nodup)
    (hts : ∀ t, t ∈ ts ↔ ∃ d, (t, d) ∈ ops) : (Graph.build ops).len = ts.length := by
  obtain ⟨a1, a2, _, _⟩ := build_spec ops
  have hnd' : (Graph.build ops).targets.Nodup := a1.imp (fun h => by omega)
  exact ((List.perm_ext_iff_of_nodup hnd' hnd).mpr (fun x => by rw [a2, hts])).length_eq

example : (Graph.build [(5, 1), (2, 1), (5, 3), (5, 1)]).len = 2 := by decide +kernel

end GoXml.Dep
