import Verif.Model.Graph
import Verif.Spec.Graph

/-! Helper lemmas for the dependency graph. -/

namespace GoXml.Dep

abbrev Asc (l : List Int) : Prop := l.Pairwise (· < ·)

theorem asc_getD {l : List Int} (h : Asc l) {i j : Nat} (hij : i < j) (hj : j < l.length) :
    l.getD i 0 < l.getD j 0 := by
  have := List.pairwise_iff_getElem.mp h i j (by omega) hj hij
  simpa [List.getD_eq_getElem?_getD, List.getElem?_eq_getElem, hj, (by omega : i < l.length)] using this

theorem searchLoop_spec (a : List Int) (x : Int) (ha : Asc a) (n i j : Nat)
    (hn : j - i ≤ n) (hij : i ≤ j) (hj : j ≤ a.length)
    (hlo : ∀ k, k < i → a.getD k 0 < x) (hhi : ∀ k, j ≤ k → k < a.length → x ≤ a.getD k 0) :
    let r := searchLoop a x n i j
    r ≤ a.length ∧ (∀ k, k < r → a.getD k 0 < x) ∧ (∀ k, r ≤ k → k < a.length → x ≤ a.getD k 0) := by
  induction n generalizing i j with
  | zero =>
    rw [searchLoop]
    have : i = j := by omega
    subst this
    exact ⟨hj, hlo, hhi⟩
  | succ n ih =>
    rw [searchLoop]
    by_cases h : i < j
    · rw [if_pos h]
      simp only
      generalize hm : (i + j) / 2 = m
      by_cases hx : a.getD m 0 < x
      · rw [if_pos hx]
        apply ih _ _ (by omega) (by omega) hj _ hhi
        intro k hk
        by_cases hkm : k = m
        · subst hkm; exact hx
        · have := asc_getD ha (i := k) (j := m) (by omega) (by omega)
          omega
      · rw [if_neg hx]
        apply ih _ _ (by omega) (by omega) (by omega) hlo
        intro k hk hkl
        by_cases hkm : k = m
        · subst hkm; omega
        · have := asc_getD ha (i := m) (j := k) (by omega) (by omega)
          omega
    · rw [if_neg h]
      have : i = j := by omega
      subst this
      exact ⟨hj, hlo, hhi⟩

theorem searchInts_spec (a : List Int) (x : Int) (ha : Asc a) :
    searchInts a x ≤ a.length ∧ (∀ k, k < searchInts a x → a.getD k 0 < x) ∧
      (∀ k, searchInts a x ≤ k → k < a.length → x ≤ a.getD k 0) :=
  searchLoop_spec a x ha a.length 0 a.length (by omega) (by omega) (by omega)
    (by intro k hk; omega) (by intro k h1 h2; omega)

theorem insertUnique_spec (a : List Int) (x : Int) (ha : Asc a) :
    Asc (insertUnique a x) ∧ ∀ y, y ∈ insertUnique a x ↔ y = x ∨ y ∈ a := by
  obtain ⟨hlen, hlo, hhi⟩ := searchInts_spec a x ha
  have hsplit := List.take_append_drop (searchInts a x) a
  have htake : ∀ y ∈ a.take (searchInts a x), y < x := by
    intro y hy
    obtain ⟨k, hk, rfl⟩ := List.mem_iff_getElem.mp hy
    simp at hk
    have := hlo k (by omega)
    rw [List.getD_eq_getElem?_getD, List.getElem?_eq_getElem (by omega)] at this
    simpa using this
  have hdrop : ∀ y ∈ a.drop (searchInts a x), x ≤ y := by
    intro y hy
    obtain ⟨k, hk, rfl⟩ := List.mem_iff_getElem.mp hy
    simp at hk
    have := hhi (searchInts a x + k) (by omega) (by omega)
    rw [List.getD_eq_getElem?_getD, List.getElem?_eq_getElem (by omega)] at this
    simpa using this
  unfold insertUnique
  simp only
  split
  · rename_i hcond
    have hne : x ∉ a.drop (searchInts a x) := by
      intro hx
      obtain ⟨k, hk, hxk⟩ := List.mem_iff_getElem.mp hx
      simp at hk
      simp at hxk
      rcases hcond with hc | hc
      · omega
      · by_cases hk0 : k = 0
        · subst hk0
          apply hc
          rw [List.getD_eq_getElem?_getD, List.getElem?_eq_getElem (by omega)]
          simpa using hxk
        · have h1 := asc_getD ha (i := searchInts a x) (j := searchInts a x + k) (by omega) (by omega)
          have h2 := hhi (searchInts a x) (by omega) (by omega)
          have h3 : a.getD (searchInts a x + k) 0 = x := by
            rw [List.getD_eq_getElem?_getD, List.getElem?_eq_getElem (by omega)]
            simpa using hxk
          omega
    constructor
    · rw [Asc, List.pairwise_append]
      have hP : Asc (a.take (searchInts a x) ++ a.drop (searchInts a x)) := by rw [hsplit]; exact ha
      rw [Asc, List.pairwise_append] at hP
      refine ⟨hP.1, ?_, ?_⟩
      · rw [List.pairwise_cons]
        refine ⟨?_, hP.2.1⟩
        intro y hy
        have := hdrop y hy
        have : y ≠ x := fun h => hne (h ▸ hy)
        omega
      · intro u hu v hv
        have := htake u hu
        rcases List.mem_cons.mp hv with rfl | hv
        · exact this
        · exact hP.2.2 u hu v hv
    · intro y
      have hm : y ∈ a ↔ y ∈ a.take (searchInts a x) ∨ y ∈ a.drop (searchInts a x) := by
        rw [← List.mem_append, hsplit]
      rw [hm]
      simp only [List.mem_append, List.mem_cons]
      constructor <;> rintro (h | h | h) <;> simp [h]
  · rename_i hcond
    simp only [not_or, Nat.not_le, ne_eq, Decidable.not_not] at hcond
    refine ⟨ha, fun y => ⟨Or.inr, ?_⟩⟩
    rintro (rfl | h)
    · obtain ⟨hl, he⟩ := hcond
      rw [List.getD_eq_getElem?_getD, List.getElem?_eq_getElem hl] at he
      simp at he
      rw [← he]; exact List.getElem_mem hl
    · exact h

theorem asc_ext {a b : List Int} (ha : Asc a) (hb : Asc b) (h : ∀ x, x ∈ a ↔ x ∈ b) : a = b := by
  induction a generalizing b with
  | nil =>
    cases b with
    | nil => rfl
    | cons y ys => exact absurd ((h y).mpr (by simp)) (by simp)
  | cons x xs ih =>
    cases b with
    | nil => exact absurd ((h x).mp (by simp)) (by simp)
    | cons y ys =>
      obtain ⟨ha1, ha2⟩ := List.pairwise_cons.mp ha
      obtain ⟨hb1, hb2⟩ := List.pairwise_cons.mp hb
      have hxy : x = y := by
        have h1 := (h x).mp (by simp)
        have h2 := (h y).mpr (by simp)
        rcases List.mem_cons.mp h1 with h1 | h1
        · exact h1
        · rcases List.mem_cons.mp h2 with h2 | h2
          · exact h2.symm
          · have := ha1 y h2
            have := hb1 x h1
            omega
      subst hxy
      congr 1
      apply ih ha2 hb2
      intro z
      constructor
      · intro hz
        rcases List.mem_cons.mp ((h z).mp (by simp [hz])) with e | e
        · subst e; exact absurd (ha1 z hz) (by omega)
        · exact e
      · intro hz
        rcases List.mem_cons.mp ((h z).mpr (by simp [hz])) with e | e
        · subst e; exact absurd (hb1 z hz) (by omega)
        · exact e

/-- What a graph built from a list of edges holds. -/
theorem build_spec (ops : List (Int × Int)) :
    Asc (Graph.build ops).targets ∧ (∀ t, t ∈ (Graph.build ops).targets ↔ ∃ d, (t, d) ∈ ops) ∧
    (∀ t, Asc ((Graph.build ops).nodes t)) ∧
    (∀ t d, d ∈ (Graph.build ops).nodes t ↔ (t, d) ∈ ops) := by
  suffices H : ∀ (done : List (Int × Int)) (g : Graph),
      (Asc g.targets ∧ (∀ t, t ∈ g.targets ↔ ∃ d, (t, d) ∈ done) ∧ (∀ t, Asc (g.nodes t)) ∧
        (∀ t d, d ∈ g.nodes t ↔ (t, d) ∈ done)) →
      (let g' := ops.foldl (fun g e => g.add e.1 e.2) g
       Asc g'.targets ∧ (∀ t, t ∈ g'.targets ↔ ∃ d, (t, d) ∈ done ++ ops) ∧ (∀ t, Asc (g'.nodes t)) ∧
        (∀ t d, d ∈ g'.nodes t ↔ (t, d) ∈ done ++ ops)) by
    have := H [] Graph.empty (by simp [Graph.empty, Asc])
    simpa [Graph.build] using this
  induction ops with
  | nil => intro done g h; simpa using h
  | cons e es ih =>
    intro done g h
    obtain ⟨t0, d0⟩ := e
    have := ih (done ++ [(t0, d0)]) (g.add t0 d0) ?_
    · simpa [List.append_assoc] using this
    obtain ⟨h1, h2, h3, h4⟩ := h
    obtain ⟨i1, i2⟩ := insertUnique_spec g.targets t0 h1
    refine ⟨i1, ?_, ?_, ?_⟩
    · intro t
      show t ∈ insertUnique g.targets t0 ↔ _
      rw [i2, h2]
      constructor
      · rintro (rfl | ⟨d, hd⟩)
        · exact ⟨d0, by simp⟩
        · exact ⟨d, by simp [hd]⟩
      · rintro ⟨d, hd⟩
        rcases List.mem_append.mp hd with hd | hd
        · exact Or.inr ⟨d, hd⟩
        · simp at hd; exact Or.inl hd.1
    · intro t
      show Asc (if t = t0 then insertUnique (g.nodes t0) d0 else g.nodes t)
      split
      · exact (insertUnique_spec _ _ (h3 _)).1
      · exact h3 t
    · intro t d
      show d ∈ (if t = t0 then insertUnique (g.nodes t0) d0 else g.nodes t) ↔ _
      split
      · rename_i ht; subst ht
        rw [(insertUnique_spec _ _ (h3 _)).2, h4]
        simp [or_comm]
      · rename_i ht
        rw [h4]; simp [ht]

/-! Depth-first traversal -/

variable {nodes : Int → List Int}

theorem flattenGo_nil (f : Nat) (st : WalkSt) : flattenGo nodes f [] st = some st := by
  cases f <;> rfl

theorem flattenGo_zero (t : Int) (ts : List Int) (st : WalkSt) :
    flattenGo nodes 0 (t :: ts) st = none := rfl

theorem flattenGo_cons (f : Nat) (t : Int) (ts : List Int) (st : WalkSt) :
    flattenGo nodes (f + 1) (t :: ts) st =
      if t ∈ st.visited then flattenGo nodes (f + 1) ts st
      else match flattenGo nodes f (nodes t) ⟨t :: st.visited, st.out⟩ with
        | none => none
        | some st1 => flattenGo nodes (f + 1) ts ⟨st1.visited, st1.out ++ [t]⟩ := rfl

theorem flattenGo_induct (nodes : Int → List Int) (motive : Nat → List Int → WalkSt → Prop)
    (case1 : ∀ f st, motive f [] st)
    (case2 : ∀ t ts st, motive 0 (t :: ts) st)
    (case3 : ∀ f t ts st, t ∈ st.visited → motive (f + 1) ts st → motive (f + 1) (t :: ts) st)
    (case4 : ∀ f t ts st, t ∉ st.visited →
      flattenGo nodes f (nodes t) ⟨t :: st.visited, st.out⟩ = none →
      motive f (nodes t) ⟨t :: st.visited, st.out⟩ → motive (f + 1) (t :: ts) st)
    (case5 : ∀ f t ts st, t ∉ st.visited → ∀ st1,
      flattenGo nodes f (nodes t) ⟨t :: st.visited, st.out⟩ = some st1 →
      motive f (nodes t) ⟨t :: st.visited, st.out⟩ →
      motive (f + 1) ts ⟨st1.visited, st1.out ++ [t]⟩ → motive (f + 1) (t :: ts) st)
    (f : Nat) (ts : List Int) (st : WalkSt) : motive f ts st := by
  induction f generalizing ts st with
  | zero =>
    cases ts with
    | nil => exact case1 0 st
    | cons t ts => exact case2 t ts st
  | succ f ihf =>
    induction ts generalizing st with
    | nil => exact case1 _ st
    | cons t ts iht =>
      by_cases h : t ∈ st.visited
      · exact case3 f t ts st h (iht st)
      · cases h1 : flattenGo nodes f (nodes t) ⟨t :: st.visited, st.out⟩ with
        | none => exact case4 f t ts st h h1 (ihf _ _)
        | some st1 => exact case5 f t ts st h st1 h1 (ihf _ _) (iht _)

/-- Enough fuel: the number of unvisited vertices of a closed set `V`. -/
def unvisited (V visited : List Int) : Nat := (V.filter (fun v => decide (v ∉ visited))).length

theorem unvisited_mono {V a b : List Int} (h : ∀ x ∈ a, x ∈ b) : unvisited V b ≤ unvisited V a := by
  unfold unvisited
  induction V with
  | nil => simp
  | cons v vs ih =>
    simp only [List.filter_cons]
    by_cases h1 : v ∈ a
    · have := h v h1; simp_all
    · by_cases h2 : v ∈ b
      · simp_all; omega
      · simp_all

theorem unvisited_lt {V a : List Int} {t : Int} (ht : t ∈ V) (hna : t ∉ a) :
    unvisited V (t :: a) < unvisited V a := by
  unfold unvisited
  induction V with
  | nil => simp at ht
  | cons v vs ih =>
    by_cases hv : v = t
    · subst hv
      have := unvisited_mono (V := vs) (a := a) (b := v :: a) (by simp_all)
      unfold unvisited at this
      simp only [List.filter_cons]
      simp_all; omega
    · have ht' : t ∈ vs := by
        rcases List.mem_cons.mp ht with h | h
        · exact absurd h.symm hv
        · exact h
      have := ih ht'
      simp only [List.filter_cons]
      by_cases h1 : v ∈ a
      · simp_all
      · simp_all

/-- The traversal never runs out of fuel. -/
theorem flattenGo_total (V : List Int) (hV : ∀ v ∈ V, ∀ d ∈ nodes v, d ∈ V) :
    ∀ (f : Nat) (ts : List Int) (st : WalkSt), (∀ t ∈ ts, t ∈ V) → unvisited V st.visited < f →
      ∃ st', flattenGo nodes f ts st = some st' ∧ (∀ x ∈ st.visited, x ∈ st'.visited) := by
  intro f ts st
  induction f, ts, st using flattenGo_induct nodes with
  | case1 f st => intro _ _; exact ⟨st, by simp [flattenGo_nil, flattenGo_zero], fun _ h => h⟩
  | case2 t ts st => intro _ h; omega
  | case3 f t ts st hmem ih =>
    intro hts hf
    rw [flattenGo_cons, if_pos hmem]
    exact ih (fun x hx => hts x (by simp [hx])) hf
  | case4 f t ts st hmem hnone ih =>
    intro hts hf
    have hlt := unvisited_lt (V := V) (hts t (by simp)) hmem
    obtain ⟨st', hst', _⟩ := ih (fun d hd => hV t (hts t (by simp)) d hd) (by simp only; omega)
    rw [hnone] at hst'; cases hst'
  | case5 f t ts st hmem st1 hsome ih1 ih2 =>
    intro hts hf
    have hlt := unvisited_lt (V := V) (hts t (by simp)) hmem
    obtain ⟨st', hst', hsub⟩ := ih1 (fun d hd => hV t (hts t (by simp)) d hd) (by simp only; omega)
    rw [hsome] at hst'
    obtain rfl := Option.some.inj hst'
    have hsub' : ∀ x ∈ st.visited, x ∈ st1.visited := fun x hx => hsub x (by simp [hx])
    have := unvisited_mono (V := V) hsub'
    obtain ⟨st'', h1, h2⟩ := ih2 (fun x hx => hts x (by simp [hx])) (by simp only; omega)
    refine ⟨st'', ?_, fun x hx => h2 x (hsub' x hx)⟩
    rw [flattenGo_cons, if_neg hmem, hsome]
    exact h1

/-- Structure of a traversal: what is new in `visited` and in `out`. -/
structure Step (P : Int → Prop) (st st' : WalkSt) : Prop where
  ext : ∃ new, st'.out = st.out ++ new ∧ new.Nodup ∧
    (∀ x, x ∈ st'.visited ↔ x ∈ st.visited ∨ x ∈ new) ∧ (∀ x ∈ new, x ∉ st.visited) ∧ (∀ x ∈ new, P x)

theorem flattenGo_step (P : Int → Prop) (hP : ∀ v, P v → ∀ d ∈ nodes v, P d) :
    ∀ (f : Nat) (ts : List Int) (st st' : WalkSt), (∀ t ∈ ts, P t) →
      flattenGo nodes f ts st = some st' → Step P st st' ∧ ∀ t ∈ ts, t ∈ st'.visited := by
  intro f ts st
  induction f, ts, st using flattenGo_induct nodes with
  | case1 f st =>
    intro st' _ h
    rw [flattenGo_nil] at h
    obtain rfl := Option.some.inj h
    exact ⟨⟨[], by simp⟩, by simp⟩
  | case2 t ts st => intro st' _ h; simp [flattenGo_nil, flattenGo_zero] at h
  | case3 f t ts st hmem ih =>
    intro st' hts h
    rw [flattenGo_cons, if_pos hmem] at h
    obtain ⟨hs, hv⟩ := ih st' (fun x hx => hts x (by simp [hx])) h
    refine ⟨hs, ?_⟩
    intro x hx
    rcases List.mem_cons.mp hx with rfl | hx
    · obtain ⟨new, _, _, h3, _⟩ := hs.ext
      exact (h3 _).mpr (Or.inl hmem)
    · exact hv x hx
  | case4 f t ts st hmem hnone ih =>
    intro st' hts h
    rw [flattenGo_cons, if_neg hmem, hnone] at h; cases h
  | case5 f t ts st hmem st1 hsome ih1 ih2 =>
    intro st' hts h
    rw [flattenGo_cons, if_neg hmem, hsome] at h
    obtain ⟨⟨new1, a1, a2, a3, a4, a5⟩, hv1⟩ := ih1 st1 (hP t (hts t (by simp))) hsome
    obtain ⟨⟨new2, b1, b2, b3, b4, b5⟩, hv2⟩ := ih2 st' (fun x hx => hts x (by simp [hx])) h
    simp only at a1 a3 a4 b1 b3 b4
    have htn : t ∉ new1 := fun hx => a4 t hx (by simp)
    have htv : t ∈ st1.visited := (a3 t).mpr (Or.inl (by simp))
    refine ⟨⟨new1 ++ t :: new2, ?_, ?_, ?_, ?_, ?_⟩, ?_⟩
    · rw [b1, a1]; simp
    · rw [List.nodup_append]
      refine ⟨a2, ?_, ?_⟩
      · rw [List.nodup_cons]; exact ⟨fun hx => b4 t hx htv, b2⟩
      · intro x hx y hy hxy
        subst hxy
        rcases List.mem_cons.mp hy with rfl | hy
        · exact htn hx
        · exact b4 x hy ((a3 x).mpr (Or.inr hx))
    · intro x
      rw [b3, a3]
      simp only [List.mem_cons, List.mem_append]
      constructor
      · rintro (((h | h) | h) | h) <;> simp [h]
      · rintro (h | h | h | h) <;> simp [h]
    · intro x hx
      rcases List.mem_append.mp hx with hx | hx
      · intro hxv; exact a4 x hx (by simp [hxv])
      · rcases List.mem_cons.mp hx with rfl | hx
        · exact hmem
        · intro hxv; exact b4 x hx ((a3 x).mpr (Or.inl (by simp [hxv])))
    · intro x hx
      rcases List.mem_append.mp hx with hx | hx
      · exact a5 x hx
      · rcases List.mem_cons.mp hx with rfl | hx
        · exact hts x (by simp)
        · exact b5 x hx
    · intro x hx
      rcases List.mem_cons.mp hx with rfl | hx
      · exact (b3 _).mpr (Or.inl htv)
      · exact hv2 x hx

theorem before_append {a b : Int} {l r : List Int} (h : Before a b l) : Before a b (l ++ r) := by
  obtain ⟨l1, l2, l3, rfl⟩ := h
  exact ⟨l1, l2, l3 ++ r, by simp⟩

theorem before_snoc {a b : Int} {l : List Int} (h : a ∈ l) : Before a b (l ++ [b]) := by
  obtain ⟨l1, l2, rfl⟩ := List.append_of_mem h
  exact ⟨l1, l2, [], by simp⟩

/-- Order invariant. `R` is any transitive-by-edges relation containing the edges. -/
theorem flattenGo_order (R : Int → Int → Prop) (hedge : ∀ a, ∀ b ∈ nodes a, R a b)
    (htrans : ∀ a b, R a b → ∀ c ∈ nodes b, R a c) :
    ∀ (f : Nat) (ts : List Int) (st st' : WalkSt),
      (∀ s, s ∈ st.visited → s ∉ st.out → ∀ t ∈ ts, R s t) →
      (∀ v ∈ st.out, ∀ d ∈ nodes v, Before d v st.out ∨ R d v) →
      flattenGo nodes f ts st = some st' →
      (∀ v ∈ st'.out, ∀ d ∈ nodes v, Before d v st'.out ∨ R d v) := by
  intro f ts st
  induction f, ts, st using flattenGo_induct nodes with
  | case1 f st =>
    intro st' _ hI h
    rw [flattenGo_nil] at h
    obtain rfl := Option.some.inj h
    exact hI
  | case2 t ts st => intro st' _ _ h; simp [flattenGo_nil, flattenGo_zero] at h
  | case3 f t ts st hmem ih =>
    intro st' hst hI h
    rw [flattenGo_cons, if_pos hmem] at h
    exact ih st' (fun s h1 h2 x hx => hst s h1 h2 x (by simp [hx])) hI h
  | case4 f t ts st hmem hnone ih =>
    intro st' _ _ h
    rw [flattenGo_cons, if_neg hmem, hnone] at h; cases h
  | case5 f t ts st hmem st1 hsome ih1 ih2 =>
    intro st' hst hI h
    rw [flattenGo_cons, if_neg hmem, hsome] at h
    obtain ⟨⟨new1, a1, a2, a3, a4, _⟩, hv1⟩ :=
      flattenGo_step (nodes := nodes) (fun _ => True) (fun _ _ _ _ => trivial) f (nodes t) _ st1 (by simp) hsome
    simp only at a1 a3 a4
    have hI1 := ih1 st1 (by
      intro s hs hso d hd
      simp only at hs hso
      rcases List.mem_cons.mp hs with rfl | hs
      · exact hedge s d hd
      · exact htrans s t (hst s hs hso t (by simp)) d hd) hI hsome
    apply ih2 st' _ _ h
    · intro s hs hso x hx
      simp only at hs hso
      rcases (a3 s).mp hs with hs | hs
      · rcases List.mem_cons.mp hs with rfl | hs
        · exact absurd (by simp) hso
        · apply hst s hs _ x (by simp [hx])
          intro hso'; apply hso; rw [a1]; simp [hso']
      · exact absurd (by rw [a1]; simp [hs]) hso
    · intro v hv d hd
      simp only at hv ⊢
      rcases List.mem_append.mp hv with hv | hv
      · rcases hI1 v hv d hd with h | h
        · exact Or.inl (before_append h)
        · exact Or.inr h
      · simp at hv; subst hv
        by_cases hdo : d ∈ st1.out
        · exact Or.inl (before_snoc hdo)
        · right
          rcases (a3 d).mp (hv1 d hd) with hs | hs
          · rcases List.mem_cons.mp hs with rfl | hs
            · exact hedge d d hd
            · apply hst d hs _ v (by simp)
              intro hdo'; apply hdo; rw [a1]; simp [hdo']
          · exact absurd (by rw [a1]; simp [hs]) hdo

/-- All vertices of the built graph, as used for the fuel. -/
theorem fuel_ok (ops : List (Int × Int)) :
    let g := Graph.build ops
    let V := g.targets ++ g.targets.flatMap g.nodes
    (∀ v ∈ V, ∀ d ∈ g.nodes v, d ∈ V) ∧ (∀ t ∈ g.targets, t ∈ V) ∧ unvisited V [] < g.fuel := by
  obtain ⟨_, h2, _, h4⟩ := build_spec ops
  refine ⟨?_, ?_, ?_⟩
  · intro v _ d hd
    have he := (h4 v d).mp hd
    apply List.mem_append_right
    rw [List.mem_flatMap]
    exact ⟨v, (h2 v).mpr ⟨d, he⟩, hd⟩
  · intro t ht; exact List.mem_append_left _ ht
  · unfold unvisited Graph.fuel
    have := List.length_filter_le (fun v => decide (v ∉ ([] : List Int)))
      ((Graph.build ops).targets ++ (Graph.build ops).targets.flatMap (Graph.build ops).nodes)
    omega

end GoXml.Dep
