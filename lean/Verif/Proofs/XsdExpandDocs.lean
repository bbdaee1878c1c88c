import Verif.Proofs.XsdRefine
set_option autoImplicit false

/-! Expanding complex types in all documents. -/

namespace GoXml.Xsd

theorem expandAt_frame (grow : Nat → Nat → Nat) (h : EHeap) (p : Ptr) :
    h.length ≤ (expandAt grow h p).length ∧ ∀ q : Ptr, q.arr < h.length → q ≠ p → (expandAt grow h p).get q = h.get q := by
  cases hg : h.get p with
  | none =>
    have : expandAt grow h p = h := by unfold expandAt; rw [hg]
    rw [this]
    exact ⟨Nat.le_refl _, fun _ _ _ => rfl⟩
  | some el =>
    cases hc : (h.cells el.kids).any isContent with
    | true =>
      rw [expandAt_none grow hg hc]
      exact ⟨Nat.le_refl _, fun _ _ _ => rfl⟩
    | false =>
      obtain ⟨h1, h2, _⟩ := expandAt_spec grow hg hc
      exact ⟨h1, h2⟩

theorem expandFold_frame (grow : Nat → Nat → Nat) (ps : List Ptr) : ∀ (h : EHeap),
    h.length ≤ (ps.foldl (expandAt grow) h).length ∧ ∀ q : Ptr, q.arr < h.length → q ∉ ps → (ps.foldl (expandAt grow) h).get q = h.get q := by
  induction ps with
  | nil => intro h; exact ⟨Nat.le_refl _, fun _ _ _ => rfl⟩
  | cons p ps ih =>
    intro h
    obtain ⟨h1, h2⟩ := expandAt_frame grow h p
    obtain ⟨h3, h4⟩ := ih (expandAt grow h p)
    refine ⟨Nat.le_trans h1 h3, fun q hq hqp => ?_⟩
    rw [List.mem_cons, not_or] at hqp
    rw [List.foldl_cons, h4 q (Nat.lt_of_lt_of_le hq h1) hqp.2, h2 q hq hqp.1]

/-! ### Slices stay within their arrays -/

theorem slicesOk_cells {h : EHeap} (hh : ∀ a ∈ h, ∀ e ∈ a, SliceOk h e.kids) : SlicesOk h := by
  intro p e he
  unfold EHeap.get at he
  cases ha : h[p.arr]? with
  | none => rw [ha] at he; cases he
  | some a => rw [ha] at he; exact hh a (List.mem_of_getElem? ha) e (List.mem_of_getElem? he)

theorem slicesOk_mem {h : EHeap} (hs : SlicesOk h) : ∀ a ∈ h, ∀ e ∈ a, SliceOk h e.kids := by
  intro a ha e he
  obtain ⟨i, hi⟩ := List.getElem?_of_mem ha
  obtain ⟨j, hj⟩ := List.getElem?_of_mem he
  exact hs ⟨i, j⟩ e (by unfold EHeap.get; rw [hi]; exact hj)

theorem slicesOk_put {h : EHeap} (hs : SlicesOk h) (p : Ptr) {e : HElem} (he : SliceOk h e.kids) : SlicesOk (h.put p e) := by
  intro q d hd
  rw [arr_put_length]
  by_cases hqp : p = q
  · subst hqp
    cases hg : h.get p with
    | none =>
      have : (h.put p e).get p = none := by
        unfold EHeap.get EHeap.put at *
        rw [List.getElem?_modify]
        cases ha : h[p.arr]? with
        | none => rfl
        | some a =>
          rw [ha] at hg
          simp only [Option.bind_some, List.getElem?_eq_none_iff] at hg
          simp [hg]
      rw [this] at hd
      cases hd
    | some x =>
      rw [get_put_self e hg] at hd
      cases hd
      exact he
  · rw [get_put_ne e hqp] at hd
    exact hs q d hd

theorem padded_mem {cap : Nat} {cs : List HElem} {e : HElem} (he : e ∈ padded cap cs) : e ∈ cs ∨ e = zeroElem := by
  unfold padded at he
  rcases List.mem_append.mp he with he | he
  · exact .inl he
  · exact .inr (List.eq_of_mem_replicate he)

theorem slicesOk_more {h : EHeap} (hs : SlicesOk h) (new : EHeap) (hn : ∀ a ∈ new, ∀ e ∈ a, SliceOk (h ++ new) e.kids) : SlicesOk (h ++ new) := by
  refine slicesOk_cells fun a ha e he => ?_
  rcases List.mem_append.mp ha with ha | ha
  · exact sliceOk_append _ (slicesOk_mem hs a ha e he)
  · exact hn a ha e he

theorem slicesOk_appendCells (grow : Nat → Nat → Nat) {h : EHeap} (hs : SlicesOk h) {s : HSlice} (hsl : SliceOk h s) {xs : List HElem}
    (hx : ∀ x ∈ xs, SliceOk h x.kids) : SlicesOk (appendCells grow h s xs).1 ∧ SliceOk (appendCells grow h s xs).1 (appendCells grow h s xs).2 := by
  unfold appendCells
  dsimp only
  split
  · rename_i hle
    dsimp only
    have hlen : ∀ b : Nat, (((h.modify s.arr fun a => a.take s.len ++ xs ++ a.drop (s.len + xs.length))[b]?).getD []).length = ((h[b]?).getD []).length := by
      intro b
      rw [List.getElem?_modify]
      cases hb : h[b]? with
      | none => simp
      | some x =>
        by_cases hp : s.arr = b
        · subst hp
          rw [hb] at hle
          simp only [Option.getD_some] at hle
          simp
          omega
        · simp [hp]
    have hok : ∀ {s' : HSlice}, SliceOk h s' → SliceOk (h.modify s.arr fun a => a.take s.len ++ xs ++ a.drop (s.len + xs.length)) s' := by
      intro s' h'
      unfold SliceOk at *
      rw [hlen]
      exact h'
    refine ⟨slicesOk_cells fun a ha e he => hok ?_, ?_⟩
    · obtain ⟨i, hi⟩ := List.getElem?_of_mem ha
      rw [List.getElem?_modify] at hi
      cases hb : h[i]? with
      | none => rw [hb] at hi; simp at hi
      | some x =>
        rw [hb] at hi
        have hx' := slicesOk_mem hs x (List.mem_of_getElem? hb)
        by_cases hp : s.arr = i
        · simp only [hp, if_true, Option.map_eq_map, Option.map_some, Option.some.injEq] at hi
          subst hi
          rcases List.mem_append.mp he with he | he
          · rcases List.mem_append.mp he with he | he
            · exact hx' e (List.mem_of_mem_take he)
            · exact hx e he
          · exact hx' e (List.mem_of_mem_drop he)
        · simp only [hp, if_false, Option.map_eq_map, Option.map_some, Option.some.injEq] at hi
          subst hi
          exact hx' e he
    · unfold SliceOk
      rw [hlen]
      exact hle
  · dsimp only
    have hcl : (h.cells s).length = s.len := cells_length hsl
    refine ⟨slicesOk_more hs _ fun a ha e he => ?_, ?_⟩
    · rw [List.mem_singleton.mp ha] at he
      rcases padded_mem he with he | rfl
      · rcases List.mem_append.mp he with he | he
        · obtain ⟨i, _, hi⟩ := mem_cells.mp he
          exact sliceOk_append _ (hs _ _ hi)
        · exact sliceOk_append _ (hx e he)
      · exact Nat.zero_le _
    · unfold SliceOk
      simp only [List.getElem?_append_right (Nat.le_refl _), Nat.sub_self, List.getElem?_cons_zero, Option.getD_some]
      unfold padded
      simp only [List.length_append, List.length_replicate, hcl]
      omega

theorem slicesOk_expandAt (grow : Nat → Nat → Nat) {h : EHeap} (hs : SlicesOk h) (p : Ptr) : SlicesOk (expandAt grow h p) := by
  unfold expandAt
  cases hg : h.get p with
  | none => exact hs
  | some el =>
    dsimp only
    split
    · exact hs
    · have hcs : ∀ e ∈ h.cells el.kids, SliceOk h e.kids := by
        intro e he
        obtain ⟨i, _, hi⟩ := mem_cells.mp he
        exact hs _ _ hi
      generalize h.cells el.kids = cs at *
      have hm := Nat.le_refl (cs.filter (!staysInType ·)).length
      have h0 : ((h ++ [padded cs.length (cs.filter (!staysInType ·)), [⟨⟨schemaNS, b!"restriction"⟩, [⟨⟨[], b!"base"⟩, prefixOf el.scope ⟨schemaNS, b!"anyType"⟩⟩], el.scope, [],
          ⟨h.length, (cs.filter (!staysInType ·)).length⟩⟩], padded cs.length (cs.filter staysInType)] : EHeap)).length = h.length + 3 := by simp
      have hsl : SlicesOk (h ++ [padded cs.length (cs.filter (!staysInType ·)), [⟨⟨schemaNS, b!"restriction"⟩, [⟨⟨[], b!"base"⟩, prefixOf el.scope ⟨schemaNS, b!"anyType"⟩⟩], el.scope, [],
          ⟨h.length, (cs.filter (!staysInType ·)).length⟩⟩], padded cs.length (cs.filter staysInType)]) := by
        refine slicesOk_more hs _ fun a ha e he => ?_
        rcases List.mem_cons.mp ha with rfl | ha
        · rcases padded_mem he with he | rfl
          · exact sliceOk_append _ (hcs e (List.mem_filter.mp he).1)
          · exact Nat.zero_le _
        rcases List.mem_cons.mp ha with rfl | ha
        · rw [List.mem_singleton.mp he]
          unfold SliceOk padded
          simp
        · rw [List.mem_singleton.mp ha] at he
          rcases padded_mem he with he | rfl
          · exact sliceOk_append _ (hcs e (List.mem_filter.mp he).1)
          · exact Nat.zero_le _
      rw [h0]
      obtain ⟨r1, r2⟩ := slicesOk_appendCells grow hsl (s := ⟨h.length + 3 - 1, (cs.filter staysInType).length⟩)
        (xs := [⟨⟨schemaNS, b!"complexContent"⟩, [], el.scope, [], ⟨h.length + 1, 1⟩⟩])
        (by unfold SliceOk padded; simp) (by intro x hx; rw [List.mem_singleton.mp hx]; unfold SliceOk; simp)
      exact slicesOk_put r1 p r2

theorem slicesOk_expandFold (grow : Nat → Nat → Nat) (ps : List Ptr) : ∀ {h : EHeap}, SlicesOk h → SlicesOk (ps.foldl (expandAt grow) h) := by
  induction ps with
  | nil => intro h hs; exact hs
  | cons p ps ih => intro h hs; exact ih (slicesOk_expandAt grow hs p)

/-- A search looks only at the arrays of the tree. -/
theorem search_fixed {h h' : EHeap} (pred : HElem → Bool) (n : Nat) : ∀ {t : Element} {e : HElem} {fp : List Nat}, Owns h t e fp →
    (∀ a ∈ fp, ∀ j, h'.get ⟨a, j⟩ = h.get ⟨a, j⟩) → searchH h' pred n e.kids = searchH h pred n e.kids := by
  induction n with
  | zero => intro t e fp _ _; rfl
  | succ n ih =>
    intro t e fp ho hg
    obtain ⟨_, _, _, _, _, _, fps, rfl, h7⟩ := owns_iff.mp ho
    rw [searchH, searchH, cells_stable fun i _ => hg e.kids.arr (by simp) i]
    have key : ∀ (ks : List Element) (cs : List HElem) (fp : List Nat) (i : Nat), OwnsAll h ks cs fp → (∀ a ∈ fp, ∀ j, h'.get ⟨a, j⟩ = h.get ⟨a, j⟩) →
        searchCells (searchH h' pred n) pred e.kids.arr i cs = searchCells (searchH h pred n) pred e.kids.arr i cs := by
      intro ks
      induction ks with
      | nil =>
        intro cs fp i ho _
        cases cs with
        | nil => rfl
        | cons => simp [OwnsAll] at ho
      | cons k ks ih2 =>
        intro cs fp i ho hg
        cases cs with
        | nil => simp [OwnsAll] at ho
        | cons c cs =>
          obtain ⟨f, g, rfl, o1, o2⟩ := ho
          rw [searchCells, searchCells, ih o1 fun a ha => hg a (by simp [ha]), ih2 cs g (i + 1) o2 fun a ha => hg a (by simp [ha])]
    exact key t.children _ fps 0 h7 fun a ha => hg a (by simp [ha])

/-- What is below a root is in the arrays of the tree. -/
theorem below_fp {h : EHeap} {R p : Ptr} (hb : Below h R p) {t : Element} {r : HElem} {fp : List Nat} (hg : h.get R = some r) (ho : Owns h t r fp) :
    p.arr ∈ fp ∧ ∀ e, h.get p = some e → ∃ x f, Owns h x e f ∧ ∀ a ∈ f, a ∈ fp := by
  have key : ∀ {x : Element} {e : HElem} {f : List Nat} {q : Ptr}, Owns h x e f → (∀ a ∈ f, a ∈ fp) → KidOf e q →
      q.arr ∈ fp ∧ ∀ e, h.get q = some e → ∃ x f, Owns h x e f ∧ ∀ a ∈ f, a ∈ fp := by
    intro x e f q ho hf hk
    obtain ⟨_, _, _, _, _, h6, fps, rfl, h7⟩ := owns_iff.mp ho
    obtain ⟨k1, k2⟩ := hk
    rw [k1]
    refine ⟨hf _ (by simp), fun c hc => ?_⟩
    have hlt : q.idx < x.children.length := by rw [← h6]; exact k2
    obtain ⟨c', f', g1, g2, e1, e2, rfl, _⟩ := ownsAll_at _ h7 (List.getElem?_eq_getElem hlt)
    rw [cells_get, if_pos k2] at e1
    have : q = ⟨e.kids.arr, q.idx⟩ := by rw [← k1]
    rw [← this, hc] at e1
    cases e1
    exact ⟨_, f', e2, fun a ha => hf a (by simp [ha])⟩
  induction hb with
  | kid h1 h2 =>
    rw [hg] at h1
    cases h1
    exact key ho (fun _ h => h) h2
  | step _ h2 h3 ih =>
    obtain ⟨x, f, o1, o2⟩ := ih.2 _ h2
    exact key o1 o2 h3

theorem expand_run (grow : Nat → Nat → Nat) {n : Nat} {h : EHeap} : ∀ (docs : List (Ptr × Element)) (fps : List (List Nat)) (h1 : EHeap),
    List.Forall₂ (fun d fp => ∃ e, h.get d.1 = some e ∧ Owns h d.2 e fp) docs fps → fps.flatten.Nodup →
    (∀ d ∈ docs, d.1.arr ∉ fps.flatten) → (∀ d ∈ docs, depth d.2 ≤ n) → h.length ≤ h1.length → (∀ d ∈ docs, h1.get d.1 = h.get d.1) →
    (∀ a ∈ fps.flatten, ∀ j, h1.get ⟨a, j⟩ = h.get ⟨a, j⟩) →
    ∃ ps : List Ptr, eachRoot (expandComplexShorthand grow n) (docs.map (·.1)) h1 = some (ps.foldl (expandAt grow) h1) ∧
      ∀ p, p ∈ ps ↔ ∃ d ∈ docs, Below h d.1 p ∧ ∃ e, h.get p = some e ∧ e.name = ⟨schemaNS, b!"complexType"⟩ := by
  intro docs
  induction docs with
  | nil =>
    intro fps h1 _ _ _ _ _ _ _
    exact ⟨[], rfl, by simp⟩
  | cons d docs ih =>
    intro fps h1 hf hnd hR hn hl hd hfp
    cases hf with
    | @cons _ fp _ fps hd0 hf =>
      obtain ⟨r, hg, ho⟩ := hd0
      rw [List.flatten_cons] at hnd
      obtain ⟨nd1, nd2, nd3⟩ := List.nodup_append.mp hnd
      obtain ⟨ps0, hps0⟩ := searchPtr_reads (fun e => isElem schemaNS b!"complexType" e.tag) ⟨r, hg, owns_reads _ ho⟩ (hn d (by simp))
      have hsame : searchPtr h1 n (fun e => isElem schemaNS b!"complexType" e.tag) d.1 = some ps0 := by
        rw [← hps0]
        unfold searchPtr
        rw [hd d (by simp), hg, Option.bind_some, Option.bind_some]
        exact search_fixed _ n ho fun a ha j => hfp a (by rw [List.flatten_cons]; simp [ha]) j
      have hmem0 : ∀ p, p ∈ ps0 ↔ Below h d.1 p ∧ ∃ e, h.get p = some e ∧ e.name = ⟨schemaNS, b!"complexType"⟩ := by
        intro p
        rw [searchPtr_mem hps0 p]
        simp only [isElem_iff]
      have harr : ∀ p ∈ ps0, p.arr ∈ fp := fun p hp => (below_fp ((hmem0 p).mp hp).1 hg ho).1
      obtain ⟨f1, f2⟩ := expandFold_frame grow ps0 h1
      have hlt : ∀ d' ∈ docs, ∃ e, h.get d'.1 = some e := by
        intro d' hd'
        obtain ⟨i, hi⟩ := List.getElem?_of_mem hd'
        obtain ⟨e', h3, _⟩ := (List.forall₂_iff_get.mp hf).2 i (List.getElem?_eq_some_iff.mp hi).1 (by rw [← hf.length_eq]; exact (List.getElem?_eq_some_iff.mp hi).1)
        have h4 := (List.getElem?_eq_some_iff.mp hi).2
        simp only [List.get_eq_getElem, h4] at h3
        exact ⟨e', h3⟩
      have hrestF : ∀ a ∈ fps.flatten, a < h.length := by
        intro a ha
        obtain ⟨f, hfm, ha⟩ := List.mem_flatten.mp ha
        obtain ⟨i, hi⟩ := List.getElem?_of_mem hfm
        obtain ⟨e', _, h3⟩ := (List.forall₂_iff_get.mp hf).2 i (by rw [hf.length_eq]; exact (List.getElem?_eq_some_iff.mp hi).1) (List.getElem?_eq_some_iff.mp hi).1
        have h4 := (List.getElem?_eq_some_iff.mp hi).2
        simp only [List.get_eq_getElem, h4] at h3
        exact owns_lt _ h3 a ha
      obtain ⟨ps, i1, i2⟩ := ih fps (ps0.foldl (expandAt grow) h1) hf nd2
        (fun d' hd' hm => hR d' (by simp [hd']) (by rw [List.flatten_cons, List.mem_append]; exact Or.inr hm))
        (fun d' hd' => hn d' (by simp [hd'])) (Nat.le_trans hl f1)
        (fun d' hd' => by
          obtain ⟨e', he'⟩ := hlt d' hd'
          rw [f2 d'.1 (Nat.lt_of_lt_of_le (get_lt he') hl) (fun hm => hR d' (by simp [hd']) (by rw [List.flatten_cons, List.mem_append]; exact Or.inl (harr _ hm))),
            hd d' (by simp [hd'])])
        (fun a ha j => by
          rw [f2 ⟨a, j⟩ (Nat.lt_of_lt_of_le (hrestF a ha) hl) (fun hm => nd3 a (harr _ hm) a ha rfl),
            hfp a (by rw [List.flatten_cons, List.mem_append]; exact Or.inr ha) j])
      refine ⟨ps0 ++ ps, ?_, fun p => ?_⟩
      · rw [List.map_cons, eachRoot]
        unfold expandComplexShorthand
        rw [hsame, Option.map_some, Option.bind_some, List.foldl_append]
        exact i1
      · rw [List.mem_append, hmem0, i2]
        constructor
        · rintro (h3 | ⟨d', h3, h4⟩)
          · exact ⟨d, by simp, h3⟩
          · exact ⟨d', by simp [h3], h4⟩
        · rintro ⟨d', h3, h4⟩
          rcases List.mem_cons.mp h3 with rfl | h3
          · exact Or.inl h4
          · exact Or.inr ⟨d', h3, h4⟩

/-- C31 for any number of documents. -/
theorem expand_docs (grow : Nat → Nat → Nat) {n : Nat} {h : EHeap} {docs : List (Ptr × Element)} (hs : SlicesOk h) (hh : HoldsDocs h docs)
    (hn : ∀ d ∈ docs, depth d.2 ≤ n) (hno : ∀ d ∈ docs, NoNestedTypes d.2) :
    ∃ h', eachRoot (expandComplexShorthand grow n) (docs.map (·.1)) h = some h' ∧ SlicesOk h' ∧ ∀ d ∈ docs, Holds h' d.1 (expandBelow d.2) := by
  obtain ⟨fps, hf, hnd, _, hR⟩ := hh
  obtain ⟨ps, h1, h2⟩ := expand_run grow docs fps h hf hnd hR hn (Nat.le_refl _) (fun _ _ => rfl) fun _ _ _ => rfl
  have hdoc : ∀ d ∈ docs, ∃ r fp, h.get d.1 = some r ∧ Owns h d.2 r fp ∧ ∀ a ∈ fp, a ∈ fps.flatten := by
    intro d hd
    obtain ⟨i, hi⟩ := List.getElem?_of_mem hd
    have hi2 : i < fps.length := by rw [← hf.length_eq]; exact (List.getElem?_eq_some_iff.mp hi).1
    obtain ⟨e', h3, h5⟩ := (List.forall₂_iff_get.mp hf).2 i (List.getElem?_eq_some_iff.mp hi).1 hi2
    have h4 := (List.getElem?_eq_some_iff.mp hi).2
    simp only [List.get_eq_getElem, h4] at h3 h5
    exact ⟨e', fps[i], h3, h5, fun a ha => List.mem_flatten.mpr ⟨_, List.getElem_mem hi2, ha⟩⟩
  refine ⟨_, h1, slicesOk_expandFold grow ps hs, ?_⟩
  have inv := expInv_fold grow hs ps (by
    intro p hp
    obtain ⟨d, hd, hb, e, g1, g2⟩ := (h2 p).mp hp
    obtain ⟨r, fp, hg, ho, _⟩ := hdoc d hd
    refine ⟨e, g1, g2, ?_⟩
    intro hsh c hc
    obtain ⟨i, path, x, h3, h4⟩ := reads_below hb hg (owns_reads _ ho) g1
    obtain ⟨j, hj⟩ := List.mem_iff_getElem?.mp hc
    obtain ⟨k, h5, h6⟩ := forall2_mem_left (reads_iff.mp h4).2.2.2.2 hj
    have := hno d hd _ x h3 ((shorthand_iff h4).mpr hsh) k (List.mem_of_getElem? h5)
    rw [shorthand_iff h6] at this
    simpa using this)
    (h := h) (D := fun _ => False) ⟨Nat.le_refl _, fun _ _ h _ => h, fun _ _ _ h => h.elim⟩
  intro d hd
  obtain ⟨r, fp, hg, ho, hfp⟩ := hdoc d hd
  obtain ⟨g1, _⟩ := reads_final hs inv d.2 (hno d hd) d.1 r hg (owns_reads _ ho) (fun c hb e he hn => Or.inr ((h2 c).mpr ⟨d, hd, hb, e, he, hn⟩))
  refine ⟨r, inv.same d.1 r hg ?_, g1⟩
  rintro ⟨hh | hh, _⟩
  · exact hh
  · obtain ⟨d', hd', hb, _⟩ := (h2 _).mp hh
    obtain ⟨r', fp', hg', ho', hfp'⟩ := hdoc d' hd'
    exact hR d hd (hfp' _ (below_fp hb hg' ho').1)

end GoXml.Xsd
