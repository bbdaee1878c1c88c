import Verif.Model.XsdPipeline
import Verif.Proofs.XsdHoist
import Verif.Props.XsdNames
import Verif.Proofs.XsdSlices
set_option autoImplicit false

/-! The passes that set attributes do in memory what they do on trees. -/

namespace GoXml.Xsd

/-! ### Positions and pointers -/

/-- The pointer to the element at a position below an element. -/
def kidPtr (h : EHeap) : HElem → List Nat → Option Ptr
  | _, [] => none
  | e, [i] => some ⟨e.kids.arr, i⟩
  | e, i :: j :: p => ((h.cells e.kids)[i]?).bind fun c => kidPtr h c (j :: p)

theorem kidPtr_cons {h : EHeap} {e c : HElem} {i : Nat} {p : List Nat} {q : Ptr} (hc : (h.cells e.kids)[i]? = some c) (hq : kidPtr h c p = some q) :
    kidPtr h e (i :: p) = some q := by
  cases p with
  | nil => cases hq
  | cons j p =>
    rw [kidPtr, hc]
    exact hq

theorem kidPtr_kids {h : EHeap} {e e' : HElem} (he : e'.kids = e.kids) (p : List Nat) : kidPtr h e' p = kidPtr h e p := by
  match p with
  | [] => rfl
  | [i] => rw [kidPtr, kidPtr, he]
  | i :: j :: p => rw [kidPtr, kidPtr, he]

/-- Two memories that differ only in what does not matter for pointers. -/
def SameKids (h h' : EHeap) : Prop := ∀ p : Ptr, (h'.get p).map (·.kids) = (h.get p).map (·.kids)

theorem SameKids.cells {h h' : EHeap} (hs : SameKids h h') (s : HSlice) (i : Nat) :
    ((h'.cells s)[i]?).map (·.kids) = ((h.cells s)[i]?).map (·.kids) := by
  rw [cells_get, cells_get]
  split
  · exact hs _
  · rfl

theorem kidPtr_same {h h' : EHeap} (hs : SameKids h h') : ∀ (p : List Nat) (e : HElem), kidPtr h' e p = kidPtr h e p := by
  intro p
  induction p with
  | nil => intro e; rfl
  | cons i p ih =>
    intro e
    cases p with
    | nil => rfl
    | cons j p =>
      rw [kidPtr, kidPtr]
      have h1 := hs.cells e.kids i
      cases hc : (h.cells e.kids)[i]? with
      | none =>
        rw [hc] at h1
        rw [Option.map_eq_none_iff.mp h1]
        rfl
      | some c =>
        rw [hc] at h1
        obtain ⟨c', h2, h3⟩ := Option.map_eq_some_iff.mp h1
        rw [h2]
        simp only [Option.bind_some]
        rw [ih, kidPtr_kids h3]

theorem sameKids_put {h : EHeap} {q : Ptr} {e e' : HElem} (hq : h.get q = some e) (he : e'.kids = e.kids) : SameKids h (h.put q e') := by
  intro p
  by_cases hp : q = p
  · subst hp
    rw [get_put_self _ hq, hq, Option.map_some, Option.map_some, he]
  · rw [get_put_ne _ hp]

theorem SameKids.refl (h : EHeap) : SameKids h h := fun _ => rfl

theorem SameKids.trans {h h1 h2 : EHeap} (a : SameKids h h1) (b : SameKids h1 h2) : SameKids h h2 := fun p => (b p).trans (a p)

/-! ### Searching -/

/-- The pointers are those of the positions below `e`, which is at `path`. -/
def PtrsOf (h : EHeap) (e : HElem) (path : List Nat) : List Ptr → List (List Nat × Element) → Prop :=
  List.Forall₂ fun q pe => ∃ p, pe.1 = path ++ p ∧ kidPtr h e p = some q

theorem ptrsOf_nested {h : EHeap} {e c : HElem} {path : List Nat} {i : Nat} {ps : List Ptr} {pes : List (List Nat × Element)}
    (hc : (h.cells e.kids)[i]? = some c) (hp : PtrsOf h c (path ++ [i]) ps pes) : PtrsOf h e path ps pes := by
  refine hp.imp ?_
  rintro q pe ⟨p, h1, h2⟩
  exact ⟨i :: p, by rw [h1]; simp, kidPtr_cons hc h2⟩

theorem search_cells {h : EHeap} {pred : HElem → Bool} {fn : Element → Bool} (hpf : ∀ x e fp, Owns h x e fp → pred e = fn x) {n : Nat} {e : HElem} {path : List Nat}
    (ih : ∀ (t : Element) (e : HElem) (fp : List Nat) (path : List Nat) (ps : List Ptr), Owns h t e fp → searchH h pred n e.kids = some ps →
      PtrsOf h e path ps (walkAt (fun _ x => fn x) path 0 t.children)) :
    ∀ (ks : List Element) (cs : List HElem) (fp : List Nat) (i : Nat) (ps : List Ptr), OwnsAll h ks cs fp →
      (∀ (j : Nat) c, cs[j]? = some c → (h.cells e.kids)[i + j]? = some c) →
      searchCells (searchH h pred n) pred e.kids.arr i cs = some ps → PtrsOf h e path ps (walkAt (fun _ x => fn x) path i ks) := by
  intro ks
  induction ks with
  | nil =>
    intro cs fp i ps ho _ hs
    cases cs with
    | cons => simp [OwnsAll] at ho
    | nil =>
      cases hs
      exact .nil
  | cons k ks ih2 =>
    intro cs fp i ps ho hc hs
    cases cs with
    | nil => simp [OwnsAll] at ho
    | cons c cs =>
      obtain ⟨f, g, rfl, o1, o2⟩ := ho
      obtain ⟨a, b, h1, h2, rfl⟩ := searchCells_cons hs
      have hci : (h.cells e.kids)[i]? = some c := hc 0 c rfl
      rw [walkAt]
      refine List.rel_append ?_ (ih2 cs g (i + 1) b o2 (fun j d hd => ?_) h2)
      · cases k with
        | mk kn ka ks0 kc kk =>
          rw [searchAt]
          refine List.rel_append ?_ (ptrsOf_nested hci (ih _ c f (path ++ [i]) a o1 h1))
          rw [hpf _ _ _ o1]
          by_cases hf : fn (.mk kn ka ks0 kc kk) = true
          · rw [if_pos hf, if_pos hf]
            exact .cons ⟨[i], rfl, rfl⟩ .nil
          · rw [if_neg hf, if_neg hf]
            exact .nil
      · have := hc (j + 1) d (by simpa using hd)
        rw [← this]
        congr 1
        omega

theorem search_ptrs {h : EHeap} {pred : HElem → Bool} {fn : Element → Bool} (hpf : ∀ x e fp, Owns h x e fp → pred e = fn x) (n : Nat) :
    ∀ (t : Element) (e : HElem) (fp : List Nat) (path : List Nat) (ps : List Ptr), Owns h t e fp → searchH h pred n e.kids = some ps →
      PtrsOf h e path ps (walkAt (fun _ x => fn x) path 0 t.children) := by
  induction n with
  | zero => intro t e fp path ps _ hs; cases hs
  | succ n ih =>
    intro t e fp path ps ho hs
    obtain ⟨_, _, _, _, _, _, fps, _, h7⟩ := owns_iff.mp ho
    exact search_cells hpf ih t.children (h.cells e.kids) fps 0 ps h7 (fun j c hc => by rw [Nat.zero_add]; exact hc) hs

/-! ### Setting an attribute -/

theorem ownsAll_at {h : EHeap} (ks : List Element) : ∀ {cs : List HElem} {fp : List Nat} {i : Nat} {k : Element}, OwnsAll h ks cs fp → ks[i]? = some k →
    ∃ c f g1 g2, cs[i]? = some c ∧ Owns h k c f ∧ fp = g1 ++ f ++ g2 ∧
      ∀ (h' : EHeap) (k' : Element) (c' : HElem), h.length ≤ h'.length → (∀ a ∈ g1 ++ g2, ∀ j, h'.get ⟨a, j⟩ = h.get ⟨a, j⟩) → Owns h' k' c' f →
        ∀ (F : Element → Element), F k = k' → OwnsAll h' (ks.modify i F) (cs.set i c') fp := by
  induction ks with
  | nil => intro cs fp i k _ hk; cases hk
  | cons k0 ks ih =>
    intro cs fp i k ho hk
    cases cs with
    | nil => simp [OwnsAll] at ho
    | cons c cs =>
      obtain ⟨f, g, rfl, o1, o2⟩ := ho
      cases i with
      | zero =>
        simp only [List.getElem?_cons_zero, Option.some.injEq] at hk
        subst hk
        refine ⟨c, f, [], g, rfl, o1, by simp, ?_⟩
        rintro h' k' c' hl hs o' F rfl
        rw [List.modify_zero_cons, List.set_cons_zero]
        exact ⟨f, g, rfl, o', owns_all_stable hl o2 fun a ha => hs a (by simpa using ha)⟩
      | succ i =>
        rw [List.getElem?_cons_succ] at hk
        obtain ⟨c1, f1, g1, g2, e1, e2, rfl, e4⟩ := ih o2 hk
        refine ⟨c1, f1, f ++ g1, g2, by simpa using e1, e2, by simp, ?_⟩
        intro h' k' c' hl hs o' F hF
        rw [List.modify_succ_cons, List.set_cons_succ]
        refine ⟨f, _, rfl, owns_stable hl _ o1 fun a ha => hs a (by simp [ha]), ?_⟩
        exact e4 h' k' c' hl (fun a ha => hs a (by simp only [List.mem_append] at ha ⊢; rcases ha with h | h <;> simp [h])) o' F hF

theorem put_getsame {h : EHeap} {q : Ptr} {e' : HElem} {a j : Nat} (hne : a ≠ q.arr) : (h.put q e').get ⟨a, j⟩ = h.get ⟨a, j⟩ :=
  get_put_ne _ (by rintro rfl; exact hne rfl)

/-- Changing the attributes of the element at a position. -/
theorem put_at {h : EHeap} (F : List Attr → Scope → List Attr) : ∀ (p : List Nat) {t : Element} {e : HElem} {fp : List Nat} {q : Ptr} {x : Element}, Owns h t e fp → fp.Nodup →
    t.at? p = some x → kidPtr h e p = some q → q.arr ∈ fp ∧ ∃ ex, h.get q = some ex ∧
      Owns (h.put q { ex with attrs := F ex.attrs ex.scope }) (t.modifyAt (fun y => withAttrs (fun a => F a y.scope) y) p) e fp := by
  intro p
  induction p with
  | nil => intro t e fp q x _ _ _ hq; cases hq
  | cons i p ih =>
    intro t e fp q x ho hnd hx hq
    obtain ⟨h1, h2, h3, h4, h5, h6, fps, rfl, h7⟩ := owns_iff.mp ho
    obtain ⟨hn1, hn2⟩ := List.nodup_cons.mp hnd
    obtain ⟨k, hk, hx⟩ := at_cons hx
    obtain ⟨c, f, g1, g2, e1, e2, rfl, e4⟩ := ownsAll_at _ h7 hk
    have hci := e1
    have hnf : f.Nodup := (List.nodup_append.mp (List.nodup_append.mp hn2).1).2.1
    have hdisj : ∀ a ∈ g1 ++ g2, a ∉ f := by
      intro a ha hf
      rcases List.mem_append.mp ha with ha | ha
      · exact (List.nodup_append.mp (List.nodup_append.mp hn2).1).2.2 a ha a hf rfl
      · exact (List.nodup_append.mp hn2).2.2 a (by simp [hf]) a ha rfl
    rw [cells_get] at e1
    split at e1
    · rename_i hlt
      cases p with
      | nil =>
        cases hq
        cases hx
        refine ⟨by simp, c, e1, ?_⟩
        cases t with
        | mk tn ta ts tc tk =>
          simp only [Element.name, Element.attrs, Element.scope, Element.content, Element.children] at *
          rw [Element.modifyAt]
          refine owns_iff.mpr ⟨h1, h2, h3, h4, by rw [put_length]; exact h5, by rw [Element.children, List.length_modify]; exact h6, _, rfl, ?_⟩
          have hcs : EHeap.cells (h.put ⟨e.kids.arr, i⟩ { c with attrs := F c.attrs c.scope }) e.kids = (h.cells e.kids).set i { c with attrs := F c.attrs c.scope } := by
            apply List.ext_getElem?
            intro j
            rw [cells_get, List.getElem?_set]
            by_cases hij : i = j
            · subst hij
              rw [if_pos hlt, if_pos rfl, get_put_self _ e1, if_pos (List.getElem?_eq_some_iff.mp hci).1]
            · rw [if_neg hij, get_put_ne _ (by intro hh; cases hh; exact hij rfl), cells_get]
          rw [hcs]
          have hst : ∀ a ∈ g1 ++ f ++ g2, ∀ j, (h.put ⟨e.kids.arr, i⟩ { c with attrs := F c.attrs c.scope }).get ⟨a, j⟩ = h.get ⟨a, j⟩ := by
            intro a ha j
            exact put_getsame (by rintro rfl; exact hn1 ha)
          refine e4 _ _ _ (by rw [put_length]) (fun a ha => hst a ?_) (owns_withAttrs (owns_stable (by rw [put_length]) _ e2 fun a ha => hst a (by simp [ha])) fun a => F a c.scope) _ ?_
          · simp only [List.mem_append] at ha ⊢
            rcases ha with h | h <;> simp [h]
          · show withAttrs (fun a => F a x.scope) x = withAttrs (fun a => F a c.scope) x
            rw [(owns_iff.mp e2).2.2.1]
      | cons j p =>
        rw [kidPtr, hci, Option.bind_some] at hq
        obtain ⟨i1, ex, i2, i3⟩ := ih e2 hnf hx hq
        refine ⟨by simp [i1], ex, i2, ?_⟩
        have hq1 : e.kids.arr ≠ q.arr := by rintro hh; rw [← hh] at i1; exact hn1 (by simp [i1])
        cases t with
        | mk tn ta ts tc tk =>
          simp only [Element.name, Element.attrs, Element.scope, Element.content, Element.children] at *
          rw [Element.modifyAt]
          refine owns_iff.mpr ⟨h1, h2, h3, h4, by rw [put_length]; exact h5, by rw [Element.children, List.length_modify]; exact h6, _, rfl, ?_⟩
          rw [cells_stable fun i _ => put_getsame hq1]
          have := e4 (h.put q { ex with attrs := F ex.attrs ex.scope }) _ _ (by rw [put_length]) (fun a ha j => put_getsame (by rintro rfl; exact hdisj _ ha i1)) i3 _ rfl
          rwa [show (h.cells e.kids).set i c = h.cells e.kids from by
            apply List.ext_getElem?
            intro j
            rw [List.getElem?_set]
            split
            · rename_i hij
              subst hij
              rw [if_pos (List.getElem?_eq_some_iff.mp hci).1, hci]
            · rfl] at this
    · cases e1

theorem sliceOk_iff {h : EHeap} {s : HSlice} : SliceOk h s ↔ ∀ i, i < s.len → (h.get ⟨s.arr, i⟩).isSome = true := by
  constructor
  · intro hs i hi
    obtain ⟨e, he⟩ := get_some_of_len hs hi
    rw [he]
    rfl
  · intro hs
    unfold SliceOk
    by_cases h0 : s.len = 0
    · omega
    · have := hs (s.len - 1) (by omega)
      obtain ⟨e, he⟩ := Option.isSome_iff_exists.mp this
      unfold EHeap.get at he
      cases hh : h[s.arr]? with
      | none => rw [hh] at he; cases he
      | some a =>
        rw [hh] at he
        have := (List.getElem?_eq_some_iff.mp he).1
        simp only [Option.getD_some]
        dsimp only at this
        omega

theorem SameKids.some {h h' : EHeap} (hs : SameKids h h') (p : Ptr) : (h'.get p).isSome = (h.get p).isSome := by
  have := congrArg Option.isSome (hs p)
  simpa using this

theorem SameKids.slices {h h' : EHeap} (hs : SameKids h h') (ho : SlicesOk h) : SlicesOk h' := by
  intro p e hg
  have h1 := hs p
  rw [hg, Option.map_some] at h1
  obtain ⟨e0, h2, h3⟩ := Option.map_eq_some_iff.mp h1.symm
  have h4 := sliceOk_iff.mp (ho p e0 h2)
  refine sliceOk_iff.mpr fun i hi => ?_
  rw [← h3] at hi ⊢
  rw [hs.some]
  exact h4 i hi

/-- Setting an attribute on elements below one. -/
theorem fold_sets (loc : Str) (value : Scope → Str) {e : HElem} {fp : List Nat} (hnd : fp.Nodup) : ∀ {qs : List Ptr} {ps : List (List Nat)} {h : EHeap} {t : Element},
    List.Forall₂ (fun q p => kidPtr h e p = some q ∧ ∃ x, t.at? p = some x) qs ps → Owns h t e fp →
    ∃ h', qs.foldl (setAttrAt loc value) h = h' ∧ Owns h' (setAttrs loc value t ps) e fp ∧ h'.length = h.length ∧ SameKids h h' ∧
      ∀ p : Ptr, p.arr ∉ fp → h'.get p = h.get p := by
  intro qs
  induction qs with
  | nil =>
    intro ps h t hf ho
    cases hf
    exact ⟨h, rfl, ho, rfl, .refl h, fun _ _ => rfl⟩
  | cons q qs ih =>
    intro ps h t hf ho
    cases hf with
    | @cons _ p _ ps hq hf =>
      obtain ⟨hk, x, hx⟩ := hq
      obtain ⟨h1, ex, h2, h3⟩ := put_at (fun a sc => attrSet [] loc (value sc) a) p ho hnd hx hk
      have hset : setAttrAt loc value h q = h.put q { ex with attrs := attrSet [] loc (value ex.scope) ex.attrs } := by
        unfold setAttrAt
        rw [h2]
        rfl
      have hF : (fun y : Element => withAttrs (fun a => attrSet [] loc (value y.scope) a) y) = fun e => e.setAttr [] loc (value e.scope) := by
        funext y
        cases y
        rfl
      rw [hF] at h3
      have hsk := sameKids_put (e' := { ex with attrs := attrSet [] loc (value ex.scope) ex.attrs }) h2 rfl
      have hf' : List.Forall₂ (fun q' p' => kidPtr (h.put q { ex with attrs := attrSet [] loc (value ex.scope) ex.attrs }) e p' = some q' ∧
          ∃ y, (t.modifyAt (fun e => e.setAttr [] loc (value e.scope)) p).at? p' = some y) qs ps := by
        refine hf.imp ?_
        rintro q' p' ⟨j1, y, j2⟩
        refine ⟨by rw [kidPtr_same hsk]; exact j1, ?_⟩
        rcases setAttrs_shape loc value t [p] p' with hh | ⟨_, y', _, hh, _⟩
        · rw [j2] at hh; cases hh.1
        · exact ⟨y', hh⟩
      obtain ⟨h', i1, i2, i3, i4, i5⟩ := ih hf' h3
      refine ⟨h', by rw [List.foldl_cons, hset]; exact i1, i2, by rw [i3, put_length], hsk.trans i4, fun p hp => ?_⟩
      rw [i5 p hp, get_put_ne _ (by rintro rfl; exact hp h1)]

/-! ### The passes -/

/-- A pass in memory that does to the tree at a root what a relation between trees says. The state is one that goes from
root to root. -/
def Lifts {σ : Type} (f : EHeap × σ → Ptr → Option (EHeap × σ)) (rel : Element → σ → Element → σ → Prop) (ok : Element → Prop) : Prop :=
  ∀ ⦃h : EHeap⦄ ⦃st : σ⦄ ⦃R : Ptr⦄ ⦃t : Element⦄ ⦃r : HElem⦄ ⦃fp : List Nat⦄, SlicesOk h → h.get R = some r → Owns h t r fp → fp.Nodup → R.arr ∉ fp → ok t →
    ∃ h' st' t' r' fp', f (h, st) R = some (h', st') ∧ rel t st t' st' ∧ h'.get R = some r' ∧ Owns h' t' r' fp' ∧ fp'.Nodup ∧ R.arr ∉ fp' ∧ SlicesOk h' ∧
      h.length ≤ h'.length ∧ (∀ a ∈ fp', a ∈ fp ∨ h.length ≤ a) ∧ ∀ p : Ptr, p.arr < h.length → p.arr ∉ fp → p ≠ R → h'.get p = h.get p

/-- A pass without state. -/
def plain {σ : Type} (f : EHeap → Ptr → Option EHeap) (st : EHeap × σ) (R : Ptr) : Option (EHeap × σ) := (f st.1 R).map fun h => (h, st.2)

theorem Lifts.comp {σ : Type} {f f' : EHeap × σ → Ptr → Option (EHeap × σ)} {rel rel' : Element → σ → Element → σ → Prop} {ok ok' ok0 : Element → Prop}
    (a : Lifts f rel ok) (b : Lifts f' rel' ok') (ha : ∀ t, ok0 t → ok t) (hb : ∀ t st t' st', ok0 t → rel t st t' st' → ok' t') :
    Lifts (fun st R => (f st R).bind fun st => f' st R) (fun t st t' st' => ∃ t1 st1, rel t st t1 st1 ∧ rel' t1 st1 t' st') ok0 := by
  intro h st R t r fp hs hg ho hnd hR hok
  obtain ⟨h1, st1, t1, r1, fp1, a1, a0, a2, a3, a4, a5, a6, a7, a8, a9⟩ := a (st := st) hs hg ho hnd hR (ha t hok)
  obtain ⟨h2, st2, t2, r2, fp2, b1, b0, b2, b3, b4, b5, b6, b7, b8, b9⟩ := b (st := st1) a6 a2 a3 a4 a5 (hb _ _ _ _ hok a0)
  refine ⟨h2, st2, t2, r2, fp2, by dsimp only; rw [a1, Option.bind_some, b1], ⟨t1, st1, a0, b0⟩, b2, b3, b4, b5, b6, Nat.le_trans a7 b7, ?_, ?_⟩
  · intro x hx
    rcases b8 x hx with h3 | h3
    · exact a8 x h3
    · exact Or.inr (Nat.le_trans a7 h3)
  · intro p hp hpf hpR
    rw [b9 p (Nat.lt_of_lt_of_le hp a7) ?_ hpR, a9 p hp hpf hpR]
    intro hm
    rcases a8 _ hm with h3 | h3
    · exact hpf h3
    · omega

/-- Documents one after the other. -/
inductive Threaded {σ : Type} (rel : Element → σ → Element → σ → Prop) : List (Ptr × Element) → σ → List (Ptr × Element) → σ → Prop
  | nil (st : σ) : Threaded rel [] st [] st
  | cons {p : Ptr} {t t' : Element} {st st1 st2 : σ} {ds ds' : List (Ptr × Element)} (h1 : rel t st t' st1) (h2 : Threaded rel ds st1 ds' st2) :
      Threaded rel ((p, t) :: ds) st ((p, t') :: ds') st2

theorem Threaded.roots {σ : Type} {rel : Element → σ → Element → σ → Prop} {ds ds' : List (Ptr × Element)} {st st' : σ} (hc : Threaded rel ds st ds' st') :
    ds'.map (·.1) = ds.map (·.1) := by
  induction hc with
  | nil => rfl
  | cons _ _ ih => simp [ih]

/-- The pass on all documents. -/
theorem lifts_run {σ : Type} {f : EHeap × σ → Ptr → Option (EHeap × σ)} {rel : Element → σ → Element → σ → Prop} {ok : Element → Prop} (L : Lifts f rel ok)
    (docs : List (Ptr × Element)) : ∀ (h : EHeap) (st : σ) (fps : List (List Nat)), SlicesOk h →
    List.Forall₂ (fun d fp => ∃ e, h.get d.1 = some e ∧ Owns h d.2 e fp) docs fps → fps.flatten.Nodup → (docs.map (·.1)).Nodup →
    (∀ d ∈ docs, d.1.arr ∉ fps.flatten) → (∀ d ∈ docs, ok d.2) →
    ∃ h' st' docs' fps', eachRoot f (docs.map (·.1)) (h, st) = some (h', st') ∧ Threaded rel docs st docs' st' ∧ SlicesOk h' ∧
      List.Forall₂ (fun d fp => ∃ e, h'.get d.1 = some e ∧ Owns h' d.2 e fp) docs' fps' ∧ fps'.flatten.Nodup ∧
      (∀ d ∈ docs, d.1.arr ∉ fps'.flatten) ∧ h.length ≤ h'.length ∧ (∀ a ∈ fps'.flatten, a ∈ fps.flatten ∨ h.length ≤ a) ∧
      ∀ p : Ptr, p.arr < h.length → p.arr ∉ fps.flatten → (∀ d ∈ docs, p ≠ d.1) → h'.get p = h.get p := by
  induction docs with
  | nil =>
    intro h st fps hs hf _ _ _ _
    cases hf
    exact ⟨h, st, [], [], rfl, .nil st, hs, .nil, by simp, by simp, Nat.le_refl _, by simp, fun _ _ _ _ => rfl⟩
  | cons d docs ih =>
    intro h st fps hs hf hnd hrd hR hok
    cases hf with
    | cons hd hf =>
      rename_i fp fps
      obtain ⟨e, e1, e2⟩ := hd
      rw [List.flatten_cons] at hnd hR
      obtain ⟨nd1, nd2, nd3⟩ := List.nodup_append.mp hnd
      rw [List.map_cons, List.nodup_cons] at hrd
      have hRd := hR d (by simp)
      rw [List.mem_append, not_or] at hRd
      obtain ⟨h1, st1, t1, r1, fp1, a1, a0, a2, a3, a4, a5, as, a6, a7, a8⟩ := L (st := st) hs e1 e2 nd1 hRd.1 (hok d (by simp))
      have hltfp := owns_lt _ e2
      have hne : ∀ d' ∈ docs, d'.1 ≠ d.1 := fun d' hd' he => hrd.1 (by rw [← he]; exact List.mem_map_of_mem hd')
      have hRlt : ∀ d' ∈ docs, d'.1.arr < h.length := by
        intro d' hd'
        obtain ⟨i, hi⟩ := List.getElem?_of_mem hd'
        have := (List.forall₂_iff_get.mp hf).2 i (List.getElem?_eq_some_iff.mp hi).1 (by rw [← hf.length_eq]; exact (List.getElem?_eq_some_iff.mp hi).1)
        obtain ⟨e', h3, _⟩ := this
        have h4 := (List.getElem?_eq_some_iff.mp hi).2
        simp only [List.get_eq_getElem, h4] at h3
        exact get_lt h3
      have hrest : ∀ f ∈ fps, ∀ a ∈ f, a < h.length := by
        intro f hfm a ha
        obtain ⟨i, hi⟩ := List.getElem?_of_mem hfm
        have := (List.forall₂_iff_get.mp hf).2 i (by rw [hf.length_eq]; exact (List.getElem?_eq_some_iff.mp hi).1) (List.getElem?_eq_some_iff.mp hi).1
        obtain ⟨e', _, h3⟩ := this
        have h4 := (List.getElem?_eq_some_iff.mp hi).2
        simp only [List.get_eq_getElem, h4] at h3
        exact owns_lt _ h3 a ha
      have hrestF : ∀ a ∈ fps.flatten, a < h.length := by
        intro a ha
        obtain ⟨f, h3, h4⟩ := List.mem_flatten.mp ha
        exact hrest f h3 a h4
      have hf1 : List.Forall₂ (fun d fp => ∃ e, h1.get d.1 = some e ∧ Owns h1 d.2 e fp) docs fps := by
        refine List.forall₂_iff_get.mpr ⟨hf.length_eq, ?_⟩
        intro i hi1 hi2
        obtain ⟨e', h3, h4⟩ := (List.forall₂_iff_get.mp hf).2 i hi1 hi2
        have hdm : docs.get ⟨i, hi1⟩ ∈ docs := List.get_mem docs ⟨i, hi1⟩
        have hfm : fps.get ⟨i, hi2⟩ ∈ fps := List.get_mem fps ⟨i, hi2⟩
        have hRd' := hR _ (List.mem_cons_of_mem d hdm)
        rw [List.mem_append, not_or] at hRd'
        refine ⟨e', ?_, owns_stable a6 _ h4 ?_⟩
        · rw [a8 _ (get_lt h3) hRd'.1 (hne _ hdm), h3]
        · intro a ha j
          have hfl : a ∈ fps.flatten := List.mem_flatten.mpr ⟨_, hfm, ha⟩
          exact a8 ⟨a, j⟩ (hrestF a hfl) (fun hm => nd3 a hm a hfl rfl) (fun he => hRd.2 (by rw [← he]; exact hfl))
      have hR' : ∀ d' ∈ docs, d'.1.arr ∉ fps.flatten := fun d' hd' hm => hR d' (by simp [hd']) (by rw [List.mem_append]; exact Or.inr hm)
      obtain ⟨h2, st2, docs2, fps2, b1, b0, bs, b2, b3, b4, b5, b6, b7⟩ := ih h1 st1 fps as hf1 nd2 hrd.2 hR' (fun d' hd' => hok d' (by simp [hd']))
      have hfp1lt := owns_lt _ a3
      have hdisj : ∀ a ∈ fp1, a ∉ fps.flatten := by
        intro a ha hm
        rcases a7 a ha with h3 | h3
        · exact nd3 a h3 a hm rfl
        · have := hrestF a hm; omega
      have hRd1 : ∀ d' ∈ docs, d'.1.arr ∉ fp1 := by
        intro d' hd' hm
        rcases a7 _ hm with h3 | h3
        · exact hR d' (by simp [hd']) (by rw [List.mem_append]; exact Or.inl h3)
        · have := hRlt d' hd'; omega
      refine ⟨h2, st2, (d.1, t1) :: docs2, fp1 :: fps2, ?_, .cons a0 b0, bs, .cons ⟨r1, ?_, owns_stable b5 _ a3 ?_⟩ b2, ?_, ?_, Nat.le_trans a6 b5, ?_, ?_⟩
      · rw [List.map_cons, eachRoot, a1]
        exact b1
      · dsimp only
        rw [b7 d.1 (Nat.lt_of_lt_of_le (get_lt e1) a6) hRd.2 (fun d' hd' => Ne.symm (hne d' hd')), a2]
      · intro a ha j
        refine b7 ⟨a, j⟩ (hfp1lt a ha) (hdisj a ha) fun d' hd' he => hRd1 d' hd' ?_
        rw [← he]; exact ha
      · rw [List.flatten_cons]
        refine List.nodup_append.mpr ⟨a4, b3, ?_⟩
        intro a ha b hb hab
        subst hab
        rcases b6 a hb with h3 | h3
        · exact hdisj a ha h3
        · have := hfp1lt a ha; omega
      · intro d' hd' hm
        rw [List.flatten_cons, List.mem_append] at hm
        rcases List.mem_cons.mp hd' with rfl | hd'
        · rcases hm with hm | hm
          · exact a5 hm
          · rcases b6 _ hm with h3 | h3
            · exact hRd.2 h3
            · have := get_lt a2; omega
        · rcases hm with hm | hm
          · exact hRd1 d' hd' hm
          · exact b4 d' hd' hm
      · intro a ha
        rw [List.flatten_cons, List.mem_append] at ha ⊢
        rcases ha with ha | ha
        · rcases a7 a ha with h3 | h3
          · exact Or.inl (Or.inl h3)
          · exact Or.inr h3
        · rcases b6 a ha with h3 | h3
          · exact Or.inl (Or.inr h3)
          · exact Or.inr (Nat.le_trans a6 h3)
      · intro p p1 p2 p3
        rw [List.flatten_cons, List.mem_append, not_or] at p2
        rw [b7 p (Nat.lt_of_lt_of_le p1 a6) p2.2 (fun d' hd' => p3 d' (by simp [hd'])), a8 p p1 p2.1 (p3 d (by simp))]

/-- The same, for documents as a whole. -/
theorem lifts_docs {σ : Type} {f : EHeap × σ → Ptr → Option (EHeap × σ)} {rel : Element → σ → Element → σ → Prop} {ok : Element → Prop} (L : Lifts f rel ok)
    {docs : List (Ptr × Element)} {h : EHeap} {st : σ} (hs : SlicesOk h) (hh : HoldsDocs h docs) (hok : ∀ d ∈ docs, ok d.2) :
    ∃ h' st' docs', eachRoot f (docs.map (·.1)) (h, st) = some (h', st') ∧ Threaded rel docs st docs' st' ∧ SlicesOk h' ∧ HoldsDocs h' docs' := by
  obtain ⟨fps, h1, h2, h3, h4⟩ := hh
  obtain ⟨h', st', docs', fps', a1, a2, a3, a4, a5, a6, _⟩ := lifts_run L docs h st fps hs h1 h2 h3 h4 hok
  refine ⟨h', st', docs', a1, a2, a3, fps', a4, a5, by rw [a2.roots]; exact h3, ?_⟩
  intro d hd
  have : d.1 ∈ docs'.map (·.1) := List.mem_map_of_mem hd
  rw [a2.roots] at this
  obtain ⟨d', h5, h6⟩ := List.mem_map.mp this
  rw [← h6]
  exact a6 d' h5

theorem eachRoot_plain {σ : Type} (f : EHeap → Ptr → Option EHeap) (roots : List Ptr) : ∀ (h : EHeap) (st : σ),
    eachRoot (plain f) roots (h, st) = (eachRoot f roots h).map fun h => (h, st) := by
  induction roots with
  | nil => intro h st; rfl
  | cons r rs ih =>
    intro h st
    rw [eachRoot, eachRoot]
    unfold plain
    dsimp only
    cases f h r with
    | none => rfl
    | some h1 => exact ih h1 st

/-- Setting an attribute on the elements that a search finds. -/
theorem sets_lift {h : EHeap} {R : Ptr} {t : Element} {r : HElem} {fp : List Nat} (hs : SlicesOk h) (hg : h.get R = some r) (ho : Owns h t r fp)
    (hnd : fp.Nodup) (hR : R.arr ∉ fp) (loc : Str) (value : Scope → Str) {qs : List Ptr} {ps : List (List Nat)}
    (hf : List.Forall₂ (fun q p => kidPtr h r p = some q ∧ ∃ x, t.at? p = some x) qs ps) :
    ∃ h' r' fp', qs.foldl (setAttrAt loc value) h = h' ∧ h'.get R = some r' ∧ Owns h' (setAttrs loc value t ps) r' fp' ∧ fp'.Nodup ∧ R.arr ∉ fp' ∧ SlicesOk h' ∧
      h.length ≤ h'.length ∧ (∀ a ∈ fp', a ∈ fp ∨ h.length ≤ a) ∧ ∀ p : Ptr, p.arr < h.length → p.arr ∉ fp → p ≠ R → h'.get p = h.get p := by
  obtain ⟨h', h1, h2, h3, h4, h5⟩ := fold_sets loc value hnd hf ho
  exact ⟨h', r, fp, h1, by rw [h5 R hR, hg], h2, hnd, hR, h4.slices hs, by rw [h3], fun a ha => Or.inl ha, fun p _ hp _ => h5 p hp⟩

theorem isElem_tag (space loc : Str) (t : Element) : isElem space loc (tagOf t) = isElem space loc t := by cases t; rfl

theorem hasAttrValue_tag (space loc v : Str) (t : Element) : hasAttrValue space loc v (tagOf t) = hasAttrValue space loc v t := by cases t; rfl

/-- The elements found are at positions of the tree. -/
theorem found_at {t : Element} {fn : Element → Bool} {h : EHeap} {r : HElem} {qs : List Ptr}
    (hf : PtrsOf h r [] qs (t.searchFunc fun _ x => fn x)) :
    List.Forall₂ (fun q p => kidPtr h r p = some q ∧ ∃ x, t.at? p = some x) qs ((t.searchFunc fun _ x => fn x).map (·.1)) := by
  have hmem : ∀ pe ∈ t.searchFunc fun _ x => fn x, ∃ x, t.at? pe.1 = some x := by
    intro pe hpe
    obtain ⟨p, e⟩ := pe
    exact ⟨e, (((C12_searchFunc t _).1 p e).mp hpe).2.1⟩
  unfold PtrsOf at hf
  generalize (t.searchFunc fun _ x => fn x) = pes at hf hmem
  induction hf with
  | nil => exact .nil
  | @cons q pe qs pes hq _ ih =>
    obtain ⟨p, h1, h2⟩ := hq
    rw [List.nil_append] at h1
    rw [List.map_cons]
    exact .cons ⟨by rw [h1]; exact h2, hmem pe (by simp)⟩ (ih fun x hx => hmem x (by simp [hx]))

theorem defaultTypeH_lifts {σ : Type} (kind type : Str) (n : Nat) : Lifts (σ := σ) (plain (defaultTypeH kind type n))
    (fun t st t' st' => t' = setAttrs b!"type" (fun sc => prefixOf sc ⟨schemaNS, type⟩) t
      ((t.searchFunc fun _ e => isElem schemaNS kind e && hasAttrValue [] b!"type" [] e).map (·.1)) ∧ st' = st) (fun t => depth t ≤ n) := by
  intro h st R t r fp hs hg ho hnd hR hn
  obtain ⟨qs, hqs⟩ := searchPtr_reads (fun e => isElem schemaNS kind e.tag && hasAttrValue [] b!"type" [] e.tag) ⟨r, hg, owns_reads t ho⟩ hn
  have hq := hqs
  unfold searchPtr at hq
  rw [hg, Option.bind_some] at hq
  have hf := found_at (search_ptrs (fn := fun x => isElem schemaNS kind x && hasAttrValue [] b!"type" [] x)
    (fun x e fp hx => by rw [owns_tag hx, isElem_tag, hasAttrValue_tag]) n t r fp [] qs ho hq)
  obtain ⟨h', r', fp', a1, a2⟩ := sets_lift hs hg ho hnd hR b!"type" (fun sc => prefixOf sc ⟨schemaNS, type⟩) hf
  refine ⟨h', st, _, r', fp', ?_, ⟨rfl, rfl⟩, a2⟩
  unfold plain defaultTypeH
  rw [hqs, Option.map_some, a1]
  rfl

/-! ### Optional children of choices -/

theorem owns_get {h : EHeap} : ∀ (p : List Nat) {t : Element} {e : HElem} {fp : List Nat} {q : Ptr} {x : Element}, Owns h t e fp →
    t.at? p = some x → kidPtr h e p = some q → ∃ ex f, h.get q = some ex ∧ Owns h x ex f ∧ ∀ i r, kidPtr h e (p ++ i :: r) = kidPtr h ex (i :: r) := by
  intro p
  induction p with
  | nil => intro t e fp q x _ _ hq; cases hq
  | cons i p ih =>
    intro t e fp q x ho hx hq
    obtain ⟨h1, h2, h3, h4, h5, h6, fps, rfl, h7⟩ := owns_iff.mp ho
    obtain ⟨k, hk, hx⟩ := at_cons hx
    obtain ⟨c, f, g1, g2, e1, e2, rfl, _⟩ := ownsAll_at _ h7 hk
    have hci := e1
    rw [cells_get] at e1
    split at e1
    · cases p with
      | nil =>
        cases hq
        cases hx
        refine ⟨c, f, e1, e2, fun j r => ?_⟩
        rw [List.cons_append, List.nil_append, kidPtr, hci]
        rfl
      | cons j p =>
        rw [kidPtr, hci, Option.bind_some] at hq
        obtain ⟨ex, f', i1, i2, i3⟩ := ih e2 hx hq
        refine ⟨ex, f', i1, i2, fun l r => ?_⟩
        rw [List.cons_append, List.cons_append, kidPtr, hci, Option.bind_some, ← List.cons_append, i3]
    · cases e1

/-- What `setChoicesOptional` sets for one child of a choice. -/
def childTargets (h : EHeap) (arr i : Nat) : List Ptr :=
  match h.get ⟨arr, i⟩ with
  | none => []
  | some t =>
    if t.name.space = schemaNS ∧ t.name.loc = b!"sequence" then (List.range (h.cells t.kids).length).map fun j => ⟨t.kids.arr, j⟩
    else [⟨arr, i⟩]

/-- What it sets for one choice. -/
def targetsAt (h : EHeap) (q : Ptr) : List Ptr :=
  match h.get q with
  | none => []
  | some el => (List.range (h.cells el.kids).length).flatMap (childTargets h el.kids.arr)

/-- Two memories that differ only in attributes. -/
def SameTags (h h' : EHeap) : Prop := ∀ p : Ptr, (h'.get p).map (fun e => (e.name, e.kids)) = (h.get p).map (fun e => (e.name, e.kids))

theorem SameTags.kids {h h' : EHeap} (hs : SameTags h h') : SameKids h h' := by
  intro p
  have := congrArg (Option.map Prod.snd) (hs p)
  simpa [Option.map_map, Function.comp_def] using this

theorem SameTags.trans {h h1 h2 : EHeap} (a : SameTags h h1) (b : SameTags h1 h2) : SameTags h h2 := fun p => (b p).trans (a p)

theorem sameTags_setAttrAt (loc : Str) (value : Scope → Str) (h : EHeap) (q : Ptr) : SameTags h (setAttrAt loc value h q) := by
  intro p
  unfold setAttrAt
  cases hq : h.get q with
  | none => rfl
  | some e =>
    dsimp only
    by_cases hp : q = p
    · subst hp
      rw [get_put_self _ hq, hq]
      rfl
    · rw [get_put_ne _ hp]

theorem sameTags_fold (loc : Str) (value : Scope → Str) (qs : List Ptr) : ∀ (h : EHeap), SameTags h (qs.foldl (setAttrAt loc value) h) := by
  induction qs with
  | nil => intro h p; rfl
  | cons q qs ih => intro h; exact (sameTags_setAttrAt loc value h q).trans (ih _)

theorem SameKids.cells_length {h h' : EHeap} (hs : SameKids h h') (s : HSlice) : (h'.cells s).length = (h.cells s).length := by
  have key : ∀ i : Nat, i < (h'.cells s).length ↔ i < (h.cells s).length := by
    intro i
    have h1 := hs.cells s i
    have := congrArg Option.isSome h1
    rw [Option.isSome_map, Option.isSome_map] at this
    have e1 : ∀ l : List HElem, (l[i]?).isSome = true ↔ i < l.length := by intro l; simp
    rw [← e1, ← e1, this]
  have h1 := key (h'.cells s).length
  have h2 := key (h.cells s).length
  omega

theorem optionalChild_eq {h h' : EHeap} (hs : SameTags h h') (arr i : Nat) :
    optionalChild arr h' i = (childTargets h arr i).foldl (setAttrAt b!"minOccurs" fun _ => b!"0") h' := by
  unfold optionalChild childTargets
  have h1 := hs ⟨arr, i⟩
  cases hg : h.get ⟨arr, i⟩ with
  | none =>
    rw [hg, Option.map_none] at h1
    rw [Option.map_eq_none_iff.mp h1]
    rfl
  | some e =>
    rw [hg, Option.map_some] at h1
    obtain ⟨e', h2, h3⟩ := Option.map_eq_some_iff.mp h1
    obtain ⟨h4, h5⟩ := Prod.mk.inj h3
    rw [h2]
    dsimp only
    rw [h4, h5]
    split
    · rw [List.foldl_map, hs.kids.cells_length]
    · rfl

theorem optionalAt_eq {h h' : EHeap} (hs : SameTags h h') (q : Ptr) :
    optionalAt h' q = (targetsAt h q).foldl (setAttrAt b!"minOccurs" fun _ => b!"0") h' := by
  unfold optionalAt targetsAt
  have h1 := hs q
  cases hg : h.get q with
  | none =>
    rw [hg, Option.map_none] at h1
    rw [Option.map_eq_none_iff.mp h1]
    rfl
  | some e =>
    rw [hg, Option.map_some] at h1
    obtain ⟨e', h2, h3⟩ := Option.map_eq_some_iff.mp h1
    obtain ⟨h4, h5⟩ := Prod.mk.inj h3
    rw [h2]
    dsimp only
    rw [h5, hs.kids.cells_length]
    generalize List.range _ = is
    clear h1 h2 h3 h4 h5
    induction is generalizing h' with
    | nil => rfl
    | cons i is ih =>
      rw [List.foldl_cons, List.flatMap_cons, List.foldl_append, optionalChild_eq hs]
      exact ih (hs.trans (sameTags_fold _ _ _ _))

theorem optionalFold_eq {h : EHeap} (qs : List Ptr) : ∀ {h' : EHeap}, SameTags h h' →
    qs.foldl optionalAt h' = (qs.flatMap (targetsAt h)).foldl (setAttrAt b!"minOccurs" fun _ => b!"0") h' := by
  induction qs with
  | nil => intro h' _; rfl
  | cons q qs ih =>
    intro h' hs
    rw [List.foldl_cons, List.flatMap_cons, List.foldl_append, optionalAt_eq hs]
    exact ih (hs.trans (sameTags_fold _ _ _ _))

/-- The pointers set for the children of a choice are those of the positions set. -/
theorem choiceTargets_ptrs {h : EHeap} {t : Element} {r : HElem} {p : List Nat} {ex : HElem}
    (hk : ∀ i s, kidPtr h r (p ++ i :: s) = kidPtr h ex (i :: s)) (ks : List Element) :
    ∀ (cs : List HElem) (fp : List Nat) (i : Nat), OwnsAll h ks cs fp → (∀ (j : Nat) c, cs[j]? = some c → (h.cells ex.kids)[i + j]? = some c) →
      (∀ (j : Nat) k, ks[j]? = some k → ∀ s, t.at? (p ++ (i + j) :: s) = k.at? s) →
      List.Forall₂ (fun q p => kidPtr h r p = some q ∧ ∃ x, t.at? p = some x)
        ((List.range' i cs.length).flatMap (childTargets h ex.kids.arr)) (choiceTargets p i ks) := by
  induction ks with
  | nil =>
    intro cs fp i ho _ _
    cases cs with
    | cons => simp [OwnsAll] at ho
    | nil => exact .nil
  | cons k ks ih =>
    intro cs fp i ho hc ht
    cases cs with
    | nil => simp [OwnsAll] at ho
    | cons c cs =>
      obtain ⟨f, g, rfl, o1, o2⟩ := ho
      have hci : (h.cells ex.kids)[i]? = some c := hc 0 c rfl
      have hcg := hci
      rw [cells_get] at hcg
      split at hcg
      · rw [List.length_cons, List.range'_succ, List.flatMap_cons, choiceTargets]
        refine List.rel_append ?_ (ih cs g (i + 1) o2 (fun j d hd => ?_) fun j k' hk' s => ?_)
        · obtain ⟨n1, _, _, _, n5, n6, fps, _, n7⟩ := owns_iff.mp o1
          unfold childTargets
          rw [hcg]
          dsimp only
          rw [n1]
          split
          · rw [cells_length (owns_sliceOk o1), n6]
            rw [List.forall₂_map_left_iff, List.forall₂_map_right_iff]
            refine List.forall₂_same.mpr fun j hj => ?_
            rw [List.mem_range] at hj
            refine ⟨?_, ?_⟩
            · rw [hk, kidPtr, hci]
              rfl
            · have := ht 0 k rfl [j]
              rw [Nat.add_zero] at this
              rw [this]
              cases k with
              | mk kn ka ks kc kk =>
                simp only [Element.children] at hj
                exact ⟨kk[j], by rw [Element.at?, Element.children, List.getElem?_eq_getElem hj]; simp only; rw [Element.at?]⟩
          · refine .cons ⟨by rw [hk]; rfl, k, ?_⟩ .nil
            have := ht 0 k rfl []
            rw [Nat.add_zero] at this
            rw [this, Element.at?]
        · have := hc (j + 1) d (by simpa using hd)
          rw [← this]
          congr 1
          omega
        · have := ht (j + 1) k' (by simpa using hk') s
          rw [← this]
          congr 3
          omega
      · cases hcg

theorem at_child {t x k : Element} {p : List Nat} {i : Nat} (hx : t.at? p = some x) (hk : x.children[i]? = some k) (s : List Nat) :
    t.at? (p ++ i :: s) = k.at? s := by
  induction p generalizing t with
  | nil =>
    cases hx
    rw [List.nil_append, Element.at?, hk]
  | cons j p ih =>
    obtain ⟨y, h1, h2⟩ := at_cons hx
    rw [List.cons_append, Element.at?, h1]
    exact ih h2

theorem setChoicesOptionalH_lifts {σ : Type} (n : Nat) : Lifts (σ := σ) (plain (setChoicesOptionalH n)) (fun t st t' st' => t' = setChoicesOptional t ∧ st' = st)
    (fun t => depth t ≤ n) := by
  intro h st R t r fp hs hg ho hnd hR hn
  obtain ⟨qs, hqs⟩ := searchPtr_reads (fun e => isElem schemaNS b!"choice" e.tag) ⟨r, hg, owns_reads t ho⟩ hn
  have hq := hqs
  unfold searchPtr at hq
  rw [hg, Option.bind_some] at hq
  have hf := search_ptrs (fn := isElem schemaNS b!"choice") (fun x e fp hx => by rw [owns_tag hx, isElem_tag]) n t r fp [] qs ho hq
  have hf2 : List.Forall₂ (fun q p => kidPtr h r p = some q ∧ ∃ x, t.at? p = some x) (qs.flatMap (targetsAt h))
      ((t.searchFunc fun _ e => isElem schemaNS b!"choice" e).flatMap fun pe => choiceTargets pe.1 0 pe.2.children) := by
    have hmem : ∀ pe ∈ t.searchFunc fun _ x => isElem schemaNS b!"choice" x, t.at? pe.1 = some pe.2 := by
      intro pe hpe
      obtain ⟨p, e⟩ := pe
      exact (((C12_searchFunc t _).1 p e).mp hpe).2.1
    change PtrsOf h r [] qs (t.searchFunc fun _ x => isElem schemaNS b!"choice" x) at hf
    unfold PtrsOf at hf
    generalize (t.searchFunc fun _ x => isElem schemaNS b!"choice" x) = pes at hf hmem
    clear hqs hq
    induction hf with
    | nil => exact .nil
    | @cons q pe qs pes hq _ ih =>
      obtain ⟨p, h1, h2⟩ := hq
      rw [List.nil_append] at h1
      have hp := hmem pe (by simp)
      obtain ⟨ex, f, g1, g2, g3⟩ := owns_get p ho (h1 ▸ hp) h2
      obtain ⟨_, _, _, _, n5, n6, fps, _, n7⟩ := owns_iff.mp g2
      rw [List.flatMap_cons, List.flatMap_cons]
      refine List.rel_append ?_ (ih fun x hx => hmem x (by simp [hx]))
      unfold targetsAt
      rw [g1]
      dsimp only
      rw [List.range_eq_range', h1]
      exact choiceTargets_ptrs g3 pe.2.children _ _ 0 n7 (fun j c hc => by rw [Nat.zero_add]; exact hc) fun j k hk s => by
        rw [Nat.zero_add]; exact at_child (h1 ▸ hp) hk s
  obtain ⟨h', r', fp', a1, a2⟩ := sets_lift hs hg ho hnd hR b!"minOccurs" (fun _ => b!"0") hf2
  refine ⟨h', st, _, r', fp', ?_, ⟨rfl, rfl⟩, a2⟩
  unfold plain setChoicesOptionalH
  rw [hqs, Option.map_some, optionalFold_eq qs (fun _ => rfl), a1]
  rfl

/-! ### Names -/

/-- The document after types have got the names of elements. -/
def NamedByElement (t t' : Element) : Prop :=
  ∃ used, (∀ name, name ∈ used ↔ Taken t (t.attr [] b!"targetNamespace") name) ∧ t' = (hoistRoot (byElement (t.attr [] b!"targetNamespace")) t used).1

theorem copyNames_lifts {σ : Type} (grow : Nat → Nat → Nat) (n : Nat) : Lifts (σ := σ) (plain (copyEltNamesToAnonTypes grow n))
    (fun t st t' st' => NamedByElement t t' ∧ st' = st)
    (fun t => TidyDoc (byElement (t.attr [] b!"targetNamespace")) t ∧ depth t ≤ n) := by
  rintro h st R t r fp hs hg ho hnd hR ⟨ht, hn⟩
  have hr := owns_reads t ho
  have htns : r.attr [] b!"targetNamespace" = t.attr [] b!"targetNamespace" := reads_attr hr _ _
  unfold NamedByElement
  generalize htt : t.attr [] b!"targetNamespace" = tns at *
  obtain ⟨named, h1⟩ := searchPtr_reads (fun e => isType e && hasAttr [] b!"name" e.tag) ⟨r, hg, hr⟩ hn
  obtain ⟨ps, h2⟩ := searchPtr_reads (fun e => (isElem schemaNS b!"element" e.tag || isElem schemaNS b!"attribute" e.tag) &&
    hasAttr [] b!"name" e.tag && hasAnonymousType h e) ⟨r, hg, hr⟩ hn
  have hpred : predH (byElement tns) h = fun e => (isElem schemaNS b!"element" e.tag || isElem schemaNS b!"attribute" e.tag) &&
      hasAttr [] b!"name" e.tag && hasAnonymousType h e := by
    funext e
    unfold predH byElement
    dsimp only
    congr 1
    rw [Bool.eq_iff_iff, decide_eq_true_eq, Bool.and_eq_true, isEltOrAttr_iff]
    refine and_congr_right fun _ => ?_
    unfold hasAttr
    rw [decide_eq_true_eq]
  have h2' := h2
  rw [← searchPtr_congr hpred] at h2'
  obtain ⟨h', r', fp', a1, a2, a3, a4, a5, a6, a7, a8⟩ := run_document (copyPass grow R tns)
    (fun k hk => ⟨(ht k hk).1, fun p x hx hp => ⟨((ht k hk).2 p x hx hp).1, ((ht k hk).2 p x hx hp).2, trivial⟩⟩)
    (st := named.filterMap fun p => (h.get p).map fun e => resolveDefault e.scope (e.attr [] b!"name") tns) hg ho hnd hR h2'
  have hrun : copyEltNamesToAnonTypes grow n h R = some h' := by
    unfold copyEltNamesToAnonTypes
    rw [hg, Option.bind_some]
    dsimp only
    rw [htns, h1, Option.bind_some, h2, Option.map_some]
    have a1' : some (ps.foldl (copyNameAt grow R tns) (h, named.filterMap fun p => (h.get p).map fun e => resolveDefault e.scope (e.attr [] b!"name") tns)) = _ := a1
    rw [Option.some.injEq] at a1'
    rw [a1']
  refine ⟨h', st, _, r', fp', ?_, ⟨⟨_, fun name => by rw [htt]; exact mem_used tns hg hr h1 name, rfl⟩, rfl⟩, a2, by rw [htt]; exact a3, a4, a5, slices_copyEltNames grow hs hrun, a6, a7, a8⟩
  unfold plain
  rw [hrun]
  rfl

theorem nameTypes_lifts (grow : Nat → Nat → Nat) (n : Nat) : Lifts (fun st R => nameAnonymousTypes grow n R st)
    (fun t k t' k' => (t', k') = hoistRoot (numbered (t.attr [] b!"targetNamespace")) t k)
    (fun t => TidyDoc (numbered (t.attr [] b!"targetNamespace")) t ∧ TypeHolders t ∧ depth t ≤ n) := by
  rintro h k R t r fp hs hg ho hnd hR ⟨ht, hk, hn⟩
  obtain ⟨h', r', fp', a1, a2, a3, a4, a5, a6, a7, a8⟩ := nameAnonymousTypes_run grow k hg ho hnd hR ht hk hn
  exact ⟨h', _, _, r', fp', a1, rfl, a2, a3, a4, a5, slices_nameAnonymous grow (st := (h, k)) hs a1, a6, a7, a8⟩

/-! ### The loops of `Normalize` -/

/-- The document after the first loop. -/
def FirstLoop (t t' : Element) : Prop := NamedByElement (elementDefaultType (attributeDefaultType t)) t'

theorem defaultsAndNames_lifts {σ : Type} (grow : Nat → Nat → Nat) (n : Nat) : Lifts (σ := σ) (plain (defaultsAndNames grow n))
    (fun t st t' st' => FirstLoop t t' ∧ st' = st)
    (fun t => depth t ≤ n ∧ depth (attributeDefaultType t) ≤ n ∧ depth (elementDefaultType (attributeDefaultType t)) ≤ n ∧
      TidyDoc (byElement ((elementDefaultType (attributeDefaultType t)).attr [] b!"targetNamespace")) (elementDefaultType (attributeDefaultType t))) := by
  have L1 := (defaultTypeH_lifts (σ := σ) b!"attribute" b!"anySimpleType" n).comp (ok0 := fun t => depth t ≤ n ∧ depth (attributeDefaultType t) ≤ n)
    (defaultTypeH_lifts b!"element" b!"anyType" n) (fun t ht => ht.1) (by rintro t st t' st' ⟨_, h2⟩ ⟨rfl, _⟩; exact h2)
  have L2 := L1.comp (copyNames_lifts grow n) (ok0 := fun t => depth t ≤ n ∧ depth (attributeDefaultType t) ≤ n ∧ depth (elementDefaultType (attributeDefaultType t)) ≤ n ∧
      TidyDoc (byElement ((elementDefaultType (attributeDefaultType t)).attr [] b!"targetNamespace")) (elementDefaultType (attributeDefaultType t)))
    (fun t ht => ⟨ht.1, ht.2.1⟩) (by rintro t st t' st' ⟨_, _, h3, h4⟩ ⟨t1, st1, ⟨rfl, _⟩, rfl, _⟩; exact ⟨h4, h3⟩)
  intro h st R t r fp hs hg ho hnd hR hok
  obtain ⟨h', st', t', r', fp', a1, ⟨t1, st1, ⟨t2, st2, ⟨rfl, rfl⟩, rfl, rfl⟩, a3, rfl⟩, a4⟩ := L2 (st := st) hs hg ho hnd hR hok
  refine ⟨h', _, t', r', fp', ?_, ⟨a3, rfl⟩, a4⟩
  rw [← a1]
  unfold plain defaultsAndNames
  dsimp only
  cases defaultTypeH b!"attribute" b!"anySimpleType" n h R with
  | none => rfl
  | some h1 =>
    simp only [Option.bind_some, Option.map_some]
    cases defaultTypeH b!"element" b!"anyType" n h1 R with
    | none => rfl
    | some h2 => rfl

/-- The document after the second loop. -/
def SecondLoop (t : Element) (k : Nat) (t' : Element) (k' : Nat) : Prop :=
  t' = setChoicesOptional (hoistRoot (numbered (t.attr [] b!"targetNamespace")) t k).1 ∧ k' = (hoistRoot (numbered (t.attr [] b!"targetNamespace")) t k).2

theorem namesAndChoices_lifts (grow : Nat → Nat → Nat) (n : Nat) : Lifts (namesAndChoices grow n) SecondLoop
    (fun t => TidyDoc (numbered (t.attr [] b!"targetNamespace")) t ∧ TypeHolders t ∧ depth t ≤ n ∧
      ∀ k, depth (hoistRoot (numbered (t.attr [] b!"targetNamespace")) t k).1 ≤ n) := by
  have L := (nameTypes_lifts grow n).comp (setChoicesOptionalH_lifts n) (ok0 := fun t => TidyDoc (numbered (t.attr [] b!"targetNamespace")) t ∧ TypeHolders t ∧ depth t ≤ n ∧
      ∀ k, depth (hoistRoot (numbered (t.attr [] b!"targetNamespace")) t k).1 ≤ n) (fun t ht => ⟨ht.1, ht.2.1, ht.2.2.1⟩)
    (by
      rintro t st t' st' ⟨_, _, _, h4⟩ he
      have := congrArg Prod.fst he
      dsimp only at this
      rw [this]
      exact h4 st)
  intro h st R t r fp hs hg ho hnd hR hok
  obtain ⟨h', st', t', r', fp', a1, ⟨t1, st1, e1, rfl, rfl⟩, a4⟩ := L (st := st) hs hg ho hnd hR hok
  have e2 := congrArg Prod.fst e1
  have e3 := congrArg Prod.snd e1
  dsimp only at e2 e3
  subst e2 e3
  exact ⟨h', _, _, r', fp', a1, ⟨rfl, rfl⟩, a4⟩

end GoXml.Xsd
