import Verif.Spec.XsdNames
import Verif.Proofs.XsdExpand
set_option autoImplicit false

/-! Moving anonymous types in memory. -/

namespace GoXml.Xsd

/-! ### Memory operations -/

theorem appendCells_one (grow : Nat → Nat → Nat) {h : EHeap} {s : HSlice} (hs : SliceOk h s) (ha : s.arr < h.length) (t : HElem)
    {r : EHeap × HSlice} (hr : appendCells grow h s [t] = r) :
    r.1.cells r.2 = h.cells s ++ [t] ∧ SliceOk r.1 r.2 ∧ r.2.arr < r.1.length ∧ (r.2.arr = s.arr ∨ h.length ≤ r.2.arr) ∧ h.length ≤ r.1.length ∧
    ∀ q : Ptr, q.arr < h.length → q.arr ≠ s.arr → r.1.get q = h.get q := by
  obtain ⟨a, hh⟩ : ∃ a, h[s.arr]? = some a := ⟨h[s.arr], List.getElem?_eq_getElem ha⟩
  have hlen := cells_length hs
  unfold SliceOk at hs
  rw [hh] at hs
  simp only [Option.getD_some] at hs
  unfold appendCells at hr
  dsimp only at hr
  rw [hh] at hr
  simp only [Option.getD_some, List.length_singleton] at hr
  split at hr
  · rename_i hle
    subst hr
    have hm : (h.modify s.arr fun a => a.take s.len ++ [t] ++ a.drop (s.len + 1))[s.arr]? = some (a.take s.len ++ [t] ++ a.drop (s.len + 1)) := modify_self _ hh
    have hlt : (a.take s.len ++ [t]).length = s.len + 1 := by simp; omega
    refine ⟨?_, ?_, by simpa using ha, Or.inl rfl, by simp, ?_⟩
    · unfold EHeap.cells
      dsimp only
      rw [hm, hh]
      simp only [Option.getD_some]
      rw [← hlt, List.take_left]
    · unfold SliceOk
      dsimp only
      rw [hm]
      simp only [Option.getD_some]
      rw [List.length_append, hlt]; omega
    · intro q _ hq
      unfold EHeap.get
      rw [modify_ne _ _ (Ne.symm hq)]
  · subst hr
    have hc : (h.cells s ++ [t]).length = s.len + 1 := by simp [hlen]
    refine ⟨?_, ?_, by simp, Or.inr (Nat.le_refl _), by simp, fun q hq _ => get_append_left _ _ hq⟩
    · generalize h.cells s = cs at hc
      unfold EHeap.cells
      simp only [List.getElem?_concat_length, Option.getD_some]
      rw [← hc, padded_take]
    · unfold SliceOk
      simp only [List.getElem?_concat_length, Option.getD_some]
      unfold padded
      rw [List.length_append, hc]; omega

theorem removeCell_spec {h : EHeap} {s : HSlice} (hs : SliceOk h s) (ha : s.arr < h.length) {i : Nat} (hi : i < s.len)
    {r : EHeap × HSlice} (hr : removeCell h s i = r) :
    r.1.cells r.2 = (h.cells s).eraseIdx i ∧ SliceOk r.1 r.2 ∧ r.2 = ⟨s.arr, s.len - 1⟩ ∧ r.1.length = h.length ∧
    ∀ q : Ptr, q.arr ≠ s.arr → r.1.get q = h.get q := by
  obtain ⟨a, hh⟩ : ∃ a, h[s.arr]? = some a := ⟨h[s.arr], List.getElem?_eq_getElem ha⟩
  have hlen := cells_length hs
  unfold SliceOk at hs
  rw [hh] at hs
  simp only [Option.getD_some] at hs
  have hc : h.cells s = a.take s.len := by unfold EHeap.cells; rw [hh]; rfl
  unfold removeCell at hr
  subst hr
  have hm : (h.modify s.arr fun a => a.take i ++ (h.cells s).drop (i + 1) ++ a.drop (s.len - 1))[s.arr]? =
      some (a.take i ++ (h.cells s).drop (i + 1) ++ a.drop (s.len - 1)) := modify_self _ hh
  have hlt : (a.take i ++ (h.cells s).drop (i + 1)).length = s.len - 1 := by
    rw [List.length_append, List.length_drop, hlen, List.length_take]; omega
  refine ⟨?_, ?_, rfl, by simp, ?_⟩
  · have h2 : a.take i ++ (h.cells s).drop (i + 1) = (h.cells s).eraseIdx i := by
      rw [List.eraseIdx_eq_take_drop_succ, hc, List.take_take, Nat.min_eq_left (by omega)]
    rw [← h2]
    generalize h.cells s = cs at hlt hm ⊢
    unfold EHeap.cells
    dsimp only
    rw [hm]
    simp only [Option.getD_some]
    rw [← hlt, List.take_left]
  · unfold SliceOk
    dsimp only
    rw [hm]
    simp only [Option.getD_some]
    rw [List.length_append, hlt]; omega
  · intro q hq
    unfold EHeap.get
    dsimp only
    rw [modify_ne _ _ (Ne.symm hq)]

theorem sliceOk_stable {h h' : EHeap} {s : HSlice} (hs : SliceOk h s) (hd : ∀ i, i < s.len → h'.get ⟨s.arr, i⟩ = h.get ⟨s.arr, i⟩) : SliceOk h' s := by
  unfold SliceOk
  by_cases h0 : s.len = 0
  · omega
  · obtain ⟨e, he⟩ := get_some_of_len hs (i := s.len - 1) (by omega)
    rw [← hd _ (by omega)] at he
    unfold EHeap.get at he
    cases hh : h'[s.arr]? with
    | none => rw [hh] at he; cases he
    | some a =>
      rw [hh] at he
      have := (List.getElem?_eq_some_iff.mp he).1
      simp only [Option.getD_some]
      dsimp only at this
      omega

/-! ### The root -/

/-- The root is at `R` and its children are in an array of their own. -/
structure RootAt (h : EHeap) (R : Ptr) (r : HElem) : Prop where
  get : h.get R = some r
  ok : SliceOk h r.kids
  lt : r.kids.arr < h.length
  ne : R.arr ≠ r.kids.arr

/-- The children `ts` have been added to the root. -/
structure Grown (h h' : EHeap) (R : Ptr) (r r' : HElem) (ts : List HElem) : Prop where
  root : RootAt h' R r'
  eq : r' = { r with kids := r'.kids }
  cells : h'.cells r'.kids = h.cells r.kids ++ ts
  arr : r'.kids.arr = r.kids.arr ∨ h.length ≤ r'.kids.arr
  mono : h.length ≤ h'.length

theorem Grown.refl {h : EHeap} {R : Ptr} {r : HElem} (w : RootAt h R r) : Grown h h R r r [] :=
  ⟨w, rfl, by simp, Or.inl rfl, Nat.le_refl _⟩

theorem Grown.trans {h h1 h2 : EHeap} {R : Ptr} {r r1 r2 : HElem} {ts us : List HElem} (a : Grown h h1 R r r1 ts) (b : Grown h1 h2 R r1 r2 us) :
    Grown h h2 R r r2 (ts ++ us) := by
  refine ⟨b.root, ?_, by rw [b.cells, a.cells, List.append_assoc], ?_, Nat.le_trans a.mono b.mono⟩
  · rw [b.eq, a.eq]
  · rcases b.arr with h3 | h3
    · rw [h3]; exact a.arr
    · exact Or.inr (Nat.le_trans a.mono h3)

/-- What moving one type does. -/
theorem moveToRoot_spec (grow : Nat → Nat → Nat) {h : EHeap} {R q : Ptr} {r e : HElem} (w : RootAt h R r) (hq : h.get q = some e)
    (hok : SliceOk h e.kids) (hlt : e.kids.arr < h.length) (hqR : q ≠ R) (hqA : q.arr ≠ e.kids.arr) (hqr : q.arr ≠ r.kids.arr)
    (hRA : R.arr ≠ e.kids.arr) (hrA : r.kids.arr ≠ e.kids.arr) (attr val : Str) {i : Nat} (hi : i < e.kids.len) (t : HElem)
    {h' : EHeap} (hh : moveToRoot grow h R q e attr val i t = h') :
    ∃ r', Grown h h' R r r' [t] ∧
      h'.get q = some { e with attrs := attrSet [] attr val e.attrs, content := [], kids := ⟨e.kids.arr, e.kids.len - 1⟩ } ∧
      h'.cells ⟨e.kids.arr, e.kids.len - 1⟩ = (h.cells e.kids).eraseIdx i ∧
      ∀ p : Ptr, p.arr < h.length → p.arr ≠ e.kids.arr → p ≠ q → p ≠ R → p.arr ≠ r.kids.arr → h'.get p = h.get p := by
  unfold moveToRoot at hh
  dsimp only at hh
  generalize hrm : removeCell h e.kids i = rm at hh
  obtain ⟨m1, m2, m3, m4, m5⟩ := removeCell_spec hok hlt hi hrm
  obtain ⟨g, s⟩ := rm
  dsimp only at m1 m2 m3 m4 m5 hh
  subst m3
  generalize he' : ({ e.setAttr [] attr val with content := [], kids := ⟨e.kids.arr, e.kids.len - 1⟩ } : HElem) = e' at hh
  have hgq : g.get q = some e := by rw [m5 _ hqA, hq]
  have hgR : (g.put q e').get R = some r := by rw [get_put_ne _ hqR, m5 _ hRA, w.get]
  have hother : ∀ p : Ptr, p.arr ≠ e.kids.arr → p ≠ q → (g.put q e').get p = h.get p := fun p h1 h2 => by
    rw [get_put_ne _ (Ne.symm h2), m5 _ h1]
  have hrk : ∀ i, (g.put q e').get ⟨r.kids.arr, i⟩ = h.get ⟨r.kids.arr, i⟩ := fun i => hother _ hrA (by rintro rfl; exact hqr rfl)
  unfold addToRoot at hh
  rw [hgR] at hh
  dsimp only at hh
  generalize hap : appendCells grow (g.put q e') r.kids [t] = ap at hh
  have hpl : (g.put q e').length = h.length := by rw [put_length, m4]
  obtain ⟨a1, a2, a3, a4, a5, a6⟩ := appendCells_one grow (sliceOk_stable w.ok fun i _ => hrk i) (by rw [hpl]; exact w.lt) t hap
  obtain ⟨k, sl⟩ := ap
  dsimp only at a1 a2 a3 a4 a5 a6 hh
  rw [hpl] at a4 a5 a6
  have hRlt := get_lt w.get
  have hqlt := get_lt hq
  have hkR : k.get R = some r := by rw [a6 _ hRlt w.ne, hgR]
  have hRsl : R.arr ≠ sl.arr := by
    rcases a4 with h1 | h1
    · rw [h1]; exact w.ne
    · omega
  have hAsl : e.kids.arr ≠ sl.arr := by
    rcases a4 with h1 | h1
    · rw [h1]; exact Ne.symm hrA
    · omega
  subst hh
  refine ⟨{ r with kids := sl }, ⟨⟨get_put_self _ hkR, ?_, by rw [put_length]; exact a3, hRsl⟩, rfl, ?_, a4, by rw [put_length]; exact a5⟩, ?_, ?_, ?_⟩
  · exact sliceOk_stable a2 fun i _ => get_put_ne _ (by rintro rfl; exact hRsl rfl)
  · rw [cells_stable (h := k) fun i _ => get_put_ne _ (by rintro rfl; exact hRsl rfl)]
    dsimp only
    rw [a1, cells_stable (h := h) fun i _ => hrk i]
  · rw [get_put_ne _ (Ne.symm hqR), a6 _ hqlt hqr, get_put_self _ hgq, ← he']
    rfl
  · rw [cells_stable (h := g) (h' := k.put R _) fun i _ => ?_]
    · exact m1
    · dsimp only
      rw [get_put_ne _ (by rintro rfl; exact hRA rfl), a6 ⟨e.kids.arr, i⟩ hlt (Ne.symm hrA), get_put_ne _ (by rintro rfl; exact hqA rfl)]
  · intro p h1 h2 h3 h4 h5
    rw [get_put_ne _ (Ne.symm h4), a6 _ h1 h5, hother p h2 h3]

/-! ### Trees with their own memory -/

theorem ownsAll_length {h : EHeap} (ks : List Element) : ∀ {cs : List HElem} {fp : List Nat}, OwnsAll h ks cs fp → ks.length = cs.length := by
  induction ks with
  | nil => intro cs fp ho; cases cs with
    | nil => rfl
    | cons => simp [OwnsAll] at ho
  | cons k ks ih => intro cs fp ho; cases cs with
    | nil => simp [OwnsAll] at ho
    | cons c cs =>
      obtain ⟨f, g, _, _, h2⟩ := ho
      simp [ih h2]

theorem owns_iff {h : EHeap} {t : Element} {e : HElem} {fp : List Nat} : Owns h t e fp ↔
    e.name = t.name ∧ e.attrs = t.attrs ∧ e.scope = t.scope ∧ e.content = t.content ∧ e.kids.arr < h.length ∧ e.kids.len = t.children.length ∧
    ∃ fps, fp = e.kids.arr :: fps ∧ OwnsAll h t.children (h.cells e.kids) fps := by
  cases t
  rw [Owns]
  rfl

theorem owns_sliceOk {h : EHeap} {t : Element} {e : HElem} {fp : List Nat} (ho : Owns h t e fp) : SliceOk h e.kids := by
  obtain ⟨_, _, _, _, _, h1, fps, _, h2⟩ := owns_iff.mp ho
  have h3 := ownsAll_length _ h2
  unfold SliceOk
  rw [h1, h3]
  unfold EHeap.cells
  rw [List.length_take]
  exact Nat.min_le_right _ _

theorem ownsAll_stable {h h' : EHeap} (ks : List Element) (ih : ∀ k ∈ ks, ∀ {e : HElem} {fp : List Nat}, Owns h k e fp →
    (∀ a ∈ fp, ∀ i, h'.get ⟨a, i⟩ = h.get ⟨a, i⟩) → Owns h' k e fp) : ∀ {cs : List HElem} {fp : List Nat}, OwnsAll h ks cs fp →
    (∀ a ∈ fp, ∀ i, h'.get ⟨a, i⟩ = h.get ⟨a, i⟩) → OwnsAll h' ks cs fp := by
  induction ks with
  | nil => intro cs fp ho hs; cases cs with
    | nil => simpa [OwnsAll] using ho
    | cons => simp [OwnsAll] at ho
  | cons k ks ih2 => intro cs fp ho hs; cases cs with
    | nil => simp [OwnsAll] at ho
    | cons c cs =>
      obtain ⟨f, g, rfl, h1, h2⟩ := ho
      exact ⟨f, g, rfl, ih k (by simp) h1 fun a ha => hs a (by simp [ha]), ih2 (fun k' hk' => ih k' (by simp [hk'])) h2 fun a ha => hs a (by simp [ha])⟩

/-- A tree stays as it is if its arrays do. -/
theorem owns_stable {h h' : EHeap} (hl : h.length ≤ h'.length) (t : Element) : ∀ {e : HElem} {fp : List Nat}, Owns h t e fp →
    (∀ a ∈ fp, ∀ i, h'.get ⟨a, i⟩ = h.get ⟨a, i⟩) → Owns h' t e fp := by
  induction t using Element.ind with
  | hP n a s c ks ih =>
    intro e fp ho hs
    obtain ⟨h1, h2, h3, h4, h5, h6, fps, rfl, h7⟩ := owns_iff.mp ho
    refine owns_iff.mpr ⟨h1, h2, h3, h4, Nat.lt_of_lt_of_le h5 hl, h6, fps, rfl, ?_⟩
    rw [cells_stable fun i _ => hs _ (by simp) i]
    exact ownsAll_stable ks (fun k hk e fp => ih k hk) h7 fun a ha => hs a (by simp [ha])

theorem owns_all_stable {h h' : EHeap} (hl : h.length ≤ h'.length) {ks : List Element} {cs : List HElem} {fp : List Nat} (ho : OwnsAll h ks cs fp)
    (hs : ∀ a ∈ fp, ∀ i, h'.get ⟨a, i⟩ = h.get ⟨a, i⟩) : OwnsAll h' ks cs fp :=
  ownsAll_stable ks (fun k _ _ _ h1 h2 => owns_stable hl k h1 h2) ho hs

theorem ownsAll_lt {h : EHeap} (ks : List Element) (ih : ∀ k ∈ ks, ∀ {e : HElem} {fp : List Nat}, Owns h k e fp → ∀ a ∈ fp, a < h.length) :
    ∀ {cs : List HElem} {fp : List Nat}, OwnsAll h ks cs fp → ∀ a ∈ fp, a < h.length := by
  induction ks with
  | nil => intro cs fp ho; cases cs with
    | nil => simp only [OwnsAll] at ho; simp [ho]
    | cons => simp [OwnsAll] at ho
  | cons k ks ih2 => intro cs fp ho; cases cs with
    | nil => simp [OwnsAll] at ho
    | cons c cs =>
      obtain ⟨f, g, rfl, h1, h2⟩ := ho
      intro a ha
      rcases List.mem_append.mp ha with ha | ha
      · exact ih k (by simp) h1 a ha
      · exact ih2 (fun k' hk' => ih k' (by simp [hk'])) h2 a ha

theorem owns_lt {h : EHeap} (t : Element) : ∀ {e : HElem} {fp : List Nat}, Owns h t e fp → ∀ a ∈ fp, a < h.length := by
  induction t using Element.ind with
  | hP n a s c ks ih =>
    intro e fp ho b hb
    obtain ⟨_, _, _, _, h5, _, fps, rfl, h7⟩ := owns_iff.mp ho
    rcases List.mem_cons.mp hb with rfl | hb
    · exact h5
    · exact ownsAll_lt ks (fun k hk e fp => ih k hk) h7 b hb

theorem ownsAll_append {h : EHeap} (ks : List Element) : ∀ {cs : List HElem} {fp : List Nat} {js : List Element} {ds : List HElem} {fq : List Nat},
    OwnsAll h ks cs fp → OwnsAll h js ds fq → OwnsAll h (ks ++ js) (cs ++ ds) (fp ++ fq) := by
  induction ks with
  | nil => intro cs fp js ds fq h1 h2; cases cs with
    | nil => simp only [OwnsAll] at h1; subst h1; simpa using h2
    | cons => simp [OwnsAll] at h1
  | cons k ks ih => intro cs fp js ds fq h1 h2; cases cs with
    | nil => simp [OwnsAll] at h1
    | cons c cs =>
      obtain ⟨f, g, rfl, h3, h4⟩ := h1
      exact ⟨f, g ++ fq, by simp, h3, ih h4 h2⟩

theorem ownsAll_erase {h : EHeap} (ks : List Element) : ∀ {cs : List HElem} {fp : List Nat} {i : Nat}, OwnsAll h ks cs fp → i < ks.length →
    ∃ k c f g, ks[i]? = some k ∧ cs[i]? = some c ∧ Owns h k c f ∧ OwnsAll h (ks.eraseIdx i) (cs.eraseIdx i) g ∧ (f ++ g).Perm fp := by
  induction ks with
  | nil => intro cs fp i _ hi; simp at hi
  | cons k ks ih => intro cs fp i ho hi; cases cs with
    | nil => simp [OwnsAll] at ho
    | cons c cs =>
      obtain ⟨f, g, rfl, h3, h4⟩ := ho
      cases i with
      | zero => exact ⟨k, c, f, g, rfl, rfl, h3, by simpa using h4, List.Perm.refl _⟩
      | succ i =>
        obtain ⟨k', c', f', g', e1, e2, e3, e4, e5⟩ := ih h4 (by simpa using hi)
        refine ⟨k', c', f', f ++ g', by simpa using e1, by simpa using e2, e3, ⟨f, g', rfl, h3, e4⟩, ?_⟩
        refine List.Perm.trans ?_ (e5.append_left f)
        rw [← List.append_assoc, ← List.append_assoc]
        exact List.perm_append_comm.append_right g'

end GoXml.Xsd
