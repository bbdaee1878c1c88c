import Verif.Model.XsdPipeline
import Verif.Proofs.XsdExpand
set_option autoImplicit false

/-! The passes that move types to the root leave every slice within its array. -/

namespace GoXml.Xsd

theorem slicesOk_iff {h : EHeap} : SlicesOk h ↔ ∀ a ∈ h, ∀ e ∈ a, SliceOk h e.kids := by
  constructor
  · intro hs a ha e he
    obtain ⟨i, hi⟩ := List.getElem?_of_mem ha
    obtain ⟨j, hj⟩ := List.getElem?_of_mem he
    exact hs ⟨i, j⟩ e (by unfold EHeap.get; rw [hi]; exact hj)
  · intro hs p e hg
    unfold EHeap.get at hg
    obtain ⟨a, h1, h2⟩ := Option.bind_eq_some_iff.mp hg
    exact hs a (List.mem_of_getElem? h1) e (List.mem_of_getElem? h2)

/-- No array becomes shorter. -/
def Keeps (h h' : EHeap) : Prop := ∀ s, SliceOk h s → SliceOk h' s

theorem Keeps.refl (h : EHeap) : Keeps h h := fun _ hs => hs

theorem Keeps.trans {h h1 h2 : EHeap} (a : Keeps h h1) (b : Keeps h1 h2) : Keeps h h2 := fun s hs => b s (a s hs)

theorem keeps_modify {h : EHeap} {k : Nat} {f : List HElem → List HElem} (hf : ∀ a, h[k]? = some a → a.length ≤ (f a).length) : Keeps h (h.modify k f) := by
  intro s hs
  unfold SliceOk at *
  by_cases hk : k = s.arr
  · subst hk
    cases ha : h[s.arr]? with
    | none =>
      rw [ha] at hs
      simp only [Option.getD_none, List.length_nil] at hs
      omega
    | some a =>
      rw [modify_self f ha]
      rw [ha] at hs
      exact Nat.le_trans hs (hf a ha)
  · rw [modify_ne _ _ hk]
    exact hs

/-- All slices are within their arrays, and none shrank. -/
def Safe (h h' : EHeap) : Prop := SlicesOk h' ∧ Keeps h h'

theorem mem_modify {α : Type} {h : List α} {k : Nat} {f : α → α} {a : α} (ha : a ∈ h.modify k f) : a ∈ h ∨ ∃ b, h[k]? = some b ∧ a = f b := by
  obtain ⟨i, hi⟩ := List.getElem?_of_mem ha
  rw [List.getElem?_modify] at hi
  obtain ⟨b, h1, h2⟩ := Option.map_eq_some_iff.mp hi
  by_cases hk : k = i
  · subst hk
    rw [if_pos rfl] at h2
    exact Or.inr ⟨b, h1, h2.symm⟩
  · rw [if_neg hk] at h2
    exact Or.inl (h2 ▸ List.mem_of_getElem? h1)

theorem safe_modify {h : EHeap} (hs : SlicesOk h) {k : Nat} {f : List HElem → List HElem} (hf : ∀ a, h[k]? = some a → a.length ≤ (f a).length)
    (hm : ∀ a, h[k]? = some a → ∀ e ∈ f a, (∃ b ∈ h, e ∈ b) ∨ SliceOk h e.kids) : Safe h (h.modify k f) := by
  have hk := keeps_modify hf
  refine ⟨slicesOk_iff.mpr fun a ha e he => ?_, hk⟩
  rcases mem_modify ha with h1 | ⟨b, h1, rfl⟩
  · exact hk _ (slicesOk_iff.mp hs a h1 e he)
  · rcases hm b h1 e he with ⟨c, h2, h3⟩ | h2
    · exact hk _ (slicesOk_iff.mp hs c h2 e h3)
    · exact hk _ h2

theorem safe_put {h : EHeap} (hs : SlicesOk h) (p : Ptr) {e : HElem} (he : SliceOk h e.kids) : Safe h (h.put p e) := by
  refine safe_modify hs (fun a _ => by simp) fun a ha x hx => ?_
  rcases List.mem_or_eq_of_mem_set hx with h1 | rfl
  · exact Or.inl ⟨a, List.mem_of_getElem? ha, h1⟩
  · exact Or.inr he

theorem mem_of_cells {h : EHeap} {s : HSlice} {e : HElem} (he : e ∈ h.cells s) : ∃ b ∈ h, e ∈ b := by
  unfold EHeap.cells at he
  cases ha : h[s.arr]? with
  | none => rw [ha] at he; simp at he
  | some a =>
    rw [ha] at he
    exact ⟨a, List.mem_of_getElem? ha, List.mem_of_mem_take he⟩

theorem safe_append (grow : Nat → Nat → Nat) {h : EHeap} (hs : SlicesOk h) {s : HSlice} (_hk : SliceOk h s) {xs : List HElem} (hx : ∀ x ∈ xs, SliceOk h x.kids) :
    Safe h (appendCells grow h s xs).1 ∧ SliceOk (appendCells grow h s xs).1 (appendCells grow h s xs).2 := by
  unfold appendCells
  dsimp only
  split
  · rename_i hn
    have h1 : ∀ a, h[s.arr]? = some a → a.length ≤ (a.take s.len ++ xs ++ a.drop (s.len + xs.length)).length := by
      intro a ha
      rw [ha] at hn
      simp only [Option.getD_some] at hn
      simp only [List.length_append, List.length_take, List.length_drop]
      omega
    have h2 : Safe h (h.modify s.arr fun a => a.take s.len ++ xs ++ a.drop (s.len + xs.length)) := by
      refine safe_modify hs h1 fun a ha e he => ?_
      rw [List.mem_append, List.mem_append] at he
      rcases he with (h3 | h3) | h3
      · exact Or.inl ⟨a, List.mem_of_getElem? ha, List.mem_of_mem_take h3⟩
      · exact Or.inr (hx e h3)
      · exact Or.inl ⟨a, List.mem_of_getElem? ha, List.mem_of_mem_drop h3⟩
    exact ⟨h2, h2.2 _ hn⟩
  · have hka : Keeps h (h ++ [padded (max (s.len + xs.length) (grow ((h[s.arr]?).getD []).length (s.len + xs.length))) (h.cells s ++ xs)]) := fun _ => sliceOk_append _
    refine ⟨⟨slicesOk_iff.mpr fun a ha e he => ?_, hka⟩, ?_⟩
    · rw [List.mem_append] at ha
      rcases ha with h1 | h1
      · exact hka _ (slicesOk_iff.mp hs a h1 e he)
      · rw [List.mem_singleton] at h1
        subst h1
        unfold padded at he
        rw [List.mem_append, List.mem_append] at he
        rcases he with (h2 | h2) | h2
        · obtain ⟨b, h3, h4⟩ := mem_of_cells h2
          exact hka _ (slicesOk_iff.mp hs b h3 e h4)
        · exact hka _ (hx e h2)
        · rw [(List.mem_replicate.mp h2).2]
          exact sliceOk_zero _
    · unfold SliceOk
      simp only [List.getElem?_concat_length, Option.getD_some]
      unfold padded
      rw [List.length_append, List.length_replicate]
      omega

theorem safe_remove {h : EHeap} (hs : SlicesOk h) {s : HSlice} (hk : SliceOk h s) (i : Nat) :
    Safe h (removeCell h s i).1 ∧ SliceOk (removeCell h s i).1 (removeCell h s i).2 := by
  unfold removeCell
  dsimp only
  have hl := cells_length hk
  have h2 : Safe h (h.modify s.arr fun a => a.take i ++ (h.cells s).drop (i + 1) ++ a.drop (s.len - 1)) := by
    refine safe_modify hs ?_ fun a ha e he => ?_
    · intro a ha
      unfold SliceOk at hk
      rw [ha] at hk
      simp only [Option.getD_some] at hk
      simp only [List.length_append, List.length_take, List.length_drop, hl]
      omega
    · rw [List.mem_append, List.mem_append] at he
      rcases he with (h3 | h3) | h3
      · exact Or.inl ⟨a, List.mem_of_getElem? ha, List.mem_of_mem_take h3⟩
      · exact Or.inl (mem_of_cells (List.mem_of_mem_drop h3))
      · exact Or.inl ⟨a, List.mem_of_getElem? ha, List.mem_of_mem_drop h3⟩
  refine ⟨h2, h2.2 ⟨s.arr, s.len - 1⟩ ?_⟩
  unfold SliceOk at *
  dsimp only
  omega

theorem safe_addToRoot (grow : Nat → Nat → Nat) {h : EHeap} (hs : SlicesOk h) (root : Ptr) {t : HElem} (ht : SliceOk h t.kids) :
    Safe h (addToRoot grow h root t) := by
  unfold addToRoot
  cases hr : h.get root with
  | none => exact ⟨hs, .refl h⟩
  | some r =>
    dsimp only
    obtain ⟨h1, h2⟩ := safe_append grow hs (hs root r hr) (xs := [t]) (fun x hx => by rw [List.mem_singleton] at hx; subst hx; exact ht)
    obtain ⟨h3, h4⟩ := safe_put h1.1 root (e := { r with kids := (appendCells grow h r.kids [t]).2 }) h2
    exact ⟨h3, h1.2.trans h4⟩

theorem safe_moveToRoot (grow : Nat → Nat → Nat) {h : EHeap} (hs : SlicesOk h) (root p : Ptr) {el : HElem} (he : SliceOk h el.kids) (attr qname : Str) (i : Nat) {t : HElem}
    (ht : SliceOk h t.kids) : Safe h (moveToRoot grow h root p el attr qname i t) := by
  unfold moveToRoot
  dsimp only
  obtain ⟨h1, h2⟩ := safe_remove hs he i
  obtain ⟨h3, h4⟩ := safe_put h1.1 p (e := { (el.setAttr [] attr qname) with content := [], kids := (removeCell h el.kids i).2 }) h2
  obtain ⟨h5, h6⟩ := safe_addToRoot grow h3 root (t := t) (h4 _ (h1.2 _ ht))
  exact ⟨h5, (h1.2.trans h4).trans h6⟩

theorem slices_cell {h : EHeap} (hs : SlicesOk h) {s : HSlice} {i : Nat} {t : HElem} (hi : (h.cells s)[i]? = some t) : SliceOk h t.kids := by
  obtain ⟨b, h1, h2⟩ := mem_of_cells (List.mem_of_getElem? hi)
  exact slicesOk_iff.mp hs b h1 t h2

theorem slices_copyNameAt (grow : Nat → Nat → Nat) (root : Ptr) (tns : Str) {st : EHeap × List XName} (hs : SlicesOk st.1) (p : Ptr) :
    SlicesOk (copyNameAt grow root tns st p).1 := by
  unfold copyNameAt
  cases hg : st.1.get p with
  | none => exact hs
  | some el =>
    dsimp only
    split
    · exact hs
    · split
      · exact hs
      · split
        · exact hs
        · rename_i i _ _ t ht
          have h1 : SliceOk st.1 t.kids := slices_cell hs ht
          exact (safe_moveToRoot grow hs root p (hs p el hg) _ _ i (t := t.setAttr [] b!"name" (el.attr [] b!"name")) h1).1

theorem slices_copyFold (grow : Nat → Nat → Nat) (root : Ptr) (tns : Str) (ps : List Ptr) : ∀ {st : EHeap × List XName}, SlicesOk st.1 →
    SlicesOk (ps.foldl (copyNameAt grow root tns) st).1 := by
  induction ps with
  | nil => intro st hs; exact hs
  | cons p ps ih => intro st hs; exact ih (slices_copyNameAt grow root tns hs p)

theorem slices_copyEltNames (grow : Nat → Nat → Nat) {n : Nat} {h h' : EHeap} {root : Ptr} (hs : SlicesOk h)
    (hr : copyEltNamesToAnonTypes grow n h root = some h') : SlicesOk h' := by
  unfold copyEltNamesToAnonTypes at hr
  obtain ⟨r, _, hr⟩ := Option.bind_eq_some_iff.mp hr
  obtain ⟨named, _, hr⟩ := Option.bind_eq_some_iff.mp hr
  obtain ⟨ps, _, rfl⟩ := Option.map_eq_some_iff.mp hr
  exact slices_copyFold grow root _ ps hs

theorem slices_nameLoop (grow : Nat → Nat → Nat) (root p : Ptr) (tns attr : Str) (accum : Bool) (m : Nat) : ∀ (i : Nat) {st : EHeap × Nat}, SlicesOk st.1 →
    SlicesOk (nameLoop grow root p tns attr accum m i st).1 := by
  induction m with
  | zero => intro i st hs; exact hs
  | succ m ih =>
    intro i st hs
    obtain ⟨h, c⟩ := st
    rw [nameLoop]
    cases hg : h.get p with
    | none => exact hs
    | some el =>
      dsimp only
      cases hc : (h.cells el.kids)[i]? with
      | none => exact hs
      | some t =>
        dsimp only
        split
        · have h1 : SliceOk h t.kids := slices_cell hs hc
          have := (safe_moveToRoot grow hs root p (hs p el hg) attr
            (if accum then el.attr [] attr ++ b!" " ++ prefixOf el.scope (anonTypeName (c + 1) tns) else prefixOf el.scope (anonTypeName (c + 1) tns)) i
            (t := (t.setAttr [] b!"name" (anonTypeName (c + 1) tns).loc).setAttr [] b!"_isAnonymous" b!"true") h1).1
          split
          · exact ih (i + 1) (st := (_, c + 1)) (by rename_i ha; rw [if_pos ha] at this; exact this)
          · rename_i ha
            rw [Bool.not_eq_true] at ha
            subst ha
            exact this
        · exact ih (i + 1) hs

theorem slices_nameTypes (grow : Nat → Nat → Nat) (root : Ptr) (tns : Str) (ps : List Ptr) : ∀ {st st' : EHeap × Nat}, SlicesOk st.1 →
    nameTypes grow root tns ps st = some st' → SlicesOk st'.1 := by
  induction ps with
  | nil => intro st st' hs hr; cases hr; exact hs
  | cons p ps ih =>
    intro st st' hs hr
    obtain ⟨h, c⟩ := st
    rw [nameTypes] at hr
    cases hg : h.get p with
    | none => rw [hg] at hr; cases hr
    | some el =>
      rw [hg] at hr
      dsimp only at hr
      split at hr
      · exact ih hs hr
      · split at hr
        · cases hr
        · exact ih (slices_nameLoop grow root p tns _ _ _ 0 hs) hr

theorem slices_nameAnonymous (grow : Nat → Nat → Nat) {n : Nat} {st st' : EHeap × Nat} {root : Ptr} (hs : SlicesOk st.1)
    (hr : nameAnonymousTypes grow n root st = some st') : SlicesOk st'.1 := by
  unfold nameAnonymousTypes at hr
  obtain ⟨r, _, hr⟩ := Option.bind_eq_some_iff.mp hr
  obtain ⟨ps, _, hr⟩ := Option.bind_eq_some_iff.mp hr
  exact slices_nameTypes grow root _ ps hs hr

end GoXml.Xsd
