import Verif.Model.XmlTree

/-! Byte-string order and sorting: helper lemmas, and a concrete instance of `Sorter`. -/

namespace GoXml

theorem strLt_irrefl (a : Str) : strLt a a = false := by
  induction a with
  | nil => rfl
  | cons x xs ih => simp [strLt, ih, UInt8.lt_irrefl]

theorem strLt_trans {a b c : Str} (h1 : strLt a b = true) (h2 : strLt b c = true) : strLt a c = true := by
  induction a generalizing b c with
  | nil =>
    cases b with
    | nil => simp [strLt] at h1
    | cons y ys =>
      cases c with
      | nil => simp [strLt] at h2
      | cons z zs => simp [strLt]
  | cons x xs ih =>
    cases b with
    | nil => simp [strLt] at h1
    | cons y ys =>
      cases c with
      | nil => simp [strLt] at h2
      | cons z zs =>
        simp only [strLt] at h1 h2 ⊢
        by_cases hxy : x < y
        · by_cases hyz : y < z
          · simp [UInt8.lt_trans hxy hyz]
          · rw [if_neg hyz] at h2
            by_cases he : y = z
            · subst he; simp [hxy]
            · simp [he] at h2
        · rw [if_neg hxy] at h1
          by_cases he : x = y
          · subst he
            rw [if_pos rfl] at h1
            by_cases hyz : x < z
            · simp [hyz]
            · rw [if_neg hyz] at h2 ⊢
              by_cases he : x = z
              · subst he; rw [if_pos rfl] at h2 ⊢; exact ih h1 h2
              · simp [he] at h2
          · simp [he] at h1

theorem strLt_asymm {a b : Str} (h : strLt a b = true) : strLt b a = false := by
  cases h' : strLt b a with
  | false => rfl
  | true => have := strLt_trans h h'; rw [strLt_irrefl] at this; cases this

theorem strLt_tri {a b : Str} (h1 : strLt a b = false) (h2 : strLt b a = false) : a = b := by
  induction a generalizing b with
  | nil =>
    cases b with
    | nil => rfl
    | cons y ys => simp [strLt] at h1
  | cons x xs ih =>
    cases b with
    | nil => simp [strLt] at h2
    | cons y ys =>
      simp only [strLt] at h1 h2
      by_cases hxy : x < y
      · simp [hxy] at h1
      · by_cases hyx : y < x
        · simp [hyx] at h2
        · have : x = y := UInt8.le_antisymm (UInt8.not_lt.mp hyx) (UInt8.not_lt.mp hxy)
          subst this
          simp [UInt8.lt_irrefl] at h1 h2
          rw [ih h1 h2]

/-- Insertion into a list sorted by key. -/
def insKey {α : Type} (key : α → Str) (x : α) : List α → List α
  | [] => [x]
  | y :: ys => if strLt (key y) (key x) then y :: insKey key x ys else x :: y :: ys

/-- Insertion sort by key. -/
def sortKey {α : Type} (key : α → Str) : List α → List α
  | [] => []
  | x :: xs => insKey key x (sortKey key xs)

theorem insKey_perm {α : Type} (key : α → Str) (x : α) (l : List α) : (insKey key x l).Perm (x :: l) := by
  induction l with
  | nil => exact List.Perm.refl _
  | cons y ys ih =>
    rw [insKey]
    split
    · exact (List.Perm.cons y ih).trans (List.Perm.swap x y ys)
    · exact List.Perm.refl _

theorem insKey_sorted {α : Type} (key : α → Str) (x : α) (l : List α)
    (h : l.Pairwise (fun a b => strLt (key b) (key a) = false)) :
    (insKey key x l).Pairwise (fun a b => strLt (key b) (key a) = false) := by
  induction l with
  | nil => simp [insKey]
  | cons y ys ih =>
    obtain ⟨h1, h2⟩ := List.pairwise_cons.mp h
    rw [insKey]
    split
    · rename_i hlt
      rw [List.pairwise_cons]
      refine ⟨?_, ih h2⟩
      intro z hz
      rcases List.mem_cons.mp ((insKey_perm key x ys).subset hz) with rfl | hz
      · exact strLt_asymm hlt
      · exact h1 z hz
    · rename_i hlt
      have hlt : strLt (key y) (key x) = false := by simpa using hlt
      rw [List.pairwise_cons]
      refine ⟨?_, h⟩
      intro z hz
      rcases List.mem_cons.mp hz with rfl | hz
      · exact hlt
      · cases hzx : strLt (key z) (key x) with
        | false => rfl
        | true =>
          cases hyz : strLt (key y) (key z) with
          | true => rw [strLt_trans hyz hzx] at hlt; cases hlt
          | false =>
            have := strLt_tri hyz (h1 z hz)
            rw [this, hzx] at hlt; cases hlt

/-- A sorter by string key exists: insertion sort. -/
def Sorter.byKey {α : Type} (key : α → Str) : Sorter (fun a b : α => strLt (key a) (key b)) where
  sort l := sortKey key l
  perm l := by
    induction l with
    | nil => exact List.Perm.refl _
    | cons x xs ih => exact (insKey_perm key x _).trans (List.Perm.cons x ih)
  sorted l := by
    induction l with
    | nil => exact List.Pairwise.nil
    | cons x xs ih => exact insKey_sorted key x _ ih

/-- A concrete sorter for namespace declarations. -/
def nsSorter : Sorter nsLess := Sorter.byKey (fun x : XName => x.space ++ x.loc)

/-- Two sorted lists with the same elements have the same keys; with distinct keys they are equal. -/
theorem sorted_perm_eq {α : Type} {key : α → Str} {l1 l2 : List α}
    (hp : l1.Perm l2)
    (h1 : l1.Pairwise (fun a b => strLt (key b) (key a) = false))
    (h2 : l2.Pairwise (fun a b => strLt (key b) (key a) = false))
    (hinj : ∀ a ∈ l1, ∀ b ∈ l1, key a = key b → a = b) : l1 = l2 := by
  induction l1 generalizing l2 with
  | nil => exact (List.nil_perm.mp hp).symm
  | cons x xs ih =>
    cases l2 with
    | nil => exact absurd hp.length_eq (by simp)
    | cons y ys =>
      obtain ⟨a1, a2⟩ := List.pairwise_cons.mp h1
      obtain ⟨b1, b2⟩ := List.pairwise_cons.mp h2
      have hxy : x = y := by
        have hx : x ∈ y :: ys := hp.subset (by simp)
        have hy : y ∈ x :: xs := hp.symm.subset (by simp)
        rcases List.mem_cons.mp hx with h | hx
        · exact h
        · rcases List.mem_cons.mp hy with h | hy
          · exact h.symm
          · exact hinj x (by simp) y (by simp [hy]) (strLt_tri (b1 x hx) (a1 y hy))
      subst hxy
      rw [ih (List.perm_cons x |>.mp hp) a2 b2
        (fun a ha b hb => hinj a (by simp [ha]) b (by simp [hb]))]

end GoXml
