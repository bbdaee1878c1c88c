import Verif.Proofs.Xsdgen
import Mathlib.Data.List.Induction
set_option autoImplicit false

/-! Lemmas about the passes over types. -/

namespace GoXml.Xsdgen
open Xsd

section
variable {α κ : Type} [DecidableEq κ] (key : α → κ)

theorem firsts_nil : firsts key ([] : List α) = [] := rfl

theorem firsts_snoc (l : List α) (x : α) :
    firsts key (l ++ [x]) = firsts key l ++ (if key x ∈ l.map key then [] else [x]) := by
  unfold firsts
  rw [List.zipIdx_append, List.filter_append, List.map_append]
  congr 1
  · congr 1
    apply List.filter_congr
    intro p hp
    have := List.snd_lt_of_mem_zipIdx hp
    have e : (l ++ [x]).take p.2 = l.take p.2 := by
      rw [List.take_append_of_le_length (by omega)]
    rw [e]
  · have e : (l ++ [x]).take (0 + l.length) = l := by simp
    by_cases h : key x ∈ l.map key
    · rw [if_pos h]
      simp only [List.zipIdx_cons, List.zipIdx_nil, List.filter_cons, List.filter_nil, e]
      rw [if_neg]
      · rfl
      · obtain ⟨y, hy, hk⟩ := List.mem_map.mp h
        simp only [decide_eq_true_eq]
        exact fun hh => hh y hy hk
    · rw [if_neg h]
      simp only [List.zipIdx_cons, List.zipIdx_nil, List.filter_cons, List.filter_nil, e]
      rw [if_pos]
      · rfl
      · simp only [decide_eq_true_eq]
        intro q hq hk
        exact h (List.mem_map.mpr ⟨q, hq, hk⟩)

theorem firsts_keys (l : List α) (k : κ) : k ∈ (firsts key l).map key ↔ k ∈ l.map key := by
  induction l using List.reverseRecOn with
  | nil => rfl
  | append_singleton l x ih =>
    rw [firsts_snoc, List.map_append, List.map_append, List.mem_append, List.mem_append, ih]
    by_cases h : key x ∈ l.map key
    · rw [if_pos h]
      constructor
      · rintro (h1 | h1)
        · exact Or.inl h1
        · cases h1
      · rintro (h1 | h1)
        · exact Or.inl h1
        · simp at h1; subst h1; exact Or.inl h
    · rw [if_neg h]

theorem firsts_nodup (l : List α) : ((firsts key l).map key).Nodup := by
  induction l using List.reverseRecOn with
  | nil => exact List.nodup_nil
  | append_singleton l x ih =>
    rw [firsts_snoc]
    by_cases h : key x ∈ l.map key
    · rw [if_pos h]; simpa using ih
    · rw [if_neg h, List.map_append]
      refine List.nodup_append.mpr ⟨ih, by simp, ?_⟩
      intro a ha b hb
      simp at hb
      subst hb
      intro he
      exact h (he ▸ (firsts_keys key l a).mp ha)

theorem firsts_mem {l : List α} {x : α} (h : x ∈ firsts key l) : x ∈ l := by
  simp only [firsts, List.mem_map, List.mem_filter] at h
  obtain ⟨p, ⟨hp, _⟩, rfl⟩ := h
  exact List.fst_mem_of_mem_zipIdx hp

end

theorem dedupLoop_snoc (H : THeap) (l : List Ty) (x : Ty) : ∀ (seen : List XName),
    dedupLoop H seen (l ++ [x]) =
      dedupLoop H seen l ++ (if xmlName H x ∈ seen ∨ xmlName H x ∈ l.map (xmlName H) then [] else [x]) := by
  induction l with
  | nil =>
    intro seen
    by_cases h : xmlName H x ∈ seen <;> simp [dedupLoop, h]
  | cons v vs ih =>
    intro seen
    simp only [List.cons_append, dedupLoop]
    by_cases h : xmlName H v ∈ seen
    · rw [if_pos h, if_pos h, ih]
      congr 1
      by_cases h2 : xmlName H x = xmlName H v
      · rw [if_pos, if_pos]
        · simp [h2, h]
        · simp [h2, h]
      · simp [h2]
    · rw [if_neg h, if_neg h, ih, List.cons_append]
      congr 2
      simp only [List.mem_cons, List.map_cons]
      by_cases h2 : xmlName H x = xmlName H v <;> simp [h2]

theorem dedup_eq (H : THeap) (l : List Ty) : dedup H l = firsts (xmlName H) l := by
  induction l using List.reverseRecOn with
  | nil => rfl
  | append_singleton l x ih =>
    unfold dedup at ih ⊢
    rw [dedupLoop_snoc, firsts_snoc, ih]
    simp

theorem merge_snoc (l : List XAttr) (a : XAttr) : ∀ src, mergeAttributes src (l ++ [a]) =
    mergeAttributes src l ++ (if a.name ∈ (mergeAttributes src l).map (·.name) then [] else [a]) := by
  induction l with
  | nil =>
    intro src
    simp only [List.nil_append, mergeAttributes, List.any_eq_true, decide_eq_true_eq, List.mem_map]
    split <;> simp
  | cons v vs ih =>
    intro src
    simp only [List.cons_append, mergeAttributes]
    split
    · exact ih src
    · exact ih _

theorem merge_names (l : List XAttr) : ∀ src n, n ∈ (mergeAttributes src l).map (·.name) ↔
    n ∈ src.map (·.name) ∨ n ∈ l.map (·.name) := by
  induction l with
  | nil => intro src n; simp [mergeAttributes]
  | cons v vs ih =>
    intro src n
    simp only [mergeAttributes, List.any_eq_true, decide_eq_true_eq]
    split
    · rename_i h
      obtain ⟨s, hs, he⟩ := h
      rw [ih, List.map_cons, List.mem_cons]
      constructor
      · rintro (h | h)
        · exact Or.inl h
        · exact Or.inr (Or.inr h)
      · rintro (h | rfl | h)
        · exact Or.inl h
        · exact Or.inl (he ▸ List.mem_map_of_mem hs)
        · exact Or.inr h
    · rw [ih, List.map_append, List.mem_append, List.map_cons, List.mem_cons]
      simp [or_assoc]

theorem merge_eq (src l : List XAttr) : mergeAttributes src l =
    src ++ (firsts (·.name) l).filter (fun a => decide (a.name ∉ src.map (·.name))) := by
  induction l using List.reverseRecOn with
  | nil => simp [mergeAttributes, firsts]
  | append_singleton l a ih =>
    rw [merge_snoc, firsts_snoc, List.filter_append, ← List.append_assoc, ← ih]
    congr 1
    by_cases h : a.name ∈ (mergeAttributes src l).map (·.name)
    · rw [if_pos h]
      rcases (merge_names l src a.name).mp h with h1 | h1
      · have h1' : ¬ ¬ a.name ∈ src.map (·.name) := fun hh => hh h1
        split
        · rfl
        · simp only [List.filter_cons, List.filter_nil, h1', decide_false, Bool.false_eq_true, if_false]
      · rw [if_pos h1]; rfl
    · rw [if_neg h]
      have hn := fun hh => h ((merge_names l src a.name).mpr hh)
      rw [if_neg (fun hh => hn (Or.inr hh))]
      have : a.name ∉ src.map (·.name) := fun hh => hn (Or.inl hh)
      simp only [List.filter_cons, List.filter_nil, this, not_false_eq_true, decide_true, if_true]

end GoXml.Xsdgen
