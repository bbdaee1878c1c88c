import Verif.Model.GoMap
set_option autoImplicit false

/-! Laws of maps. -/

namespace GoXml.GoMap
variable {κ α : Type} [DecidableEq κ]

/-- No key occurs twice. -/
def WF (m : GoMap κ α) : Prop := (m.map (·.1)).Nodup

theorem get_nil (k : κ) : get ([] : GoMap κ α) k = none := rfl

theorem get_cons (m : GoMap κ α) (e : κ × α) (k : κ) :
    get (e :: m) k = if e.1 = k then some e.2 else get m k := by
  unfold get
  rw [List.find?_cons]
  by_cases h : e.1 = k <;> simp [h]

theorem get_append (m m' : GoMap κ α) (k : κ) : get (m ++ m') k = (get m k).or (get m' k) := by
  induction m with
  | nil => rfl
  | cons e m ih =>
    rw [List.cons_append, get_cons, get_cons, ih]
    split <;> rfl

theorem get_filter_ne (m : GoMap κ α) (k k' : κ) (h : k' ≠ k) :
    get (m.filter fun e => decide (e.1 ≠ k)) k' = get m k' := by
  induction m with
  | nil => rfl
  | cons e m ih =>
    rw [List.filter_cons]
    split
    · rw [get_cons, get_cons, ih]
    · rename_i hk
      have hk : e.1 = k := by simpa using hk
      rw [get_cons, ih, if_neg (by rw [hk]; exact Ne.symm h)]

theorem get_filter_self (m : GoMap κ α) (k : κ) : get (m.filter fun e => decide (e.1 ≠ k)) k = none := by
  induction m with
  | nil => rfl
  | cons e m ih =>
    rw [List.filter_cons]
    split
    · rename_i hk
      rw [get_cons, ih, if_neg (by simpa using hk)]
    · exact ih

theorem get_set (m : GoMap κ α) (k k' : κ) (v : α) : get (set m k v) k' = if k = k' then some v else get m k' := by
  unfold set
  rw [get_append, get_cons, get_nil]
  by_cases h : k = k'
  · subst h
    rw [get_filter_self]; simp
  · rw [get_filter_ne m k k' (Ne.symm h)]; simp [h]

theorem get_erase (m : GoMap κ α) (k k' : κ) : get (erase m k) k' = if k = k' then none else get m k' := by
  unfold erase
  by_cases h : k = k'
  · subst h; rw [get_filter_self]; simp
  · rw [get_filter_ne m k k' (Ne.symm h)]; simp [h]

theorem get_some_mem {m : GoMap κ α} {k : κ} {v : α} (h : get m k = some v) : (k, v) ∈ m := by
  induction m with
  | nil => cases h
  | cons e m ih =>
    rw [get_cons] at h
    split at h
    · rename_i hk
      cases h; cases hk; simp
    · exact List.mem_cons_of_mem _ (ih h)

theorem get_of_mem {m : GoMap κ α} (hw : WF m) {k : κ} {v : α} (h : (k, v) ∈ m) : get m k = some v := by
  induction m with
  | nil => cases h
  | cons e m ih =>
    unfold WF at hw
    rw [List.map_cons, List.nodup_cons] at hw
    rw [get_cons]
    rcases List.mem_cons.mp h with rfl | h
    · simp
    · rw [if_neg, ih hw.2 h]
      intro hk
      exact hw.1 (List.mem_map.mpr ⟨(k, v), h, hk.symm⟩)

theorem get_none {m : GoMap κ α} {k : κ} : get m k = none ↔ k ∉ m.map (·.1) := by
  induction m with
  | nil => simp [get]
  | cons e m ih =>
    rw [get_cons]
    by_cases h : e.1 = k
    · simp [h]
    · have h' : ¬ k = e.1 := fun x => h x.symm
      rw [if_neg h, ih]; simp [h']

theorem wf_nil : WF ([] : GoMap κ α) := by simp [WF]

theorem wf_filter {m : GoMap κ α} (hw : WF m) (p : κ × α → Bool) : WF (m.filter p) := by
  unfold WF at *
  exact List.Nodup.sublist (List.Sublist.map _ List.filter_sublist) hw

theorem wf_set {m : GoMap κ α} (hw : WF m) (k : κ) (v : α) : WF (set m k v) := by
  have h1 := wf_filter hw (fun e => decide (e.1 ≠ k))
  unfold WF set at *
  rw [List.map_append, List.nodup_append]
  refine ⟨h1, by simp, ?_⟩
  intro a ha b hb
  simp only [List.map_cons, List.map_nil, List.mem_singleton] at hb
  subst hb
  obtain ⟨e, he, rfl⟩ := List.mem_map.mp ha
  simpa using (List.mem_filter.mp he).2

/-- Permuting the entries does not change lookups. -/
theorem get_perm {m m' : GoMap κ α} (hw : WF m) (h : m.Perm m') (k : κ) : get m k = get m' k := by
  have hw' : WF m' := (h.map _).nodup_iff.mp hw
  cases h1 : get m k with
  | none =>
    cases h2 : get m' k with
    | none => rfl
    | some v =>
      have := get_of_mem hw (h.mem_iff.mpr (get_some_mem h2))
      rw [h1] at this; cases this
  | some v => exact (get_of_mem hw' (h.mem_iff.mp (get_some_mem h1))).symm

end GoXml.GoMap
