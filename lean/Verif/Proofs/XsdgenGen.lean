import Verif.Spec.XsdgenSpec
import Verif.Proofs.GoMap
import Verif.Proofs.Sort
import Mathlib.Data.List.Perm.Basic
import Mathlib.Data.List.Nodup
set_option autoImplicit false

/-! Lemmas about the maps in `gen` and `GenAST`. -/

namespace GoXml.GoMap
variable {κ α β : Type} [DecidableEq κ]

/-- Two maps with the same entries. -/
def Same (m m' : GoMap κ α) : Prop := WF m ∧ WF m' ∧ ∀ k, get m k = get m' k

theorem Same.refl {m : GoMap κ α} (h : WF m) : Same m m := ⟨h, h, fun _ => rfl⟩

theorem Same.set {m m' : GoMap κ α} (h : Same m m') (k : κ) (v : α) : Same (GoMap.set m k v) (GoMap.set m' k v) :=
  ⟨wf_set h.1 k v, wf_set h.2.1 k v, fun k' => by rw [get_set, get_set, h.2.2]⟩

theorem Same.mem {m m' : GoMap κ α} (h : Same m m') (e : κ × α) : e ∈ m ↔ e ∈ m' := by
  constructor
  · intro he
    exact get_some_mem ((h.2.2 e.1) ▸ get_of_mem h.1 he)
  · intro he
    exact get_some_mem ((h.2.2 e.1).symm ▸ get_of_mem h.2.1 he)

theorem Same.keys {m m' : GoMap κ α} (h : Same m m') : (m.map (·.1)).Perm (m'.map (·.1)) := by
  rw [List.perm_ext_iff_of_nodup h.1 h.2.1]
  intro k
  simp only [List.mem_map]
  constructor
  · rintro ⟨e, he, rfl⟩; exact ⟨e, (h.mem e).mp he, rfl⟩
  · rintro ⟨e, he, rfl⟩; exact ⟨e, (h.mem e).mpr he, rfl⟩

theorem get_map (m : GoMap κ α) (f : α → β) (k : κ) : get (m.map fun e => (e.1, f e.2)) k = (get m k).map f := by
  induction m with
  | nil => rfl
  | cons e m ih =>
    rw [List.map_cons, get_cons, get_cons, ih]
    by_cases h : e.1 = k <;> simp [h]

theorem wf_map {m : GoMap κ α} (h : WF m) (f : α → β) : WF (m.map fun e => (e.1, f e.2)) := by
  unfold WF at *
  simpa [List.map_map, Function.comp_def] using h

theorem wf_erase {m : GoMap κ α} (h : WF m) (k : κ) : WF (erase m k) := wf_filter h _

end GoXml.GoMap

namespace GoXml.Xsdgen
open Xsd GoMap

theorem declare_wf : ∀ (ss : List Spec) (m : GoMap Str Spec), WF m → WF (declare ss m) := by
  intro ss
  induction ss with
  | nil => exact fun _ h => h
  | cons s ss ih => exact fun m h => ih _ (wf_set h _ _)

theorem declare_get : ∀ (ss : List Spec) (m : GoMap Str Spec), (ss.map (·.name)).Nodup → ∀ k,
    get (declare ss m) k = match ss.find? (fun s => decide (s.name = k)) with
      | some s => some s
      | none => get m k := by
  intro ss
  induction ss with
  | nil => exact fun _ _ _ => rfl
  | cons s ss ih =>
    intro m hnd k
    rw [List.map_cons, List.nodup_cons] at hnd
    rw [declare, ih _ hnd.2, List.find?_cons, get_set]
    by_cases h : s.name = k
    · subst h
      have : ss.find? (fun x => decide (x.name = s.name)) = none := by
        rw [List.find?_eq_none]
        intro x hx
        simp only [decide_eq_true_eq]
        intro he
        exact hnd.1 (List.mem_map.mpr ⟨x, hx, he⟩)
      simp [this]
    · simp [h]

theorem find_perm {ss ss' : List Spec} (h : ss.Perm ss') (hnd : (ss.map (·.name)).Nodup) (k : Str) :
    ss.find? (fun s => decide (s.name = k)) = ss'.find? (fun s => decide (s.name = k)) := by
  have hnd' : (ss'.map (·.name)).Nodup := (h.map _).nodup_iff.mp hnd
  have key : ∀ {a b : List Spec}, a.Perm b → (b.map (·.name)).Nodup → ∀ {s}, a.find? (fun s => decide (s.name = k)) = some s →
      b.find? (fun s => decide (s.name = k)) = some s := by
    intro a b hp hb s hs
    have hm := List.mem_of_find?_eq_some hs
    have hn := List.find?_some hs
    simp only [decide_eq_true_eq] at hn
    cases hf : b.find? (fun s => decide (s.name = k)) with
    | none => exact absurd hn (by simpa using List.find?_eq_none.mp hf s (hp.mem_iff.mp hm))
    | some x =>
      have hx := List.mem_of_find?_eq_some hf
      have hxn := List.find?_some hf
      simp only [decide_eq_true_eq] at hxn
      rw [List.inj_on_of_nodup_map hb hx (hp.mem_iff.mp hm) (hxn.trans hn.symm)]
  cases h1 : ss.find? (fun s => decide (s.name = k)) with
  | some s => exact (key h hnd' h1).symm
  | none =>
    cases h2 : ss'.find? (fun s => decide (s.name = k)) with
    | none => rfl
    | some s => rw [key h.symm hnd h2] at h1; cases h1

theorem declare_same {ss ss' : List Spec} (h : ss.Perm ss') (hnd : (ss.map (·.name)).Nodup) :
    Same (declare ss []) (declare ss' []) := by
  refine ⟨declare_wf _ _ wf_nil, declare_wf _ _ wf_nil, fun k => ?_⟩
  rw [declare_get _ _ hnd, declare_get _ _ ((h.map _).nodup_iff.mp hnd), find_perm h hnd]

/-- Different helpers have different names. -/
def HelpersOk (helpers : GoMap XName Spec) : Prop :=
  ∀ d d' h h', get helpers d = some h → get helpers d' = some h' → h.name = h'.name → d = d'

theorem helpersOk_erase {helpers : GoMap XName Spec} (h : HelpersOk helpers) (d : XName) : HelpersOk (erase helpers d) := by
  intro a b x y hx hy hn
  rw [get_erase] at hx hy
  split at hx
  · cases hx
  · split at hy
    · cases hy
    · exact h a b x y hx hy hn

theorem addHelpers_wf : ∀ (deps : List XName) (decls : GoMap Str Spec) (helpers : GoMap XName Spec), WF decls →
    WF (addHelpers deps decls helpers).1 := by
  intro deps
  induction deps with
  | nil => exact fun _ _ h => h
  | cons d ds ih =>
    intro decls helpers h
    rw [addHelpers]
    split
    · exact ih _ _ (wf_set h _ _)
    · exact ih _ _ h

/-- A name that no helper asked for has. -/
theorem addHelpers_other : ∀ (deps : List XName) (decls : GoMap Str Spec) (helpers : GoMap XName Spec) (k : Str),
    (∀ d ∈ deps, ∀ h, get helpers d = some h → h.name ≠ k) → get (addHelpers deps decls helpers).1 k = get decls k := by
  intro deps
  induction deps with
  | nil => exact fun _ _ _ _ => rfl
  | cons d ds ih =>
    intro decls helpers k hk
    rw [addHelpers]
    split
    · rename_i h hh
      rw [ih, get_set, if_neg (hk d (List.mem_cons_self ..) h hh)]
      intro d' hd' h' hg
      rw [get_erase] at hg
      split at hg
      · cases hg
      · exact hk d' (List.mem_cons_of_mem _ hd') h' hg
    · exact ih _ _ _ (fun d' hd' => hk d' (List.mem_cons_of_mem _ hd'))

theorem addHelpers_helper : ∀ (deps : List XName) (decls : GoMap Str Spec) (helpers : GoMap XName Spec), HelpersOk helpers →
    ∀ d ∈ deps, ∀ h, get helpers d = some h → get (addHelpers deps decls helpers).1 h.name = some h := by
  intro deps
  induction deps with
  | nil => intro _ _ _ d hd; cases hd
  | cons d ds ih =>
    intro decls helpers hok e he h hh
    rw [addHelpers]
    by_cases hde : e = d
    · subst hde
      rw [hh]
      simp only
      rw [addHelpers_other, get_set, if_pos rfl]
      intro d' _ h' hg hn
      rw [get_erase] at hg
      split at hg
      · cases hg
      · rename_i hne
        exact hne (hok _ _ _ _ hh hg hn.symm)
    · have he' : e ∈ ds := by
        rcases List.mem_cons.mp he with h | h
        · exact absurd h hde
        · exact h
      split
      · refine ih _ _ (helpersOk_erase hok d) e he' h ?_
        rw [get_erase, if_neg (fun h => hde h.symm), hh]
      · exact ih _ _ hok e he' h hh

theorem addHelpers_same {deps deps' : List XName} {decls decls' : GoMap Str Spec} {helpers : GoMap XName Spec}
    (hok : HelpersOk helpers) (hd : ∀ d, d ∈ deps ↔ d ∈ deps') (hs : Same decls decls') :
    Same (addHelpers deps decls helpers).1 (addHelpers deps' decls' helpers).1 := by
  refine ⟨addHelpers_wf _ _ _ hs.1, addHelpers_wf _ _ _ hs.2.1, fun k => ?_⟩
  by_cases h : ∃ d ∈ deps, ∃ h, get helpers d = some h ∧ h.name = k
  · obtain ⟨d, hm, h, hh, rfl⟩ := h
    rw [addHelpers_helper _ _ _ hok d hm h hh, addHelpers_helper _ _ _ hok d ((hd d).mp hm) h hh]
  · rw [addHelpers_other, addHelpers_other, hs.2.2]
    · intro d hm x hx hn
      exact h ⟨d, (hd d).mpr hm, x, hx, hn⟩
    · intro d hm x hx hn
      exact h ⟨d, hm, x, hx, hn⟩

theorem addAllFuncs_same : ∀ (ts : List Str) {decls decls' : GoMap Str Spec} (fns : GoMap Str FuncDecl), Same decls decls' →
    Same (addAllFuncs ts decls fns).1 (addAllFuncs ts decls' fns).1 := by
  intro ts
  induction ts with
  | nil => exact fun _ h => h
  | cons t ts ih =>
    intro decls decls' fns hs
    rw [addAllFuncs, addAllFuncs, ← hs.2.2]
    split
    · exact ih _ (hs.set _ _)
    · exact ih _ hs

/-- Sorting names gives one result. -/
theorem sort_names (srt srt' : Sorter strLt) {l l' : List Str} (h : l.Perm l') : srt.sort l = srt'.sort l' := by
  refine sorted_perm_eq (key := id) ((srt.perm l).trans (h.trans (srt'.perm l').symm)) (srt.sorted l) (srt'.sorted l') ?_
  exact fun _ _ _ _ h => h

theorem genAST_same (srt srt' : Sorter strLt) {c c' : Code} (h : Same c.decls c'.decls) (hp : c.pkgname = c'.pkgname) :
    genAST srt c = genAST srt' c' := by
  unfold genAST
  rw [hp, sort_names srt srt' h.keys]
  simp only [h.2.2]

theorem finish_same (srt srt' : Sorter strLt) (cfg : Config) {ss ss' : List Spec} (h : ss.Perm ss') (hnd : (ss.map (·.name)).Nodup)
    (hok : HelpersOk cfg.helperTypes) : Same (finish srt cfg ss).1 (finish srt' cfg ss').1 := by
  have h0 := declare_same h hnd
  have h1 : ∀ (d d' : GoMap Str Spec), Same d d' →
      Same (addHelpers (d.flatMap fun e => e.2.helperTypes) d cfg.helperTypes).1
        (addHelpers (d'.flatMap fun e => e.2.helperTypes) d' cfg.helperTypes).1 := by
    intro d d' hs
    refine addHelpers_same hok ?_ hs
    intro x
    simp only [List.mem_flatMap]
    constructor
    · rintro ⟨e, he, hx⟩; exact ⟨e, (hs.mem e).mp he, hx⟩
    · rintro ⟨e, he, hx⟩; exact ⟨e, (hs.mem e).mpr he, hx⟩
  have h2 : ∀ (d d' : GoMap Str Spec), Same d d' →
      Same (addAllFuncs (srt.sort (d.map (·.1))) d cfg.helperFuncs).1 (addAllFuncs (srt'.sort (d'.map (·.1))) d' cfg.helperFuncs).1 := by
    intro d d' hs
    rw [sort_names srt srt' hs.keys]
    exact addAllFuncs_same _ _ hs
  unfold finish
  cases hpp : cfg.postprocessType with
  | none => exact h2 _ _ (h1 _ _ h0)
  | some f =>
    exact h2 _ _ (h1 _ _ ⟨wf_map h0.1 f, wf_map h0.2.1 f, fun k => by rw [get_map, get_map, h0.2.2]⟩)

end GoXml.Xsdgen
