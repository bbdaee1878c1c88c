import Verif.Proofs.XsdgenDeclared
set_option autoImplicit false

/-! Helper types and functions in the generated file. -/

namespace GoXml.Xsdgen
open Xsd GoMap

/-! ### The helpers that specs ask for -/

/-- What holds of the specs made for types. -/
def Helped (cfg : Config) (s : Spec) : Prop :=
  (∀ d ∈ s.helperTypes, ∃ h, get cfg.helperTypes d = some h) ∧ s.helperFuncs = [] ∧ ∀ m ∈ s.methods, m.recv ≠ []

/-- Every helper type is found under the name of the type it is for. -/
def KeyedHelpers (H : THeap) (cfg : Config) : Prop := ∀ k h, get cfg.helperTypes k = some h → xmlName H h.xsdType = k

def HelpersIn (cfg : Config) (acc : Acc) : Prop := ∀ d ∈ acc.helpers, ∃ h, get cfg.helperTypes d = some h

theorem addOverride_helpers {cfg : Config} {H : THeap} {acc acc' : Acc} {name dflt tag : Str} {type : Ty} {e : GoExpr} {hp : Spec → XName}
    (hhp : ∀ s, get cfg.helperTypes (xmlName H type) = some s → hp s = xmlName H type)
    (h : addOverride cfg H acc name dflt tag type e hp = .ok acc') (ha : HelpersIn cfg acc) : HelpersIn cfg acc' := by
  obtain ⟨_, h1, h2⟩ := addOverride_types h
  cases hn : nonTrivialBuiltin (some type) with
  | true =>
    obtain ⟨s, hs, he⟩ := h1 hn
    intro d hd
    rw [he] at hd
    rcases List.mem_append.mp hd with hd | hd
    · exact ha d hd
    · rw [List.mem_singleton.mp hd, hhp s hs]
      exact ⟨s, hs⟩
  | false =>
    intro d hd
    rw [h2 hn] at hd
    exact ha d hd

theorem runFold_keep {α β : Type} {f : β → α → Run β} (P : β → Prop) (hf : ∀ b a b', f b a = .ok b' → P b → P b') :
    ∀ (as : List α) (b b' : β), runFold f b as = .ok b' → P b → P b' := by
  intro as
  induction as with
  | nil => intro b b' h hb; cases h; exact hb
  | cons a as ih =>
    intro b b' h hb
    obtain ⟨c, h1, h2⟩ := runFold_cons h
    exact ih _ _ h2 (hf _ _ _ h1 hb)

theorem genFields_helpers {env : Env} {cfg : Config} {n : Nat} {H : THeap} {t : ComplexT} {acc : Acc} (hk : KeyedHelpers H cfg)
    (h : genFields env cfg n H t = .ok acc) : HelpersIn cfg acc := by
  obtain ⟨a1, a2, h1, h2, h3⟩ := genFields_ok h
  have c1 : HelpersIn cfg a1 := by
    have nil : HelpersIn cfg {} := fun d hd => (by cases hd)
    unfold charData at h1
    split at h1
    · split at h1
      · cases h1
      · obtain ⟨base, hbase, h1⟩ := bind_ok h1
        obtain ⟨e, he, h1⟩ := bind_ok h1
        simp only at h1
        split at h1
        · split at h1
          · cases h1; exact nil
          · split at h1
            · split at h1
              · cases h1
              · rename_i s hs
                cases h1
                intro d hd
                rw [List.mem_singleton.mp hd, hk _ _ hs]
                exact ⟨s, hs⟩
            · cases h1; exact fun d hd => (by cases hd)
        · split at h1
          · cases h1; exact fun d hd => (by cases hd)
          · cases h1
    · cases h1; exact nil
  have c2 : HelpersIn cfg a2 := by
    refine runFold_keep (HelpersIn cfg) ?_ _ _ _ h2 c1
    intro b el b' hb hP
    unfold elemStep at hb
    obtain ⟨e, he, hb⟩ := bind_ok hb
    exact addOverride_helpers (fun s hs => hk _ _ hs) hb hP
  refine runFold_keep (HelpersIn cfg) ?_ _ _ _ h3 c2
  intro b el b' hb hP
  unfold attrStep at hb
  simp only at hb
  obtain ⟨e, he, hb⟩ := bind_ok hb
  exact addOverride_helpers (fun s hs => rfl) hb hP

theorem genTypeSpec_helped {env : Env} {cfg : Config} {n : Nat} {H : THeap} {t : Ty} {r : THeap × List Spec}
    (hk : ∀ H, KeyedHelpers H cfg) (h : genTypeSpec env cfg n H t = .ok r) : ∀ s ∈ r.2, Helped cfg s := by
  have recv : ∀ (a b : Str) (c : UInt8), (c :: a) ++ b ≠ [] := fun a b c h => (by cases h)
  cases t with
  | builtin b => cases h; exact fun s hs => (by cases hs)
  | link b => cases h; exact fun s hs => (by cases hs)
  | obj id =>
    simp only [genTypeSpec] at h
    cases ho : H[id]? with
    | none => rw [ho] at h; cases h; exact fun s hs => (by cases hs)
    | some o =>
      rw [ho] at h
      cases o with
      | simple s =>
        obtain ⟨q, hq, h⟩ := bind_ok h
        cases h
        unfold genSimpleType at hq
        split at hq
        · unfold genSimpleListSpec at hq
          split at hq
          · cases hq
          · obtain ⟨e, he, hq⟩ := bind_ok hq
            obtain ⟨y, hy, hq⟩ := bind_ok hq
            split at hq
            · split at hq
              · cases hq
              · cases hq
              · cases hq
                intro s hs
                rw [List.mem_singleton.mp hs]
                refine ⟨fun d hd => (by cases hd), rfl, fun m hm => ?_⟩
                simp only [List.mem_cons, List.not_mem_nil, or_false] at hm
                rcases hm with rfl | rfl
                · exact recv _ _ _
                · exact recv _ _ _
            · cases hq
        · split at hq
          · cases hq
            intro s hs
            rw [List.mem_singleton.mp hs]
            exact ⟨fun d hd => (by cases hd), rfl, fun m hm => (by cases hm)⟩
          · split at hq
            · cases hq
            · obtain ⟨e, he, hq⟩ := bind_ok hq
              dsimp only at hq
              split at hq
              · split at hq
                · cases hq
                · rename_i hp hh
                  cases hq
                  intro s hs
                  rw [List.mem_singleton.mp hs]
                  refine ⟨fun d hd => ?_, rfl, fun m hm => ?_⟩
                  · rw [List.mem_singleton.mp hd, hk H _ _ hh]
                    exact ⟨hp, hh⟩
                  · simp only [List.mem_cons, List.not_mem_nil, or_false] at hm
                    rcases hm with rfl | rfl
                    · exact recv _ _ _
                    · exact recv _ _ _
              · cases hq
                intro s hs
                rw [List.mem_singleton.mp hs]
                exact ⟨fun d hd => (by cases hd), rfl, fun m hm => (by cases hm)⟩
      | complex c =>
        obtain ⟨acc, hacc, h⟩ := bind_ok h
        cases h
        intro s hs
        rw [List.mem_singleton.mp hs]
        refine ⟨genFields_helpers (hk _) hacc, rfl, fun m hm => ?_⟩
        rcases List.mem_append.mp hm with hm | hm
        · split at hm
          · rw [List.mem_singleton.mp hm]; exact recv _ _ _
          · cases hm
        · split at hm
          · cases hm
          · rw [List.mem_singleton.mp hm]; exact recv _ _ _

theorem genList_helped {env : Env} {cfg : Config} {n : Nat} (hk : ∀ H, KeyedHelpers H cfg) : ∀ (ts : List Ty) (H : THeap)
    (r : THeap × List Spec × Bool), genList env cfg n H ts = .ok r → ∀ s ∈ r.2.1, Helped cfg s := by
  intro ts
  induction ts with
  | nil => intro H r h; cases h; exact fun s hs => (by cases hs)
  | cons t ts ih =>
    intro H r h
    simp only [genList] at h
    split at h
    · rename_i q hq
      obtain ⟨p, hp, h⟩ := bind_ok h
      cases h
      intro s hs
      rcases List.mem_append.mp hs with hs | hs
      · exact genTypeSpec_helped hk hq s hs
      · exact ih _ _ hp s hs
    · obtain ⟨p, hp, h⟩ := bind_ok h
      cases h
      exact fun s hs => ih _ _ hp s hs
    · cases h
    · cases h

theorem genSchemas_helped {env : Env} {cfg : Config} {n : Nat} (hk : ∀ H, KeyedHelpers H cfg) : ∀ (schemas : List (List Ty)) (H : THeap)
    (r : THeap × List Spec × Bool), genSchemas env cfg n H schemas = .ok r → ∀ s ∈ r.2.1, Helped cfg s := by
  intro schemas
  induction schemas with
  | nil => intro H r h; cases h; exact fun s hs => (by cases hs)
  | cons types rest ih =>
    intro H r h
    obtain ⟨f, hf, h⟩ := bind_ok h
    obtain ⟨H2, hH2, h⟩ := bind_ok h
    obtain ⟨g, hg, h⟩ := bind_ok h
    obtain ⟨q, hq, h⟩ := bind_ok h
    cases h
    intro s hs
    rcases List.mem_append.mp hs with hs | hs
    · exact genList_helped hk _ _ _ hg s hs
    · exact ih _ _ hq s hs

/-! ### Counting -/

theorem addFuncs_count (f : FuncDecl) (k : Str) : ∀ (deps : List Str) (s : Spec) (fns : GoMap Str FuncDecl),
    (∀ k', get fns k' = some f → k' = k) →
    List.count f (addFuncs deps s fns).1.methods = List.count f s.methods + (if get fns k = some f ∧ k ∈ deps then 1 else 0) ∧
    get (addFuncs deps s fns).2 k = (if k ∈ deps then none else get fns k) ∧
    ∀ k' g, get (addFuncs deps s fns).2 k' = some g → get fns k' = some g := by
  intro deps
  induction deps with
  | nil => intro s fns hf; refine ⟨by simp [addFuncs], by simp [addFuncs], fun _ _ h => h⟩
  | cons d ds ih =>
    intro s fns hf
    rw [addFuncs]
    split
    · rename_i g hg
      have herase : ∀ k' x, get (erase fns d) k' = some x → get fns k' = some x := by
        intro k' x hx
        rw [get_erase] at hx
        split at hx
        · cases hx
        · exact hx
      obtain ⟨h1, h2, h3⟩ := ih { s with methods := s.methods ++ [g] } (erase fns d) (fun k' h => hf k' (herase _ _ h))
      refine ⟨?_, ?_, fun k' x hx => herase _ _ (h3 k' x hx)⟩
      · rw [h1, get_erase]
        by_cases e : d = k
        · subst e
          rw [hg]
          by_cases hgf : g = f
          · subst hgf; simp
          · have : ¬ (some g = some f) := fun h => hgf (Option.some.inj h)
            simp [hgf]
        · have hgf : g ≠ f := by
            intro h
            rw [h] at hg
            exact e (hf d hg)
          have e' : ¬ k = d := fun h => e h.symm
          simp [e, e', hgf]
      · rw [h2, get_erase]
        by_cases e : d = k
        · subst e; simp
        · have e' : ¬ k = d := fun h => e h.symm
          simp [e, e']
    · rename_i hg
      obtain ⟨h1, h2, h3⟩ := ih s fns hf
      refine ⟨?_, ?_, h3⟩
      · rw [h1]
        by_cases e : d = k
        · subst e; simp [hg]
        · have e' : ¬ k = d := fun h => e h.symm
          simp [e']
      · rw [h2]
        by_cases e : d = k
        · subst e; simp [hg]
        · have e' : ¬ k = d := fun h => e h.symm
          simp [e']

theorem addAllFuncs_other : ∀ (ts : List Str) (decls : GoMap Str Spec) (fns : GoMap Str FuncDecl) (k : Str), k ∉ ts →
    get (addAllFuncs ts decls fns).1 k = get decls k := by
  intro ts
  induction ts with
  | nil => exact fun _ _ _ _ => rfl
  | cons t ts ih =>
    intro decls fns k hk
    simp only [List.mem_cons, not_or] at hk
    rw [addAllFuncs]
    split
    · rw [ih _ _ _ hk.2, get_set, if_neg (fun h => hk.1 h.symm)]
    · exact ih _ _ _ hk.2

theorem addFuncs_rest : ∀ (deps : List Str) (s : Spec) (fns : GoMap Str FuncDecl), (addFuncs deps s fns).1.helperTypes = s.helperTypes ∧
    (addFuncs deps s fns).1.helperFuncs = s.helperFuncs ∧ (addFuncs deps s fns).1.doc = s.doc ∧
    ∀ m ∈ s.methods, m ∈ (addFuncs deps s fns).1.methods := by
  intro deps
  induction deps with
  | nil => exact fun _ _ => ⟨rfl, rfl, rfl, fun _ h => h⟩
  | cons d ds ih =>
    intro s fns
    rw [addFuncs]
    split
    · obtain ⟨h1, h2, h3, h4⟩ := ih { s with methods := s.methods ++ [_] } (erase fns d)
      exact ⟨h1, h2, h3, fun m hm => h4 m (List.mem_append_left _ hm)⟩
    · exact ih _ _

/-- The other fields of a declaration are not changed. -/
theorem addAllFuncs_rest : ∀ (ts : List Str) (decls : GoMap Str Spec) (fns : GoMap Str FuncDecl) (k : Str),
    (∀ s', get (addAllFuncs ts decls fns).1 k = some s' → ∃ s, get decls k = some s ∧ s'.helperTypes = s.helperTypes ∧
      s'.helperFuncs = s.helperFuncs ∧ s'.doc = s.doc ∧ s'.expr = s.expr ∧ ∀ m ∈ s.methods, m ∈ s'.methods) ∧
    (∀ s, get decls k = some s → ∃ s', get (addAllFuncs ts decls fns).1 k = some s') := by
  intro ts
  induction ts with
  | nil => exact fun _ _ _ => ⟨fun s' h => ⟨s', h, rfl, rfl, rfl, rfl, fun _ h => h⟩, fun s h => ⟨s, h⟩⟩
  | cons t ts ih =>
    intro decls fns k
    rw [addAllFuncs]
    split
    · rename_i s hs
      obtain ⟨h1, h2⟩ := ih (GoMap.set decls t (addFuncs s.helperFuncs s fns).1) (addFuncs s.helperFuncs s fns).2 k
      constructor
      · intro s' hs'
        obtain ⟨u, hu, k1, k2, k3, k4, k5⟩ := h1 s' hs'
        rw [get_set] at hu
        split at hu
        · rename_i e
          cases hu
          subst e
          obtain ⟨j1, j2, j3, j4⟩ := addFuncs_rest s.helperFuncs s fns
          exact ⟨s, hs, k1.trans j1, k2.trans j2, k3.trans j3, k4.trans (addFuncs_expr ..), fun m hm => k5 m (j4 m hm)⟩
        · exact ⟨u, hu, k1, k2, k3, k4, k5⟩
      · intro u hu
        have : ∃ v, get (GoMap.set decls t (addFuncs s.helperFuncs s fns).1) k = some v := by
          rw [get_set]
          split
          · exact ⟨_, rfl⟩
          · exact ⟨u, hu⟩
        obtain ⟨v, hv⟩ := this
        exact h2 v hv
    · exact ih _ _ _

def methodsAt (decls : GoMap Str Spec) (k : Str) : List FuncDecl := match get decls k with
  | some s => s.methods
  | none => []

def asksFor (decls : GoMap Str Spec) (k : Str) (t : Str) : Prop := ∃ s, get decls t = some s ∧ k ∈ s.helperFuncs

theorem methodsAt_some {decls : GoMap Str Spec} {k : Str} {s : Spec} (h : get decls k = some s) : methodsAt decls k = s.methods := by
  simp only [methodsAt, h]

open Classical in
theorem addAllFuncs_count (f : FuncDecl) (k : Str) : ∀ (ts : List Str) (decls : GoMap Str Spec) (fns : GoMap Str FuncDecl), ts.Nodup →
    (∀ k', get fns k' = some f → k' = k) → (∀ t ∈ ts, ∀ s, get decls t = some s → f ∉ s.methods) →
    List.count f (ts.flatMap (methodsAt (addAllFuncs ts decls fns).1)) =
      if get fns k = some f ∧ ∃ t ∈ ts, asksFor decls k t then 1 else 0 := by
  intro ts
  induction ts with
  | nil => intro decls fns _ _ _; simp
  | cons t ts ih =>
    intro decls fns hnd hf hno
    obtain ⟨ht, hnd⟩ := List.nodup_cons.mp hnd
    rw [List.flatMap_cons, List.count_append, addAllFuncs]
    split
    · rename_i s hs
      obtain ⟨h1, h2, h3⟩ := addFuncs_count f k s.helperFuncs s fns hf
      rw [ih _ _ hnd (fun k' h => hf k' (h3 _ _ h)) (by
        intro t' ht' u hu
        rw [get_set, if_neg (fun (e : t = t') => ht (e ▸ ht'))] at hu
        exact hno t' (List.mem_cons_of_mem _ ht') u hu)]
      have hat : get (addAllFuncs ts (GoMap.set decls t (addFuncs s.helperFuncs s fns).1) (addFuncs s.helperFuncs s fns).2).1 t =
          some (addFuncs s.helperFuncs s fns).1 := by
        rw [addAllFuncs_other _ _ _ _ ht, get_set, if_pos rfl]
      have hasks : ∀ t' ∈ ts, asksFor (GoMap.set decls t (addFuncs s.helperFuncs s fns).1) k t' ↔ asksFor decls k t' := by
        intro t' ht'
        simp only [asksFor]
        rw [get_set, if_neg (fun (e : t = t') => ht (e ▸ ht'))]
      rw [methodsAt_some hat, h1, h2, List.count_eq_zero.mpr (hno t (List.mem_cons_self ..) s hs), Nat.zero_add]
      by_cases hk : k ∈ s.helperFuncs
      · have hask : asksFor decls k t := ⟨s, hs, hk⟩
        by_cases hg : get fns k = some f
        · simp [hg, hk, hask]
        · simp [hg, hk]
      · have hask : ¬ asksFor decls k t := by
          rintro ⟨u, hu, hku⟩
          rw [hs] at hu
          cases hu
          exact hk hku
        have e1 : (∃ t' ∈ ts, asksFor (GoMap.set decls t (addFuncs s.helperFuncs s fns).1) k t') ↔ ∃ t' ∈ t :: ts, asksFor decls k t' := by
          constructor
          · rintro ⟨t', h, h'⟩
            exact ⟨t', List.mem_cons_of_mem _ h, (hasks t' h).mp h'⟩
          · rintro ⟨t', h, h'⟩
            rcases List.mem_cons.mp h with rfl | h
            · exact absurd h' hask
            · exact ⟨t', h, (hasks t' h).mpr h'⟩
        simp only [e1]
        simp [hk]
    · rename_i hs
      have hask : ¬ asksFor decls k t := by
        rintro ⟨u, hu, -⟩
        rw [hs] at hu
        cases hu
      rw [ih _ _ hnd hf (fun t' ht' => hno t' (List.mem_cons_of_mem _ ht'))]
      have hat : methodsAt (addAllFuncs ts decls fns).1 t = [] := by
        simp only [methodsAt]
        rw [addAllFuncs_other _ _ _ _ ht, hs]
      rw [hat]
      simp [hask]

theorem addAllFuncs_wf : ∀ (ts : List Str) (decls : GoMap Str Spec) (fns : GoMap Str FuncDecl), WF decls → WF (addAllFuncs ts decls fns).1 := by
  intro ts
  induction ts with
  | nil => exact fun _ _ h => h
  | cons t ts ih =>
    intro decls fns h
    rw [addAllFuncs]
    split
    · exact ih _ _ (wf_set h ..)
    · exact ih _ _ h

theorem mem_keys {α : Type} {m : GoMap Str α} (k : Str) : k ∈ m.map (·.1) ↔ ∃ v, get m k = some v := by
  constructor
  · intro h
    cases hg : get m k with
    | some v => exact ⟨v, rfl⟩
    | none => exact absurd h (get_none.mp hg)
  · rintro ⟨v, hv⟩
    exact List.mem_map.mpr ⟨_, get_some_mem hv, rfl⟩

theorem count_funcs (f : FuncDecl) : ∀ (l : List FuncDecl), List.count (GoDecl.func f) (l.map GoDecl.func) = List.count f l := by
  intro l
  induction l with
  | nil => rfl
  | cons a l ih =>
    rw [List.map_cons, List.count_cons, List.count_cons, ih]
    have : (GoDecl.func a == GoDecl.func f) = (a == f) := by
      by_cases h : a = f
      · subst h; simp
      · have h' : GoDecl.func a ≠ GoDecl.func f := fun e => h (by cases e; rfl)
        rw [beq_eq_false_iff_ne.mpr h, beq_eq_false_iff_ne.mpr h']
    rw [this]

/-- Functions in the file are the methods of the declarations. -/
theorem genAST_funcs (srt : Sorter strLt) (code : Code) (f : FuncDecl) :
    List.count (GoDecl.func f) (genAST srt code).2 = List.count f ((srt.sort (code.decls.map (·.1))).flatMap (methodsAt code.decls)) := by
  simp only [genAST]
  induction srt.sort (code.decls.map (·.1)) with
  | nil => rfl
  | cons t ts ih =>
    rw [List.flatMap_cons, List.flatMap_cons, List.count_append, List.count_append, ih]
    congr 1
    simp only [methodsAt]
    cases get code.decls t with
    | none => rfl
    | some s =>
      simp only
      rw [List.count_cons_of_ne (by intro h; cases h), count_funcs]

theorem genAST_func {srt : Sorter strLt} {code : Code} {name : Str} {s : Spec} {m : FuncDecl} (h : get code.decls name = some s)
    (hm : m ∈ s.methods) : GoDecl.func m ∈ (genAST srt code).2 := by
  simp only [genAST, List.mem_flatMap]
  refine ⟨name, ?_, by rw [h]; exact List.mem_cons_of_mem _ (List.mem_map_of_mem hm)⟩
  rw [(srt.perm _).mem_iff]
  exact (mem_keys _).mpr ⟨s, h⟩

/-! ### The file -/

/-- What the helpers are like. -/
structure HelperSet (cfg : Config) : Prop where
  names : HelpersOk cfg.helperTypes
  keyed : ∀ H, KeyedHelpers H cfg
  plain : ∀ k h, get cfg.helperTypes k = some h → h.helperTypes = [] ∧ (∀ f ∈ h.helperFuncs, ∃ g, get cfg.helperFuncs f = some g) ∧
    ∀ m ∈ h.methods, m.recv ≠ []
  funcs : ∀ k f, get cfg.helperFuncs k = some f → f.recv = [] ∧ f.name = k

/-- The parts of `finish`. -/
theorem finish_parts {srt : Sorter strLt} {cfg : Config} {ss : List Spec} (hpost : cfg.postprocessType = none) :
    ∃ deps, (∀ d, d ∈ deps ↔ ∃ k s, get (declare ss []) k = some s ∧ d ∈ s.helperTypes) ∧
      (finish srt cfg ss).1 = (addAllFuncs (srt.sort ((addHelpers deps (declare ss []) cfg.helperTypes).1.map (·.1)))
        (addHelpers deps (declare ss []) cfg.helperTypes).1 cfg.helperFuncs).1 := by
  refine ⟨(declare ss []).flatMap fun e => e.2.helperTypes, fun d => ?_, by simp only [finish, hpost]⟩
  rw [List.mem_flatMap]
  constructor
  · rintro ⟨e, he, hd⟩
    exact ⟨e.1, e.2, get_of_mem (declare_wf _ _ wf_nil) he, hd⟩
  · rintro ⟨k, s, hs, hd⟩
    exact ⟨_, get_some_mem hs, hd⟩

theorem finish_wf {srt : Sorter strLt} {cfg : Config} {ss : List Spec} (hpost : cfg.postprocessType = none) : WF (finish srt cfg ss).1 := by
  obtain ⟨deps, -, e⟩ := finish_parts (srt := srt) (ss := ss) hpost
  rw [e]
  exact addAllFuncs_wf _ _ _ (addHelpers_wf _ _ _ (declare_wf _ _ wf_nil))

/-- Helper types that a declaration asks for are declared. -/
theorem finish_types {srt : Sorter strLt} {cfg : Config} {ss : List Spec} (hpost : cfg.postprocessType = none) (hset : HelperSet cfg)
    (hss : ∀ s ∈ ss, Helped cfg s) {name : Str} {s : Spec} (hs : get (finish srt cfg ss).1 name = some s) {d : XName} (hd : d ∈ s.helperTypes) :
    ∃ h h', get cfg.helperTypes d = some h ∧ get (finish srt cfg ss).1 h.name = some h' ∧ h'.doc = h.doc ∧ h'.expr = h.expr ∧
      h'.helperFuncs = h.helperFuncs ∧ ∀ m ∈ h.methods, m ∈ h'.methods := by
  obtain ⟨deps, hdeps, e⟩ := finish_parts (srt := srt) (ss := ss) hpost
  rw [e] at hs ⊢
  obtain ⟨u, hu, k1, -⟩ := (addAllFuncs_rest _ _ _ _).1 s hs
  rw [k1] at hd
  have hspec : get (declare ss []) name = some u := by
    rcases addHelpers_some _ _ _ _ _ hu with h | ⟨d', h⟩
    · exact h
    · rw [(hset.plain _ _ h).1] at hd; cases hd
  have hin : u ∈ ss := by
    rcases declare_some _ _ _ _ hspec with h | h
    · exact h.1
    · cases h
  obtain ⟨h, hh⟩ := (hss u hin).1 d hd
  have hdecl := addHelpers_helper deps (declare ss []) cfg.helperTypes hset.names d ((hdeps d).mpr ⟨_, _, hspec, hd⟩) h hh
  obtain ⟨h', hh'⟩ := (addAllFuncs_rest (srt.sort ((addHelpers deps (declare ss []) cfg.helperTypes).1.map (·.1)))
    (addHelpers deps (declare ss []) cfg.helperTypes).1 cfg.helperFuncs h.name).2 h hdecl
  obtain ⟨v, hv, -, j2, j3, j4, j5⟩ := (addAllFuncs_rest _ _ _ _).1 h' hh'
  rw [hdecl] at hv
  cases hv
  exact ⟨h, h', hh, hh', j3, j4, j2, j5⟩

open Classical in
/-- Helper functions are declared once if a declaration asks for them. -/
theorem finish_funcs {srt srt' : Sorter strLt} {cfg : Config} {ss : List Spec} (hpost : cfg.postprocessType = none) (hset : HelperSet cfg)
    (hss : ∀ s ∈ ss, Helped cfg s) {code : Code} (hcode : code.decls = (finish srt cfg ss).1) {k : Str} {f : FuncDecl}
    (hf : get cfg.helperFuncs k = some f) :
    List.count (.func f) (genAST srt' code).2 = if ∃ name s, get code.decls name = some s ∧ k ∈ s.helperFuncs then 1 else 0 := by
  obtain ⟨deps, hdeps, e⟩ := finish_parts (srt := srt) (ss := ss) hpost
  have hwf := finish_wf (srt := srt) (ss := ss) hpost
  rw [← hcode] at hwf e
  have hwf1 : WF (addHelpers deps (declare ss []) cfg.helperTypes).1 := addHelpers_wf _ _ _ (declare_wf _ _ wf_nil)
  have hno : ∀ t s, get (addHelpers deps (declare ss []) cfg.helperTypes).1 t = some s → f ∉ s.methods := by
    intro t s hs hmem
    have hr : f.recv ≠ [] := by
      rcases addHelpers_some _ _ _ _ _ hs with h | ⟨d', h⟩
      · rcases declare_some _ _ _ _ h with h | h
        · exact (hss s h.1).2.2 f hmem
        · cases h
      · exact (hset.plain _ _ h).2.2 f hmem
    exact hr (hset.funcs _ _ hf).1
  generalize hd1 : (addHelpers deps (declare ss []) cfg.helperTypes).1 = d1 at e hwf1 hno
  have hperm : (srt'.sort (code.decls.map (·.1))).Perm (srt.sort (d1.map (·.1))) := by
    refine (srt'.perm _).trans (List.Perm.trans ?_ (srt.perm _).symm)
    rw [List.perm_ext_iff_of_nodup hwf hwf1]
    intro x
    rw [mem_keys, mem_keys, e]
    constructor
    · rintro ⟨v, hv⟩
      obtain ⟨u, hu, -⟩ := (addAllFuncs_rest _ _ _ _).1 v hv
      exact ⟨u, hu⟩
    · rintro ⟨u, hu⟩
      exact (addAllFuncs_rest _ _ _ _).2 u hu
  rw [genAST_funcs, (hperm.flatMap_right _).count_eq, e, addAllFuncs_count f k _ _ _ ((srt.perm _).nodup_iff.mpr hwf1)
    (fun k' h => by rw [← (hset.funcs _ _ hf).2, (hset.funcs _ _ h).2]) (fun t _ s hs => hno t s hs)]
  have hiff : (get cfg.helperFuncs k = some f ∧ ∃ t ∈ srt.sort (d1.map (·.1)), asksFor d1 k t) ↔
      ∃ name s, get (addAllFuncs (srt.sort (d1.map (·.1))) d1 cfg.helperFuncs).1 name = some s ∧ k ∈ s.helperFuncs := by
    constructor
    · rintro ⟨-, t, -, s, hs, hk⟩
      obtain ⟨s', hs'⟩ := (addAllFuncs_rest (srt.sort (d1.map (·.1))) d1 cfg.helperFuncs t).2 s hs
      obtain ⟨u, hu, -, k2, -⟩ := (addAllFuncs_rest _ _ _ _).1 s' hs'
      rw [hs] at hu
      cases hu
      exact ⟨t, s', hs', k2 ▸ hk⟩
    · rintro ⟨t, s', hs', hk⟩
      obtain ⟨u, hu, -, k2, -⟩ := (addAllFuncs_rest _ _ _ _).1 s' hs'
      refine ⟨hf, t, (srt.perm _).mem_iff.mpr ((mem_keys _).mpr ⟨u, hu⟩), u, hu, k2 ▸ hk⟩
  simp only [hiff]

end GoXml.Xsdgen
