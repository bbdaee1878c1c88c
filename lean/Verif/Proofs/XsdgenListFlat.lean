import Verif.Proofs.XsdgenMeaning
set_option autoImplicit false

/-! Lists are generated after they have been given a built-in type of items. -/

namespace GoXml.Xsdgen
open Xsd GoMap

/-- A simple type without a base other than a built-in one. -/
def FlatAt (G : THeap) (id : Nat) : Prop := ∃ s, G[id]? = some (.simple s) ∧ ∀ t, s.base = some t → ∃ b, t = .builtin b

theorem FlatAt.flat {H G : THeap} {id : Nat} (h : FlatHeap (fun _ => False) H G) (hf : FlatAt H id) : FlatAt G id := by
  obtain ⟨s, hs, hb⟩ := hf
  obtain ⟨o', ho', hk⟩ := h.objs.get hs
  cases o' with
  | complex c => cases hk
  | simple s' =>
    refine ⟨s', ho', fun t ht => ?_⟩
    rcases h.bases.some_ id t (by simp only [baseOf, ho']; exact ht) with ⟨b0, h0, h1⟩ | ⟨-, rfl⟩
    · simp only [baseOf, hs] at h0
      obtain ⟨b, rfl⟩ := hb b0 h0
      exact ⟨b, h1.of_builtin⟩
    · exact ⟨_, rfl⟩

theorem FlatAt.ext {H G : THeap} {id : Nat} (h : Ext H G) (hf : FlatAt H id) : FlatAt G id := by
  obtain ⟨s, hs, hb⟩ := hf
  exact ⟨s, h.simple.mpr hs, hb⟩

/-- Flattening a simple type gives it a built-in base. -/
theorem flattenSimple_flatAt {n : Nat} {H : THeap} {id : Nat} {s : SimpleT} {r : Flat} (hs : H[id]? = some (.simple s))
    (h : flattenSimple n H id s = .ok r) : FlatAt r.1 id := by
  obtain ⟨q, -, h⟩ := bind_ok h
  have hset : FlatAt (setSimpleBase (q.2.map Ty.builtin) ((q.1.filter (isSimple H)).foldl (setSimpleBase (q.2.map Ty.builtin)) H) (.obj id)) id := by
    have e := setSimpleBase_get (q.2.map Ty.builtin) ((q.1.filter (isSimple H)).foldl (setSimpleBase (q.2.map Ty.builtin)) H) (.obj id) id
    rw [foldl_setSimpleBase, hs] at e
    simp only [if_true] at e
    refine ⟨_, e, fun t ht => ?_⟩
    obtain ⟨b, -, rfl⟩ := Option.map_eq_some_iff.mp ht
    exact ⟨b, rfl⟩
  dsimp only at h
  split at h
  · cases h; exact hset
  · split at h
    · cases h
      have hlt : id < (setSimpleBase (q.2.map Ty.builtin) ((q.1.filter (isSimple H)).foldl (setSimpleBase (q.2.map Ty.builtin)) H) (.obj id)).length := by
        rw [setSimpleBase_length, foldl_setSimpleBase_length]; exact (List.getElem?_eq_some_iff.mp hs).1
      refine ⟨_, List.getElem?_set_self hlt, fun t ht => ?_⟩
      obtain ⟨b, -, rfl⟩ := Option.map_eq_some_iff.mp ht
      exact ⟨b, rfl⟩
    · cases h; exact hset

theorem flatten1_flatAt {cfg : Config} {n d : Nat} {H : THeap} {id : Nat} {s : SimpleT} {r : Flat} (hs : H[id]? = some (.simple s))
    (h : flatten1 cfg n (d + 1) H (some (.obj id)) = .ok r) : FlatAt r.1 id := by
  simp only [flatten1, hs] at h
  exact flattenSimple_flatAt hs h

theorem flattenLoop_flatAt {cfg : Config} {n id : Nat} : ∀ (ts : List Ty) (G : THeap) (r : THeap × List Ty) (s : SimpleT), Ty.obj id ∈ ts →
    G[id]? = some (.simple s) → skipped cfg s.name = false → flattenLoop cfg n G ts = .ok r → FlatAt r.1 id := by
  intro ts
  induction ts with
  | nil => intro G r s h; cases h
  | cons t ts ih =>
    intro G r s hm hs hsk h
    simp only [flattenLoop] at h
    split at h
    · rename_i hsk'
      rcases List.mem_cons.mp hm with e | hm
      · rw [← e] at hsk'
        simp only [xmlName, hs, TObj.name] at hsk'
        rw [hsk] at hsk'
        cases hsk'
      · exact ih G r s hm hs hsk h
    · obtain ⟨q, hq, h⟩ := bind_ok h
      obtain ⟨p, hp, h⟩ := bind_ok h
      cases h
      have hflat : FlatHeap (fun _ => False) G q.1 := (flatten1_flat cfg n 1001 G G _ q (fun _ h => h.elim) (.refl _ G) hq).1
      rcases List.mem_cons.mp hm with e | hm
      · rw [← e] at hq
        exact FlatAt.flat (flattenLoop_flat (W := fun _ => False) ts q.1 p (fun _ h => h.elim) (.refl _ q.1) hp) (flatten1_flatAt (d := 1000) hs hq)
      · obtain ⟨o', ho', hk⟩ := hflat.objs.get hs
        cases o' with
        | complex c => cases hk
        | simple s' => exact ih q.1 p s' hm ho' (by rw [hk.1]; exact hsk) hp

/-- Specs that are made on heaps in which one type has been flattened. -/
def TracedFlat (env : Env) (cfg : Config) (n : Nat) (H : THeap) (id : Nat) (s : Spec) : Prop :=
  ∃ G j r, KeepHeap (fun _ => False) H G ∧ FlatAt G id ∧ genTypeSpec env cfg n G (.obj j) = .ok r ∧ s ∈ r.2

theorem genList_tracedFlat {env : Env} {cfg : Config} {n : Nat} {H : THeap} {id : Nat} : ∀ (ts : List Ty) (G : THeap) (r : THeap × List Spec × Bool),
    KeepHeap (fun _ => False) H G → FlatAt G id → genList env cfg n G ts = .ok r → FlatAt r.1 id ∧ ∀ s ∈ r.2.1, TracedFlat env cfg n H id s := by
  intro ts
  induction ts with
  | nil => intro G r h hf hr; cases hr; exact ⟨hf, fun s hs => by cases hs⟩
  | cons t ts ih =>
    intro G r h hf hr
    simp only [genList] at hr
    split at hr
    · rename_i q hq
      obtain ⟨p, hp, hr⟩ := bind_ok hr
      cases hr
      obtain ⟨k1, k2⟩ := ih _ _ (h.ext (genTypeSpec_named hq).1) (hf.ext (genTypeSpec_named hq).1) hp
      refine ⟨k1, ?_⟩
      intro s hs
      rcases List.mem_append.mp hs with hs | hs
      · obtain ⟨-, -, j, o, rfl, -⟩ := genTypeSpec_type hq s hs
        exact ⟨G, j, q, h, hf, hq, hs⟩
      · exact k2 s hs
    · obtain ⟨p, hp, hr⟩ := bind_ok hr
      cases hr
      exact ih _ p h hf hp
    · cases hr
    · cases hr

theorem genSchemas_tracedFlat {env : Env} {cfg : Config} {n : Nat} {H : THeap} {id : Nat} : ∀ (schemas : List (List Ty)) (G : THeap)
    (r : THeap × List Spec × Bool), KeepHeap (fun _ => False) H G → FlatAt G id → genSchemas env cfg n G schemas = .ok r → ∀ s ∈ r.2.1, TracedFlat env cfg n H id s := by
  intro schemas
  induction schemas with
  | nil => intro G r _ _ hr; cases hr; exact fun s hs => (by cases hs)
  | cons types rest ih =>
    intro G r h hfa hr
    obtain ⟨f, hf, hr⟩ := bind_ok hr
    obtain ⟨L, hL, hf⟩ := bind_ok hf
    cases hf
    obtain ⟨H2, hH2, hr⟩ := bind_ok hr
    obtain ⟨g, hg, hr⟩ := bind_ok hr
    obtain ⟨q, hq, hr⟩ := bind_ok hr
    cases hr
    have hL' := flattenLoop_flat (W := fun _ => False) _ _ _ (fun _ h => h.elim) (.refl _ G) hL
    have k2 : KeepHeap (fun _ => False) H H2 := (expand_ext hH2).keep _ (fun _ _ he hk => hk.ext he) (h.flat hL')
    have f2 : FlatAt H2 id := (expand_ext hH2).keep (fun K => FlatAt K id) (fun _ _ he hk => hk.ext he) (hfa.flat hL')
    obtain ⟨k3, -⟩ := genList_traced _ _ _ k2 hg
    obtain ⟨f3, k4⟩ := genList_tracedFlat _ _ _ k2 f2 hg
    intro s hs
    rcases List.mem_append.mp hs with hs | hs
    · exact k4 s hs
    · exact ih _ _ k3 f3 hq s hs

/-- The specs from the schema of a simple type on: one of them has its name, and all are made after it has been flattened. -/
theorem genSchemas_simpleFlat {env : Env} {cfg : Config} {n : Nat} {H : THeap} {id : Nat} : ∀ (schemas : List (List Ty)) (G : THeap)
    (r : THeap × List Spec × Bool) (s : SimpleT), Linked G → KeepHeap (fun _ => False) H G → OwnNames G → (∀ types ∈ schemas, ∀ t ∈ types, NotLink t) →
    G[id]? = some (.simple s) → HasContent cfg (.simple s) → skipped cfg s.name = false → s.name ≠ ⟨[], []⟩ →
    genSchemas env cfg n G schemas = .ok r → r.2.2 = false → ∀ types ∈ schemas, Ty.obj id ∈ types →
    ∃ pre post, r.2.1 = pre ++ post ∧ (∃ v ∈ post, v.name = publicName env cfg s.name) ∧ ∀ v ∈ post, TracedFlat env cfg n H id v := by
  intro schemas
  induction schemas with
  | nil => intro G r s _ _ _ _ _ _ _ _ _ _ types ht; cases ht
  | cons types rest ih =>
    intro G r s hl h hown hnl hs hlist hsk hn0 hr hflag ts hts hid
    have hr0 := hr
    obtain ⟨f, hf, hr⟩ := bind_ok hr
    obtain ⟨L, hL, hf⟩ := bind_ok hf
    cases hf
    obtain ⟨H2, hH2, hr⟩ := bind_ok hr
    obtain ⟨g, hg, hr⟩ := bind_ok hr
    obtain ⟨q, hq, hr⟩ := bind_ok hr
    cases hr
    have hL' := flattenLoop_flat (W := fun _ => False) _ _ _ (fun _ h => h.elim) (.refl _ G) hL
    have e1 := expand_ext hH2
    have k2 : KeepHeap (fun _ => False) H H2 := e1.keep _ (fun _ _ he hk => hk.ext he) (h.flat hL')
    obtain ⟨k3, -⟩ := genList_traced _ _ _ k2 hg
    by_cases hin : Ty.obj id ∈ types
    · refine ⟨[], _, rfl, ?_, ?_⟩
      · exact genSchemas_named _ G _ hl (Keep.refl G) hown hnl hr0 hflag types (List.mem_cons_self ..) id _ hin hs (Or.inl hlist) hsk hn0
      · have fl := flattenLoop_flatAt _ _ _ _ hin hs hsk hL
        have f2 : FlatAt H2 id := e1.keep (fun K => FlatAt K id) (fun _ _ he hk => hk.ext he) fl
        obtain ⟨f3, k4⟩ := genList_tracedFlat _ _ _ k2 f2 hg
        intro v hv
        rcases List.mem_append.mp hv with hv | hv
        · exact k4 v hv
        · exact genSchemas_tracedFlat _ _ _ k3 f3 hq v hv
    · have hts' : ts ∈ rest := by
        rcases List.mem_cons.mp hts with rfl | hts
        · exact absurd hid hin
        · exact hts
      simp only [Bool.or_eq_false_iff] at hflag
      obtain ⟨f1, -, -, -⟩ := flattenLoop_flow types G L hl (Keep.refl G) (hnl types (List.mem_cons_self ..)) hL
      obtain ⟨e2, -⟩ := genList_named _ H2 g hg hflag.1
      have e12 := e1.trans e2
      have hl3 : Linked g.1 := e12.keep _ (fun _ _ h => h.linked) (f1.linked hl)
      have hown3 : OwnNames g.1 := e12.keep _ (fun _ _ h => ownNames_names h.names h.length) (ownNames_names f1.names f1.len hown)
      obtain ⟨o', ho', hk⟩ := hL'.objs.get hs
      cases o' with
      | complex c => cases hk
      | simple s' =>
        obtain ⟨a1, a2, a3, a4⟩ := hk
        have hs3 : g.1[id]? = some (.simple s') := e12.keep (fun K => K[id]? = some (.simple s')) (fun _ _ he hx => he.simple.mpr hx) ho'
        obtain ⟨pre, post, h1, h2, h3⟩ := ih g.1 q s' hl3 k3 hown3 (fun ts hts => hnl ts (List.mem_cons_of_mem _ hts)) hs3 (by simp only [HasContent, a2, a3, a4]; exact hlist)
          (by rw [a1]; exact hsk) (by rw [a1]; exact hn0) hq hflag.2 ts hts' hid
        refine ⟨g.2.1 ++ pre, post, ?_, ?_, h3⟩
        · dsimp only
          rw [h1, List.append_assoc]
        · rw [← a1]; exact h2

theorem declare_append : ∀ (a b : List Spec) (m : GoMap Str Spec), declare (a ++ b) m = declare b (declare a m) := by
  intro a
  induction a with
  | nil => exact fun _ _ => rfl
  | cons s a ih => exact fun b m => ih b _

/-- The last declarations count. -/
theorem declare_last {b : List Spec} : ∀ {m : GoMap Str Spec} {k : Str} {v : Spec}, (∃ s ∈ b, s.name = k) → get (declare b m) k = some v → v ∈ b ∧ v.name = k := by
  induction b with
  | nil => rintro m k v ⟨s, hs, -⟩; cases hs
  | cons x b ih =>
    rintro m k v ⟨s, hs, hn⟩ h
    by_cases hex : ∃ s ∈ b, s.name = k
    · obtain ⟨h1, h2⟩ := ih hex h
      exact ⟨List.mem_cons_of_mem _ h1, h2⟩
    · have hsx : s = x := by
        rcases List.mem_cons.mp hs with rfl | hs
        · rfl
        · exact absurd ⟨s, hs, hn⟩ hex
      subst hsx
      rcases declare_some b _ _ _ h with ⟨h1, h2⟩ | h
      · exact absurd ⟨v, h1, h2⟩ hex
      · rw [get_set, if_pos hn] at h
        cases h
        exact ⟨List.mem_cons_self .., hn⟩

end GoXml.Xsdgen
