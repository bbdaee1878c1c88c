import Verif.Proofs.XsdgenListFlat
import Verif.Proofs.XsdgenFit
set_option autoImplicit false

/-! The comment that a simple type gets from its restrictions stays. -/

namespace GoXml.Xsdgen
open Xsd GoMap

/-- The type has the comment that its restrictions give. -/
def DocAt (doc : Str) (G : THeap) (id : Nat) : Prop := ∃ s, G[id]? = some (.simple s) ∧ s.doc = doc ∧ keptDoc s.restriction = some doc

variable {doc : Str} {id : Nat}

theorem DocAt.ext {H G : THeap} (h : Ext H G) (hd : DocAt doc H id) : DocAt doc G id := by
  obtain ⟨s, hs, hr⟩ := hd
  exact ⟨s, h.simple.mpr hs, hr⟩

theorem DocAt.same {H G : THeap} (h : ∀ s, H[id]? = some (.simple s) → G[id]? = some (.simple s)) (hd : DocAt doc H id) : DocAt doc G id := by
  obtain ⟨s, hs, hr⟩ := hd
  exact ⟨s, h s hs, hr⟩

theorem setElemType_simple {G : THeap} {j i k : Nat} {t : Ty} {s : SimpleT} (h : G[k]? = some (.simple s)) : (setElemType G j i t)[k]? = some (.simple s) := by
  by_cases e : k = j
  · subst e
    simp only [setElemType, h]
  · rw [setElemType_off _ _ _ _ _ e]; exact h

theorem setAttrType_simple {G : THeap} {j i k : Nat} {t : Ty} {s : SimpleT} (h : G[k]? = some (.simple s)) : (setAttrType G j i t)[k]? = some (.simple s) := by
  by_cases e : k = j
  · subst e
    simp only [setAttrType, h]
  · rw [setAttrType_off _ _ _ _ _ e]; exact h

theorem setComplexBase_simple {G : THeap} {j k : Nat} {t : Ty} {s : SimpleT} (h : G[k]? = some (.simple s)) : (setComplexBase G j t)[k]? = some (.simple s) := by
  by_cases e : k = j
  · subst e
    simp only [setComplexBase, h]
  · rw [setComplexBase_off _ _ _ _ e]; exact h

theorem setBases_docAt {b : Option Ty} {l : List Ty} {t : Ty} {H : THeap} (h : DocAt doc H id) :
    DocAt doc (setSimpleBase b (l.foldl (setSimpleBase b) H) t) id := by
  obtain ⟨s, hs, h1, h2⟩ := h
  have e := setSimpleBase_get b (l.foldl (setSimpleBase b) H) t id
  rw [foldl_setSimpleBase, hs] at e
  refine ⟨_, e, ?_⟩
  by_cases c1 : t = .obj id <;> by_cases c2 : Ty.obj id ∈ l <;> simp only [c1, c2, if_true, if_false] <;> exact ⟨h1, h2⟩

theorem flattenSimple_docAt {n j : Nat} {H : THeap} {s : SimpleT} {r : Flat} (hs : H[j]? = some (.simple s)) (h : DocAt doc H id)
    (hr : flattenSimple n H j s = .ok r) : DocAt doc r.1 id := by
  obtain ⟨q, -, hr⟩ := bind_ok hr
  dsimp only at hr
  split at hr
  · cases hr
    dsimp only
    exact setBases_docAt h
  · split at hr
    · rename_i d hd
      cases hr
      by_cases e : id = j
      · subst e
        obtain ⟨s', hs', h1, h2⟩ := h
        rw [hs] at hs'
        cases hs'
        rw [hd] at h2
        cases h2
        have hlt : id < (setSimpleBase (q.2.map Ty.builtin) ((q.1.filter (isSimple H)).foldl (setSimpleBase (q.2.map Ty.builtin)) H) (.obj id)).length := by
          rw [setSimpleBase_length, foldl_setSimpleBase_length]; exact (List.getElem?_eq_some_iff.mp hs).1
        exact ⟨_, List.getElem?_set_self hlt, rfl, hd⟩
      · refine DocAt.same (fun s h => ?_) (setBases_docAt (b := q.2.map Ty.builtin) (l := q.1.filter (isSimple H)) (t := .obj j) h)
        dsimp only
        rw [List.getElem?_set_ne (Ne.symm e)]
        exact h
    · cases hr
      dsimp only
      exact setBases_docAt h

theorem fieldLoop_docAt {recur : THeap → Option Ty → Run Flat} {get : THeap → Nat → Option Ty} {set : THeap → Nat → Ty → THeap}
    (hrec : ∀ H t r, DocAt doc H id → recur H t = .ok r → DocAt doc r.1 id) (hset : ∀ H i t, DocAt doc H id → DocAt doc (set H i t) id) :
    ∀ (is : List Nat) (H : THeap) (r : THeap × List Ty), DocAt doc H id → fieldLoop recur get set is H = .ok r → DocAt doc r.1 id := by
  intro is
  induction is with
  | nil => intro H r h hr; cases hr; exact h
  | cons i is ih =>
    intro H r h hr
    obtain ⟨q, hq, hr⟩ := bind_ok hr
    split at hr
    · cases hr
    · obtain ⟨p, hp, hr⟩ := bind_ok hr
      cases hr
      exact ih _ p (hset _ _ _ (hrec _ _ _ h hq)) hp

theorem flattenComplex_docAt {recur : THeap → Option Ty → Run Flat} (hrec : ∀ H t r, DocAt doc H id → recur H t = .ok r → DocAt doc r.1 id)
    {H : THeap} {j : Nat} {c : ComplexT} {r : Flat} (h : DocAt doc H id) (hr : flattenComplex recur H j c = .ok r) : DocAt doc r.1 id := by
  unfold flattenComplex at hr
  obtain ⟨e, he, hr⟩ := bind_ok hr
  obtain ⟨a, ha, hr⟩ := bind_ok hr
  obtain ⟨b, hb, hr⟩ := bind_ok hr
  have h1 := fieldLoop_docAt hrec (fun _ _ _ hd => hd.same fun _ hs => setElemType_simple hs) _ _ _ h he
  have h2 := fieldLoop_docAt hrec (fun _ _ _ hd => hd.same fun _ hs => setAttrType_simple hs) _ _ _ h1 ha
  have h3 := hrec _ _ _ h2 hb
  split at hr
  · cases hr
  · cases hr
    exact h3.same fun _ hs => setComplexBase_simple hs

theorem flatten1_docAt (cfg : Config) (n : Nat) : ∀ (d : Nat) (H : THeap) (t : Option Ty) (r : Flat), DocAt doc H id → flatten1 cfg n d H t = .ok r →
    DocAt doc r.1 id := by
  intro d
  induction d with
  | zero => intro H t r h hr; cases hr; exact h
  | succ d ih =>
    intro H t r h hr
    cases t with
    | none => cases hr
    | some t =>
      cases t with
      | link x => cases hr
      | builtin b => cases hr; exact h
      | obj j =>
        simp only [flatten1] at hr
        split at hr
        · cases hr
        · rename_i s hs
          exact flattenSimple_docAt hs h hr
        · split at hr
          · split at hr
            · cases hr; exact h
            · exact flattenComplex_docAt ih h hr
          · split at hr
            · exact ih _ _ _ h hr
            · exact flattenComplex_docAt ih h hr
          · exact flattenComplex_docAt ih h hr

theorem flattenLoop_keepsDoc {cfg : Config} {n : Nat} : ∀ (ts : List Ty) (H : THeap) (r : THeap × List Ty), DocAt doc H id →
    flattenLoop cfg n H ts = .ok r → DocAt doc r.1 id := by
  intro ts
  induction ts with
  | nil => intro H r h hr; cases hr; exact h
  | cons t ts ih =>
    intro H r h hr
    simp only [flattenLoop] at hr
    split at hr
    · exact ih _ _ h hr
    · obtain ⟨q, hq, hr⟩ := bind_ok hr
      obtain ⟨p, hp, hr⟩ := bind_ok hr
      cases hr
      exact ih _ p (flatten1_docAt cfg n _ _ _ _ h hq) hp

/-- A type whose restrictions give a comment gets it, if it is neither a list nor a union nor derived from a type with methods. -/
theorem flattenSimple_givesDoc {n : Nat} {H : THeap} {s : SimpleT} {r : Flat} (hs : H[id]? = some (.simple s)) (hl : s.list = false) (hu : s.union = [])
    (hd : keptDoc s.restriction = some doc) (hb : ∀ b, r.1[id]? = some (.simple b) → nonTrivialBuiltin b.base = false)
    (hr : flattenSimple n H id s = .ok r) : DocAt doc r.1 id := by
  obtain ⟨q, -, hr⟩ := bind_ok hr
  have hlt : id < (setSimpleBase (q.2.map Ty.builtin) ((q.1.filter (isSimple H)).foldl (setSimpleBase (q.2.map Ty.builtin)) H) (.obj id)).length := by
    rw [setSimpleBase_length, foldl_setSimpleBase_length]; exact (List.getElem?_eq_some_iff.mp hs).1
  dsimp only at hr
  split at hr
  · rename_i hc
    cases hr
    rcases hc with hc | hc | hc
    · rw [hl] at hc; cases hc
    · exact absurd hu hc
    · have e := setSimpleBase_get (q.2.map Ty.builtin) ((q.1.filter (isSimple H)).foldl (setSimpleBase (q.2.map Ty.builtin)) H) (.obj id) id
      rw [foldl_setSimpleBase, hs] at e
      simp only [if_true] at e
      have := hb _ e
      rw [hc] at this
      cases this
  · rw [hd] at hr
    cases hr
    exact ⟨_, List.getElem?_set_self hlt, rfl, hd⟩

theorem flattenLoop_givesDoc {cfg : Config} {n : Nat} {H0 : THeap} (hb : ∀ b, Below H0 id (.builtin b) → nonTrivialBuiltin (some (.builtin b)) = false) :
    ∀ (ts : List Ty) (G : THeap) (r : THeap × List Ty) (s : SimpleT), Bases H0 G → Ty.obj id ∈ ts → G[id]? = some (.simple s) → skipped cfg s.name = false →
    s.list = false → s.union = [] → keptDoc s.restriction = some doc → flattenLoop cfg n G ts = .ok r → DocAt doc r.1 id := by
  intro ts
  induction ts with
  | nil => intro G r s _ h; cases h
  | cons t ts ih =>
    intro G r s hG hm hs hsk hl hu hd h
    simp only [flattenLoop] at h
    split at h
    · rename_i hsk'
      rcases List.mem_cons.mp hm with e | hm
      · rw [← e] at hsk'
        simp only [xmlName, hs, TObj.name] at hsk'
        rw [hsk] at hsk'
        cases hsk'
      · exact ih G r s hG hm hs hsk hl hu hd h
    · obtain ⟨q, hq, h⟩ := bind_ok h
      obtain ⟨p, hp, h⟩ := bind_ok h
      cases h
      have hstep : FlatHeap (fun _ => False) G q.1 := (flatten1_flat cfg n 1001 G G _ q (fun _ h => h.elim) (.refl _ G) hq).1
      have hflat : Bases H0 q.1 := hG.trans hstep.bases
      rcases List.mem_cons.mp hm with e | hm
      · subst e
        refine flattenLoop_keepsDoc ts _ p ?_ hp
        have hq' : flattenSimple n G id s = .ok q := by
          rw [show (1001 : Nat) = 1000 + 1 from rfl] at hq
          simp only [flatten1, hs] at hq
          exact hq
        refine flattenSimple_givesDoc hs hl hu hd (fun b hb' => ?_) hq'
        obtain ⟨s', hs', hfl⟩ := flattenSimple_flatAt hs hq'
        rw [hs'] at hb'
        obtain rfl : s' = b := by cases hb'; rfl
        cases e2 : s'.base with
        | none => rfl
        | some t =>
          obtain ⟨b, rfl⟩ := hfl t e2
          exact hb b (hflat.some_ id _ (by simp only [baseOf, hs']; exact e2))
      · obtain ⟨o', ho', hk⟩ := hstep.objs.get hs
        cases o' with
        | complex c => cases hk
        | simple s' =>
          obtain ⟨a1, a2, a3, a4⟩ := hk
          exact ih q.1 p s' hflat hm ho' (by rw [a1]; exact hsk) (by rw [a2]; exact hl) (by rw [a3]; exact hu) (by rw [a4]; exact hd) hp

/-- Specs that are made on heaps in which one type has its comment. -/
def TracedDoc (env : Env) (cfg : Config) (n : Nat) (H : THeap) (doc : Str) (id : Nat) (s : Spec) : Prop :=
  ∃ G j r, KeepHeap (fun _ => False) H G ∧ DocAt doc G id ∧ genTypeSpec env cfg n G (.obj j) = .ok r ∧ s ∈ r.2

theorem genList_tracedDoc {env : Env} {cfg : Config} {n : Nat} {H : THeap} : ∀ (ts : List Ty) (G : THeap) (r : THeap × List Spec × Bool),
    KeepHeap (fun _ => False) H G → DocAt doc G id → genList env cfg n G ts = .ok r → DocAt doc r.1 id ∧ ∀ s ∈ r.2.1, TracedDoc env cfg n H doc id s := by
  intro ts
  induction ts with
  | nil => intro G r h hf hr; cases hr; exact ⟨hf, fun s hs => by cases hs⟩
  | cons t ts ih =>
    intro G r h hf hr
    simp only [genList] at hr
    split at hr
    · rename_i q hq
      obtain ⟨p, hp, hr⟩ := bind_ok hr
      cases hr
      obtain ⟨k1, k2⟩ := ih _ _ (h.ext (genTypeSpec_named hq).1) (hf.ext (genTypeSpec_named hq).1) hp
      refine ⟨k1, ?_⟩
      intro s hs
      rcases List.mem_append.mp hs with hs | hs
      · obtain ⟨-, -, j, o, rfl, -⟩ := genTypeSpec_type hq s hs
        exact ⟨G, j, q, h, hf, hq, hs⟩
      · exact k2 s hs
    · obtain ⟨p, hp, hr⟩ := bind_ok hr
      cases hr
      exact ih _ p h hf hp
    · cases hr
    · cases hr

theorem genSchemas_tracedDoc {env : Env} {cfg : Config} {n : Nat} {H : THeap} : ∀ (schemas : List (List Ty)) (G : THeap)
    (r : THeap × List Spec × Bool), KeepHeap (fun _ => False) H G → DocAt doc G id → genSchemas env cfg n G schemas = .ok r →
    ∀ s ∈ r.2.1, TracedDoc env cfg n H doc id s := by
  intro schemas
  induction schemas with
  | nil => intro G r _ _ hr; cases hr; exact fun s hs => (by cases hs)
  | cons types rest ih =>
    intro G r h hfa hr
    obtain ⟨f, hf, hr⟩ := bind_ok hr
    obtain ⟨L, hL, hf⟩ := bind_ok hf
    cases hf
    obtain ⟨H2, hH2, hr⟩ := bind_ok hr
    obtain ⟨g, hg, hr⟩ := bind_ok hr
    obtain ⟨q, hq, hr⟩ := bind_ok hr
    cases hr
    have hL' := flattenLoop_flat (W := fun _ => False) _ _ _ (fun _ h => h.elim) (.refl _ G) hL
    have k2 : KeepHeap (fun _ => False) H H2 := (expand_ext hH2).keep _ (fun _ _ he hk => hk.ext he) (h.flat hL')
    have f2 : DocAt doc H2 id := (expand_ext hH2).keep (fun K => DocAt doc K id) (fun _ _ he hk => hk.ext he) (flattenLoop_keepsDoc _ _ L hfa hL)
    obtain ⟨k3, -⟩ := genList_traced _ _ _ k2 hg
    obtain ⟨f3, k4⟩ := genList_tracedDoc _ _ _ k2 f2 hg
    intro s hs
    rcases List.mem_append.mp hs with hs | hs
    · exact k4 s hs
    · exact ih _ _ k3 f3 hq s hs

/-- The specs from the schema of a simple type on: one of them has its name, and all are made after it has got its comment. -/
theorem genSchemas_simpleDoc {env : Env} {cfg : Config} {n : Nat} {H : THeap} (hb : ∀ b, Below H id (.builtin b) → nonTrivialBuiltin (some (.builtin b)) = false) :
    ∀ (schemas : List (List Ty)) (G : THeap)
    (r : THeap × List Spec × Bool) (s : SimpleT), Linked G → KeepHeap (fun _ => False) H G → OwnNames G → (∀ types ∈ schemas, ∀ t ∈ types, NotLink t) →
    G[id]? = some (.simple s) → HasContent cfg (.simple s) → skipped cfg s.name = false → s.name ≠ ⟨[], []⟩ →
    s.list = false → s.union = [] → keptDoc s.restriction = some doc →
    genSchemas env cfg n G schemas = .ok r → r.2.2 = false → ∀ types ∈ schemas, Ty.obj id ∈ types →
    ∃ pre post, r.2.1 = pre ++ post ∧ (∃ v ∈ post, v.name = publicName env cfg s.name) ∧ ∀ v ∈ post, TracedDoc env cfg n H doc id v := by
  intro schemas
  induction schemas with
  | nil => intro G r s _ _ _ _ _ _ _ _ _ _ _ _ _ types ht; cases ht
  | cons types rest ih =>
    intro G r s hl h hown hnl hs hlist hsk hn0 hsl hsu hsd hr hflag ts hts hid
    have hr0 := hr
    obtain ⟨f, hf, hr⟩ := bind_ok hr
    obtain ⟨L, hL, hf⟩ := bind_ok hf
    cases hf
    obtain ⟨H2, hH2, hr⟩ := bind_ok hr
    obtain ⟨g, hg, hr⟩ := bind_ok hr
    obtain ⟨q, hq, hr⟩ := bind_ok hr
    cases hr
    have hL' := flattenLoop_flat (W := fun _ => False) _ _ _ (fun _ h => h.elim) (.refl _ G) hL
    have e1 := expand_ext hH2
    have k2 : KeepHeap (fun _ => False) H H2 := e1.keep _ (fun _ _ he hk => hk.ext he) (h.flat hL')
    obtain ⟨k3, -⟩ := genList_traced _ _ _ k2 hg
    by_cases hin : Ty.obj id ∈ types
    · refine ⟨[], _, rfl, ?_, ?_⟩
      · exact genSchemas_named _ G _ hl (Keep.refl G) hown hnl hr0 hflag types (List.mem_cons_self ..) id _ hin hs (Or.inl hlist) hsk hn0
      · have fl := flattenLoop_givesDoc (doc := doc) hb _ _ _ _ h.bases hin hs hsk hsl hsu hsd hL
        have f2 : DocAt doc H2 id := e1.keep (fun K => DocAt doc K id) (fun _ _ he hk => hk.ext he) fl
        obtain ⟨f3, k4⟩ := genList_tracedDoc _ _ _ k2 f2 hg
        intro v hv
        rcases List.mem_append.mp hv with hv | hv
        · exact k4 v hv
        · exact genSchemas_tracedDoc _ _ _ k3 f3 hq v hv
    · have hts' : ts ∈ rest := by
        rcases List.mem_cons.mp hts with rfl | hts
        · exact absurd hid hin
        · exact hts
      simp only [Bool.or_eq_false_iff] at hflag
      obtain ⟨f1, -, -, -⟩ := flattenLoop_flow types G L hl (Keep.refl G) (hnl types (List.mem_cons_self ..)) hL
      obtain ⟨e2, -⟩ := genList_named _ H2 g hg hflag.1
      have e12 := e1.trans e2
      have hl3 : Linked g.1 := e12.keep _ (fun _ _ h => h.linked) (f1.linked hl)
      have hown3 : OwnNames g.1 := e12.keep _ (fun _ _ h => ownNames_names h.names h.length) (ownNames_names f1.names f1.len hown)
      obtain ⟨o', ho', hk⟩ := hL'.objs.get hs
      cases o' with
      | complex c => cases hk
      | simple s' =>
        obtain ⟨a1, a2, a3, a4⟩ := hk
        have hs3 : g.1[id]? = some (.simple s') := e12.keep (fun K => K[id]? = some (.simple s')) (fun _ _ he hx => he.simple.mpr hx) ho'
        obtain ⟨pre, post, h1, h2, h3⟩ := ih g.1 q s' hl3 k3 hown3 (fun ts hts => hnl ts (List.mem_cons_of_mem _ hts)) hs3 (by simp only [HasContent, a2, a3, a4]; exact hlist)
          (by rw [a1]; exact hsk) (by rw [a1]; exact hn0) (by rw [a2]; exact hsl) (by rw [a3]; exact hsu) (by rw [a4]; exact hsd) hq hflag.2 ts hts' hid
        refine ⟨g.2.1 ++ pre, post, ?_, ?_, h3⟩
        · dsimp only
          rw [h1, List.append_assoc]
        · rw [← a1]; exact h2

end GoXml.Xsdgen
