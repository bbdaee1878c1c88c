import Verif.Proofs.XsdgenName
import Verif.Spec.WsdlgenFile
set_option autoImplicit false

/-! A type that no other type refers to is not changed unless it is asked for. -/

namespace GoXml.Xsdgen
open Xsd GoMap

/-- The type `id` is `o`, and no other type refers to it. -/
structure Quiet (id : Nat) (o : TObj) (H : THeap) : Prop where
  here : H[id]? = some o
  alone : ∀ (j : Nat) o', j ≠ id → H[j]? = some o' → ¬ Mentions o' (.obj id)

theorem Quiet.set {id j : Nat} {o o' : TObj} {H : THeap} (h : Quiet id o H) (hj : j ≠ id) (ho : ¬ Mentions o' (.obj id)) : Quiet id o (H.set j o') where
  here := by rw [List.getElem?_set_ne hj]; exact h.here
  alone := by
    intro k x hk hx
    by_cases e : j = k
    · subst e
      rw [List.getElem?_set] at hx
      simp only [if_true] at hx
      split at hx
      · cases hx; exact ho
      · cases hx
    · rw [List.getElem?_set_ne e] at hx
      exact h.alone k x hk hx

theorem Quiet.ext {id : Nat} {o : TObj} {H H' : THeap} (h : Quiet id o H) (he : Ext H H') (hi : H'[id]? = H[id]?) : Quiet id o H' where
  here := by rw [hi]; exact h.here
  alone := by
    intro j x hj hx hm
    rcases he.get j with ⟨-, h2⟩ | ⟨s, h1, h2⟩ | ⟨c, c', h1, h2, -, -, h3, h4, h5, -, -⟩
    · rw [h2] at hx; cases hx
    · rw [h2] at hx; cases hx
      exact h.alone j _ hj h1 hm
    · rw [h2] at hx; cases hx
      have hc := h.alone j _ hj h1
      have hne : ∀ bid, c.base = some (.obj bid) → bid ≠ id := by
        rintro bid hb rfl
        exact hc (Or.inl hb)
      rcases hm with hm | ⟨e, hel, hm⟩ | ⟨a, hat, hm⟩
      · exact hc (Or.inl (by rw [← h3]; exact hm))
      · rcases h4 e hel with hel | ⟨bid, b, hb, hbo, hel⟩
        · exact hc (Or.inr (Or.inl ⟨e, hel, hm⟩))
        · exact h.alone bid _ (hne bid hb) hbo (Or.inr (Or.inl ⟨e, hel, hm⟩))
      · rcases h5 a hat with hat | ⟨bid, b, hb, hbo, hat⟩
        · exact hc (Or.inr (Or.inr ⟨a, hat, hm⟩))
        · exact h.alone bid _ (hne bid hb) hbo (Or.inr (Or.inr ⟨a, hat, hm⟩))

theorem Quiet.base {id : Nat} {o : TObj} {H : THeap} (h : Quiet id o H) {t : Ty} (ht : t ≠ .obj id) : baseOf H t ≠ some (.obj id) := by
  cases t with
  | builtin b => simp [baseOf]
  | link m => simp [baseOf]
  | obj j =>
    simp only [baseOf]
    split
    · rename_i o' ho'
      intro hb
      refine h.alone j o' (fun e => ht (by rw [e])) ho' ?_
      cases o' with
      | simple s => exact hb
      | complex c => exact Or.inl hb
    · simp

theorem baseChain_quiet {id : Nat} {o : TObj} {H : THeap} (h : Quiet id o H) : ∀ (n : Nat) (b : Option Builtin) (t : Option Ty)
    (r : List Ty × Option Builtin), t ≠ some (.obj id) → baseChain H n b t = .ok r → Ty.obj id ∉ r.1 := by
  intro n
  induction n with
  | zero => intro b t r _ hr; cases hr
  | succ n ih =>
    intro b t r ht hr
    have step : ∀ u, u ≠ Ty.obj id → (baseChain H n (some AnyType) (baseOf H u)).bind (fun r => .ok (u :: r.1, r.2)) = .ok r → Ty.obj id ∉ r.1 := by
      intro u hu hr
      obtain ⟨q, hq, hr⟩ := bind_ok hr
      cases hr
      intro hm
      rcases List.mem_cons.mp hm with e | hm
      · exact hu e.symm
      · exact ih _ _ q (h.base hu) hq hm
    cases t with
    | none => cases hr; simp
    | some t =>
      cases t with
      | builtin x => cases hr; simp
      | obj k => exact step (.obj k) (fun e => ht (by rw [e])) hr
      | link m => exact step (.link m) (by simp) hr

theorem setSimpleBase_quiet {id : Nat} {o : TObj} {b : Option Builtin} {H : THeap} (h : Quiet id o H) {t : Ty} (ht : t ≠ .obj id) :
    Quiet id o (setSimpleBase (b.map Ty.builtin) H t) := by
  unfold setSimpleBase
  split
  · rename_i j
    split
    · refine h.set (fun e => ht (by rw [e])) ?_
      cases b <;> simp [Mentions]
    · exact h
  · exact h

theorem foldBase_quiet {id : Nat} {o : TObj} {b : Option Builtin} : ∀ (l : List Ty) {H : THeap}, Quiet id o H → Ty.obj id ∉ l →
    Quiet id o (l.foldl (setSimpleBase (b.map Ty.builtin)) H) := by
  intro l
  induction l with
  | nil => intro H h _; exact h
  | cons t l ih =>
    intro H h hl
    exact ih (setSimpleBase_quiet h (fun e => hl (by rw [e]; exact List.mem_cons_self ..))) (fun hm => hl (List.mem_cons_of_mem _ hm))

/-- The calls do not change the type, and do not come across it. -/
def Quiets (id : Nat) (o : TObj) (recur : THeap → Option Ty → Run Flat) : Prop := ∀ (G : THeap) (t : Option Ty) (r : Flat),
  Quiet id o G → t ≠ some (.obj id) → recur G t = .ok r → Quiet id o r.1 ∧ r.2.2 ≠ some (.obj id) ∧ Ty.obj id ∉ r.2.1

theorem flattenSimple_quiet {id : Nat} {o : TObj} {n j : Nat} {H : THeap} {s : SimpleT} {r : Flat} (h : Quiet id o H) (hj : j ≠ id)
    (hs : H[j]? = some (.simple s)) (hr : flattenSimple n H j s = .ok r) : Quiet id o r.1 ∧ r.2.2 ≠ some (.obj id) ∧ Ty.obj id ∉ r.2.1 := by
  obtain ⟨q, hq, hr⟩ := bind_ok hr
  have hb : s.base ≠ some (.obj id) := fun e => h.alone j _ hj hs e
  have hc : Ty.obj id ∉ q.1.filter (isSimple H) := fun hm => baseChain_quiet h n none s.base q hb hq (List.mem_filter.mp hm).1
  have hne : Ty.obj j ≠ .obj id := fun e => hj (by cases e; rfl)
  have hk := setSimpleBase_quiet (b := q.2) (foldBase_quiet (b := q.2) _ h hc) hne
  have hres : some (Ty.obj j) ≠ some (.obj id) := fun e => hne (by cases e; rfl)
  dsimp only at hr
  split at hr
  · cases hr; exact ⟨hk, hres, hc⟩
  · split at hr
    · cases hr
      refine ⟨hk.set hj ?_, hres, hc⟩
      cases q.2 <;> simp [Mentions]
    · cases hr
      refine ⟨hk, ?_, hc⟩
      cases q.2 <;> simp

theorem fieldLoop_quiet {id : Nat} {o : TObj} {recur : THeap → Option Ty → Run Flat} (hrec : Quiets id o recur) {get : THeap → Nat → Option Ty}
    {set : THeap → Nat → Ty → THeap} (hget : ∀ G i, Quiet id o G → get G i ≠ some (.obj id))
    (hset : ∀ G i t, Quiet id o G → t ≠ .obj id → Quiet id o (set G i t)) : ∀ (is : List Nat) (G : THeap) (r : THeap × List Ty),
    Quiet id o G → fieldLoop recur get set is G = .ok r → Quiet id o r.1 ∧ Ty.obj id ∉ r.2 := by
  intro is
  induction is with
  | nil => intro G r h hr; cases hr; exact ⟨h, by simp⟩
  | cons i is ih =>
    intro G r h hr
    obtain ⟨q, hq, hr⟩ := bind_ok hr
    obtain ⟨k1, k2, k3⟩ := hrec _ _ q h (hget G i h) hq
    split at hr
    · cases hr
    · rename_i t ht
      obtain ⟨p, hp, hr⟩ := bind_ok hr
      cases hr
      have htne : t ≠ .obj id := fun e => k2 (by rw [ht, e])
      obtain ⟨j1, j2⟩ := ih _ p (hset _ _ _ k1 htne) hp
      refine ⟨j1, ?_⟩
      intro hm
      rcases List.mem_append.mp hm with hm | hm
      · exact k3 hm
      · rcases List.mem_cons.mp hm with e | hm
        · exact htne e.symm
        · exact j2 hm

theorem mem_modify {α : Type} {f : α → α} {x : α} : ∀ {l : List α} {i : Nat}, x ∈ l.modify i f → x ∈ l ∨ ∃ y ∈ l, x = f y := by
  intro l i h
  obtain ⟨k, hk⟩ := List.mem_iff_getElem?.mp h
  rw [List.getElem?_modify] at hk
  split at hk
  · obtain ⟨y, hy, rfl⟩ := Option.map_eq_some_iff.mp hk
    exact Or.inr ⟨y, List.mem_of_getElem? hy, rfl⟩
  · obtain ⟨y, hy, rfl⟩ := Option.map_eq_some_iff.mp hk
    exact Or.inl (List.mem_of_getElem? hy)

theorem flattenComplex_quiet {id : Nat} {o : TObj} {recur : THeap → Option Ty → Run Flat} (hrec : Quiets id o recur) {G : THeap} {j : Nat} {c : ComplexT}
    {r : Flat} (h : Quiet id o G) (hj : j ≠ id) (hr : flattenComplex recur G j c = .ok r) :
    Quiet id o r.1 ∧ r.2.2 ≠ some (.obj id) ∧ Ty.obj id ∉ r.2.1 := by
  obtain ⟨e, he, hr⟩ := bind_ok hr
  obtain ⟨a, ha, hr⟩ := bind_ok hr
  obtain ⟨b, hb, hr⟩ := bind_ok hr
  have hne : Ty.obj j ≠ .obj id := fun e => hj (by cases e; rfl)
  obtain ⟨e1, e2⟩ := fieldLoop_quiet hrec (get := fun H i => elemType H j i) (set := fun H i t => setElemType H j i t) (by
      intro G i h
      simp only [elemType]
      split
      · rename_i c hc
        intro hm
        obtain ⟨x, hx, hm⟩ := Option.map_eq_some_iff.mp hm
        exact h.alone j _ hj hc (Or.inr (Or.inl ⟨x, List.mem_of_getElem? hx, hm⟩))
      · simp) (by
      intro G i t h ht
      simp only [setElemType]
      split
      · rename_i c hc
        refine h.set hj ?_
        rintro (hm | ⟨x, hx, hm⟩ | hm)
        · exact h.alone j _ hj hc (Or.inl hm)
        · rcases mem_modify hx with hx | ⟨y, hy, rfl⟩
          · exact h.alone j _ hj hc (Or.inr (Or.inl ⟨x, hx, hm⟩))
          · exact ht hm
        · exact h.alone j _ hj hc (Or.inr (Or.inr hm))
      · exact h) _ _ _ h he
  obtain ⟨a1, a2⟩ := fieldLoop_quiet hrec (get := fun H i => attrType H j i) (set := fun H i t => setAttrType H j i t) (by
      intro G i h
      simp only [attrType]
      split
      · rename_i c hc
        intro hm
        obtain ⟨x, hx, hm⟩ := Option.map_eq_some_iff.mp hm
        exact h.alone j _ hj hc (Or.inr (Or.inr ⟨x, List.mem_of_getElem? hx, hm⟩))
      · simp) (by
      intro G i t h ht
      simp only [setAttrType]
      split
      · rename_i c hc
        refine h.set hj ?_
        rintro (hm | hm | ⟨x, hx, hm⟩)
        · exact h.alone j _ hj hc (Or.inl hm)
        · exact h.alone j _ hj hc (Or.inr (Or.inl hm))
        · rcases mem_modify hx with hx | ⟨y, hy, rfl⟩
          · exact h.alone j _ hj hc (Or.inr (Or.inr ⟨x, hx, hm⟩))
          · exact ht hm
      · exact h) _ _ _ e1 ha
  obtain ⟨b1, b2, b3⟩ := hrec _ _ b a1 (a1.base hne) hb
  split at hr
  · cases hr
  · rename_i t ht
    cases hr
    have htne : t ≠ .obj id := fun e => b2 (by rw [ht, e])
    refine ⟨?_, fun e => hne (by cases e; rfl), ?_⟩
    · simp only [setComplexBase]
      split
      · rename_i c hc
        refine b1.set hj ?_
        rintro (hm | hm | hm)
        · exact htne (by cases hm; rfl)
        · exact b1.alone j _ hj hc (Or.inr (Or.inl hm))
        · exact b1.alone j _ hj hc (Or.inr (Or.inr hm))
      · exact b1
    · intro hm
      simp only [List.mem_append] at hm
      rcases hm with ((hm | hm) | hm) | hm
      · exact e2 hm
      · exact a2 hm
      · exact b3 hm
      · split at hm
        · exact htne (by cases hm with | head => rfl | tail _ h => cases h)
        · cases hm

theorem flatten1_quiet (id : Nat) (o : TObj) (cfg : Config) (n : Nat) : ∀ d, Quiets id o (flatten1 cfg n d) := by
  intro d
  induction d with
  | zero => intro G t r h ht hr; cases hr; exact ⟨h, ht, by simp⟩
  | succ d ih =>
    intro G t r h ht hr
    cases t with
    | none => cases hr
    | some t =>
      cases t with
      | link x => cases hr
      | builtin x => cases hr; exact ⟨h, by simp, by simp⟩
      | obj j =>
        have hj : j ≠ id := fun e => ht (by rw [e])
        simp only [flatten1] at hr
        split at hr
        · cases hr
        · rename_i s hs
          exact flattenSimple_quiet h hj hs hr
        · rename_i c hcx
          split at hr
          · split at hr
            · cases hr; exact ⟨h, by simp, by simp⟩
            · exact flattenComplex_quiet ih h hj hr
          · rename_i bid hb
            split at hr
            · refine ih _ _ _ h ?_ hr
              intro e
              exact h.alone j _ hj hcx (Or.inl (by rw [hb]; exact e))
            · exact flattenComplex_quiet ih h hj hr
          · exact flattenComplex_quiet ih h hj hr

theorem flattenLoop_quiet {cfg : Config} {n id : Nat} {o : TObj} (hself : o.name.loc = b!"_self") : ∀ (ts : List Ty) (G : THeap) (r : THeap × List Ty),
    Quiet id o G → flattenLoop cfg n G ts = .ok r → Quiet id o r.1 ∧ Ty.obj id ∉ r.2 := by
  intro ts
  induction ts with
  | nil => intro G r h hr; cases hr; exact ⟨h, by simp⟩
  | cons t ts ih =>
    intro G r h hr
    simp only [flattenLoop] at hr
    split at hr
    · exact ih _ _ h hr
    · rename_i hsk
      have ht : t ≠ .obj id := by
        rintro rfl
        apply hsk
        simp [skipped, xmlName, h.here, hself]
      obtain ⟨q, hq, hr⟩ := bind_ok hr
      obtain ⟨p, hp, hr⟩ := bind_ok hr
      cases hr
      obtain ⟨k1, k2, k3⟩ := flatten1_quiet id o cfg n _ _ _ q h (fun e => ht (by cases e; rfl)) hq
      obtain ⟨j1, j2⟩ := ih _ p k1 hp
      refine ⟨j1, ?_⟩
      intro hm
      simp only [List.mem_append, Option.mem_toList] at hm
      rcases hm with (hm | hm) | hm
      · exact k3 hm
      · exact k2 hm
      · exact j2 hm

theorem extendBases_quiet {id : Nat} {o : TObj} {H : THeap} (h : Quiet id o H) : ∀ (n : Nat) (index : GoMap XName Nat) (all : List Ty) (t : Option Ty)
    (r : GoMap XName Nat × List Ty), t ≠ some (.obj id) → Ty.obj id ∉ all → extendBases H n index all t = .ok r → Ty.obj id ∉ r.2 := by
  intro n
  induction n with
  | zero => intro index all t r _ _ hr; cases hr
  | succ n ih =>
    intro index all t r ht hall hr
    cases t with
    | none => cases hr; exact hall
    | some b =>
      have hb : b ≠ .obj id := fun e => ht (by rw [e])
      simp only [extendBases] at hr
      split at hr
      · exact ih _ _ _ _ (h.base hb) hall hr
      · refine ih _ _ _ _ (h.base hb) ?_ hr
        intro hm
        rcases List.mem_append.mp hm with hm | hm
        · exact hall hm
        · exact hb (List.mem_singleton.mp hm).symm

theorem extendAll_quiet {id : Nat} {o : TObj} {H : THeap} (h : Quiet id o H) (n : Nat) : ∀ (vs : List Ty) (index : GoMap XName Nat) (all : List Ty)
    (r : GoMap XName Nat × List Ty), Ty.obj id ∉ vs → Ty.obj id ∉ all → extendAll H n index all vs = .ok r → Ty.obj id ∉ r.2 := by
  intro vs
  induction vs with
  | nil => intro index all r _ hall hr; cases hr; exact hall
  | cons v vs ih =>
    intro index all r hvs hall hr
    obtain ⟨q, hq, hr⟩ := bind_ok hr
    exact ih _ _ _ (fun hm => hvs (List.mem_cons_of_mem _ hm))
      (extendBases_quiet h n _ _ _ q (h.base (fun e => hvs (by rw [e]; exact List.mem_cons_self ..))) hall hq) hr

theorem expandOne_at {all : List Ty} {H H' : THeap} {i : Int} {id : Nat} (hall : Ty.obj id ∉ all) (h : expandOne all H i = some H') : H'[id]? = H[id]? := by
  unfold expandOne at h
  split at h
  · rename_i j hj
    have hne : j ≠ id := by
      rintro rfl
      exact hall (List.mem_of_getElem? hj)
    split at h
    · split at h
      · cases h; rw [List.getElem?_set_ne hne]
      · cases h; rfl
    · cases h
  · cases h

theorem expandWalk_quiet {all : List Ty} {id : Nat} {o : TObj} (hall : Ty.obj id ∉ all) : ∀ (is : List Int) (H H' : THeap), Quiet id o H →
    expandWalk all H is = some H' → Quiet id o H' := by
  intro is
  induction is with
  | nil => intro H H' h hr; cases hr; exact h
  | cons i is ih =>
    intro H H' h hr
    simp only [expandWalk] at hr
    split at hr
    · cases hr
    · rename_i G hG
      exact ih _ _ (h.ext (expandOne_ext hG) (expandOne_at hall hG)) hr

theorem expand_quiet {n id : Nat} {o : TObj} {H H' : THeap} {types : List Ty} (h : Quiet id o H) (ht : Ty.obj id ∉ types)
    (hr : expandComplexTypes n H types = .ok H') : Quiet id o H' := by
  obtain ⟨q, hq, hr⟩ := bind_ok hr
  have hall := extendAll_quiet h n _ _ _ q ht ht hq
  split at hr
  · cases hr
  · split at hr
    · cases hr
    · split at hr
      · cases hr
      · rename_i G hG
        cases hr
        exact expandWalk_quiet hall _ _ _ h hG

theorem genTypeSpec_quiet {env : Env} {cfg : Config} {n id : Nat} {o : TObj} {H : THeap} {t : Ty} {r : THeap × List Spec} (h : Quiet id o H)
    (ht : t ≠ .obj id) (hr : genTypeSpec env cfg n H t = .ok r) : Quiet id o r.1 := by
  refine h.ext (genTypeSpec_named hr).1 ?_
  cases t with
  | builtin b => cases hr; rfl
  | link m => cases hr; rfl
  | obj j =>
    have hj : j ≠ id := fun e => ht (by rw [e])
    simp only [genTypeSpec] at hr
    split at hr
    · obtain ⟨q, hq, hr⟩ := bind_ok hr
      cases hr; rfl
    · obtain ⟨acc, hacc, hr⟩ := bind_ok hr
      cases hr
      exact List.getElem?_set_ne hj
    · cases hr; rfl

theorem specHeap_quiet {env : Env} {cfg : Config} {n id : Nat} {o : TObj} {H : THeap} {t : Ty} (h : Quiet id o H) (ht : t ≠ .obj id) :
    Quiet id o (specHeap env cfg n H t) := by
  refine h.ext specHeap_ext ?_
  cases t with
  | builtin b => rfl
  | link m => rfl
  | obj j =>
    have hj : j ≠ id := fun e => ht (by rw [e])
    simp only [specHeap]
    split
    · split
      · exact List.getElem?_set_ne hj
      · rfl
    · rfl

theorem genList_quiet {env : Env} {cfg : Config} {n id : Nat} {o : TObj} : ∀ (ts : List Ty) (H : THeap) (r : THeap × List Spec × Bool), Quiet id o H →
    Ty.obj id ∉ ts → genList env cfg n H ts = .ok r → Quiet id o r.1 := by
  intro ts
  induction ts with
  | nil => intro H r h _ hr; cases hr; exact h
  | cons t ts ih =>
    intro H r h ht hr
    have h1 : t ≠ .obj id := fun e => ht (by rw [e]; exact List.mem_cons_self ..)
    have h2 : Ty.obj id ∉ ts := fun hm => ht (List.mem_cons_of_mem _ hm)
    simp only [genList] at hr
    split at hr
    · rename_i s hs
      obtain ⟨q, hq, hr⟩ := bind_ok hr
      cases hr
      exact ih _ q (genTypeSpec_quiet h h1 hs) h2 hq
    · obtain ⟨q, hq, hr⟩ := bind_ok hr
      cases hr
      exact ih _ q h h2 hq
    · cases hr
    · cases hr

theorem genSchemas_quiet {env : Env} {cfg : Config} {n id : Nat} {o : TObj} (hself : o.name.loc = b!"_self") : ∀ (schemas : List (List Ty)) (H : THeap)
    (r : THeap × List Spec × Bool), Quiet id o H → genSchemas env cfg n H schemas = .ok r → Quiet id o r.1 := by
  intro schemas
  induction schemas with
  | nil => intro H r h hr; cases hr; exact h
  | cons ts rest ih =>
    intro H r h hr
    obtain ⟨f, hf, hr⟩ := bind_ok hr
    obtain ⟨G, hG, hr⟩ := bind_ok hr
    obtain ⟨g, hg, hr⟩ := bind_ok hr
    obtain ⟨q, hq, hr⟩ := bind_ok hr
    cases hr
    obtain ⟨l, hl, hf⟩ := bind_ok hf
    cases hf
    obtain ⟨k1, k2⟩ := flattenLoop_quiet hself ts H l h hl
    have k3 : Ty.obj id ∉ dedup l.1 l.2 := by
      rw [dedup_eq]
      exact fun hm => k2 (firsts_mem _ hm)
    exact ih _ q (genList_quiet _ _ g (expand_quiet k1 k3 hG) k3 hg) hq

theorem builtinName_self (b : Builtin) : (builtinName b).loc ≠ b!"_self" := by
  by_cases hb : b < 0 ∨ b ≥ (builtinIndex.length : Int) - 1
  · have hs : builtinString b = b!"Builtin(" ++ intStr b ++ b!")" := by rw [builtinString, if_pos hb]
    have h1 : ¬ b ∈ [ENTITIES, ENTITY, ID, IDREF, IDREFS, NCName, NMTOKEN, NMTOKENS, NOTATION, QName, Name] := by
      intro hm
      have : ∀ b ∈ [ENTITIES, ENTITY, ID, IDREF, IDREFS, NCName, NMTOKEN, NMTOKENS, NOTATION, QName, Name],
        ¬ (b < 0 ∨ b ≥ (builtinIndex.length : Int) - 1) := by decide
      exact this b hm hb
    have h2 : ¬ b ∈ [XMLLang, XMLSpace, XMLBase, XMLId] := by
      intro hm
      have : ∀ b ∈ [XMLLang, XMLSpace, XMLBase, XMLId], ¬ (b < 0 ∨ b ≥ (builtinIndex.length : Int) - 1) := by decide
      exact this b hm hb
    simp only [builtinName, if_neg h1, if_neg h2, hs]
    intro e
    have := congrArg List.head? e
    revert this
    simp [lowerFirst, List.cons_append]
  · have hr : ∀ i ∈ List.range 50, (builtinName (i : Int)).loc ≠ b!"_self" := by decide +kernel
    have hl : (builtinIndex.length : Int) = 51 := by decide
    obtain ⟨h0, h1⟩ := not_or.mp hb
    have h0 : (0 : Int) ≤ b := Int.not_lt.mp h0
    have h1 : (b : Int) < 50 := by rw [hl] at h1; exact Int.not_le.mp h1
    have := hr (Int.toNat b) (by rw [List.mem_range]; exact (Int.toNat_lt h0).mpr h1)
    rw [Int.toNat_of_nonneg h0] at this
    exact this

/-- `NameOf` renames no type. -/
theorem nameOf_names {env : Env} {cfg : Config} {n : Nat} {T : GoMap XName Ty} :
    ∀ (k : Nat) (H : THeap) (code : Code) (q : XName) (r : THeap × Code × Str), code.types = T →
    (∀ x t, get T x = some t → NotLink t) → Linked H → nameOf env cfg n k H code q = .ok r → ∀ t, xmlName r.1 t = xmlName H t := by
  intro k
  induction k with
  | zero => intro H code q r _ _ _ hr; cases hr
  | succ k ih =>
    intro H code q r hT hkeys hl hr
    simp only [nameOf] at hr
    split at hr
    · cases hr; exact fun _ => rfl
    · split at hr
      · obtain ⟨x, hx, hr⟩ := bind_ok hr
        split at hr
        · cases hr; exact fun _ => rfl
        · cases hr; exact fun _ => rfl
      · split at hr
        · cases hr; exact fun _ => rfl
        · rename_i t ht
          rw [hT] at ht
          have hnl := hkeys q t ht
          obtain ⟨f, hf, hr⟩ := bind_ok hr
          have flow := (flatten1_flow cfg n 1001 H _ f hl (by intro v hv; cases hv; exact hnl) hf).1
          have hn : ∀ t, xmlName f.1 t = xmlName H t := flow.names
          split at hr
          · intro t
            rw [ih _ _ _ _ hT hkeys (flow.linked hl) hr, hn]
          · split at hr
            · cases hr
              exact fun t => by rw [specHeap_ext.names, hn]
            · rename_i s hs
              cases hr
              exact fun t => by rw [(genTypeSpec_named hs).1.names, hn]
            · cases hr
            · cases hr

/-- `NameOf` leaves such a type alone if it is asked for other types. -/
theorem nameOf_quiet {env : Env} {cfg : Config} {n id : Nat} {o : TObj} {T : GoMap XName Ty} (hself : o.name.loc = b!"_self") :
    ∀ (k : Nat) (H : THeap) (code : Code) (q : XName) (r : THeap × Code × Str), Quiet id o H → code.types = T →
    (∀ x t, get T x = some t → ((xmlName H t).loc = b!"_self" → xmlName H t = x) ∧ NotLink t) → Linked H → q.loc ≠ b!"_self" →
    nameOf env cfg n k H code q = .ok r →
    Quiet id o r.1 ∧ r.2.1.types = T ∧ (∀ t, xmlName r.1 t = xmlName H t) := by
  intro k
  induction k with
  | zero => intro H code q r _ _ _ _ _ hr; cases hr
  | succ k ih =>
    intro H code q r h hT hkeys hl hq hr
    simp only [nameOf] at hr
    split at hr
    · cases hr; exact ⟨h, hT, fun _ => rfl⟩
    · split at hr
      · obtain ⟨x, hx, hr⟩ := bind_ok hr
        split at hr
        · cases hr; exact ⟨h, hT, fun _ => rfl⟩
        · cases hr; exact ⟨h, hT, fun _ => rfl⟩
      · split at hr
        · cases hr; exact ⟨h, hT, fun _ => rfl⟩
        · rename_i t ht
          rw [hT] at ht
          obtain ⟨hkey, hnl⟩ := hkeys q t ht
          have hne : t ≠ .obj id := by
            rintro rfl
            simp only [xmlName, h.here] at hkey
            exact hq (by rw [← hkey hself]; exact hself)
          obtain ⟨f, hf, hr⟩ := bind_ok hr
          have flow := (flatten1_flow cfg n 1001 H _ f hl (by intro v hv; cases hv; exact hnl) hf).1
          have hk := (flatten1_quiet id o cfg n 1001 H _ f h (fun e => hne (by cases e; rfl)) hf).1
          have hn : ∀ t, xmlName f.1 t = xmlName H t := flow.names
          split at hr
          · rename_i b hb
            obtain ⟨i1, i2, i3⟩ := ih _ _ _ _ hk hT (fun x t hx => by rw [hn]; exact hkeys x t hx) (flow.linked hl) (builtinName_self b) hr
            exact ⟨i1, i2, fun t => by rw [i3, hn]⟩
          · split at hr
            · cases hr
              exact ⟨specHeap_quiet hk hne, hT, fun t => by rw [specHeap_ext.names, hn]⟩
            · rename_i s hs
              cases hr
              exact ⟨genTypeSpec_quiet hk hne hs, hT, fun t => by rw [(genTypeSpec_named hs).1.names, hn]⟩
            · cases hr
            · cases hr

end GoXml.Xsdgen
