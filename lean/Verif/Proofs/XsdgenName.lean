import Verif.Proofs.XsdgenDeclared
import Verif.Spec.XsdgenName
import Verif.Props.XsdBuiltin
set_option autoImplicit false

/-! Types that are replaced by built-in ones stay so, and what `NameOf` answers. -/

namespace GoXml.Xsdgen
open Xsd GoMap

/-! ### Simple types keep a base -/

theorem baseChain_some {G : THeap} : ∀ {n : Nat} {o : Option Builtin} {t : Option Ty} {r : List Ty × Option Builtin},
    baseChain G n o t = .ok r → (o ≠ none ∨ t ≠ none) → r.2 ≠ none := by
  intro n
  induction n with
  | zero => intro o t r h; cases h
  | succ n ih =>
    intro o t r h hne
    cases t with
    | none =>
      cases h
      rcases hne with h | h
      · exact h
      · exact absurd rfl h
    | some t =>
      cases t with
      | builtin b => cases h; simp
      | obj id =>
        obtain ⟨q, hq, h⟩ := bind_ok h
        cases h
        exact ih (r := q) hq (Or.inl (by simp))
      | link m =>
        obtain ⟨q, hq, h⟩ := bind_ok h
        cases h
        exact ih (r := q) hq (Or.inl (by simp))

theorem Based.complex {G : THeap} (h : Based G) {id : Nat} {c : ComplexT} : Based (G.set id (.complex c)) := by
  intro k s hs
  by_cases e : id = k
  · subst e
    rw [List.getElem?_set] at hs
    simp only [if_true] at hs
    split at hs <;> cases hs
  · rw [List.getElem?_set_ne e] at hs
    exact h k s hs

theorem Based.simple {G : THeap} (h : Based G) {id : Nat} {s : SimpleT} (hb : s.base ≠ none) : Based (G.set id (.simple s)) := by
  intro k s' hs
  by_cases e : id = k
  · subst e
    rw [List.getElem?_set] at hs
    simp only [if_true] at hs
    split at hs
    · cases hs; exact hb
    · cases hs
  · rw [List.getElem?_set_ne e] at hs
    exact h k s' hs

theorem Based.setSimple {G : THeap} (h : Based G) {b : Option Ty} (hb : b ≠ none) (t : Ty) : Based (setSimpleBase b G t) := by
  unfold setSimpleBase
  split
  · split
    · exact h.simple hb
    · exact h
  · exact h

theorem Based.setSimples {b : Option Ty} (hb : b ≠ none) : ∀ (l : List Ty) {G : THeap}, Based G → Based (l.foldl (setSimpleBase b) G) := by
  intro l
  induction l with
  | nil => exact fun h => h
  | cons t l ih => exact fun h => ih (h.setSimple hb t)

theorem flattenSimple_based {n : Nat} {G : THeap} {id : Nat} {s : SimpleT} {r : Flat} (h : Based G) (hs : G[id]? = some (.simple s))
    (hr : flattenSimple n G id s = .ok r) : Based r.1 ∧ (r.2.2 = some (.obj id) ∨ ∃ b, r.2.2 = some (.builtin b) ∧
      ∃ s', r.1[id]? = some (.simple s') ∧ s'.base = some (.builtin b) ∧ s'.list = false ∧ s'.union = [] ∧ keptDoc s'.restriction = none ∧
        nonTrivialBuiltin (some (.builtin b)) = false) := by
  obtain ⟨q, hq, hr⟩ := bind_ok hr
  have hsome := baseChain_some hq (Or.inr (h id s hs))
  obtain ⟨b, hb⟩ := Option.ne_none_iff_exists'.mp hsome
  rw [hb] at hr
  dsimp only [Option.map] at hr
  have k1 : Based (setSimpleBase (some (.builtin b)) ((q.1.filter (isSimple G)).foldl (setSimpleBase (some (.builtin b))) G) (.obj id)) :=
    (Based.setSimples (by simp) _ h).setSimple (by simp) _
  split at hr
  · cases hr
    exact ⟨k1, Or.inl rfl⟩
  · rename_i hcond
    split at hr
    · cases hr
      exact ⟨k1.simple (by simp), Or.inl rfl⟩
    · rename_i hd
      cases hr
      refine ⟨k1, Or.inr ⟨b, rfl, ?_⟩⟩
      have hget : (setSimpleBase (some (.builtin b)) ((q.1.filter (isSimple G)).foldl (setSimpleBase (some (.builtin b))) G) (.obj id))[id]? =
          some (.simple { s with base := some (.builtin b) }) := by
        rw [setSimpleBase_get, foldl_setSimpleBase, hs]
        by_cases hm : Ty.obj id ∈ q.1.filter (isSimple G) <;> simp [hm]
      refine ⟨_, hget, rfl, ?_, ?_, hd, ?_⟩
      · simp only [not_or] at hcond; simpa using hcond.1
      · simp only [not_or, ne_eq, Classical.not_not] at hcond; exact hcond.2.1
      · simp only [not_or] at hcond; simpa using hcond.2.2

/-! ### What is not touched -/

/-- The calls keep a property of the heap. -/
def Keeping (I : THeap → Prop) (recur : THeap → Option Ty → Run Flat) : Prop := ∀ G t r, I G → recur G t = .ok r → I r.1

theorem fieldLoop_keeping {I : THeap → Prop} {recur : THeap → Option Ty → Run Flat} {get : THeap → Nat → Option Ty} {set : THeap → Nat → Ty → THeap}
    (hrec : Keeping I recur) (hset : ∀ G i t, I G → I (set G i t)) : ∀ (is : List Nat) (G : THeap) (r : THeap × List Ty),
    I G → fieldLoop recur get set is G = .ok r → I r.1 := by
  intro is
  induction is with
  | nil => intro G r h hr; cases hr; exact h
  | cons i is ih =>
    intro G r h hr
    obtain ⟨q, hq, hr⟩ := bind_ok hr
    split at hr
    · cases hr
    · obtain ⟨p, hp, hr⟩ := bind_ok hr
      cases hr
      exact ih _ p (hset _ _ _ (hrec _ _ _ h hq)) hp

theorem setElem_other {G : THeap} {id id' i : Nat} {t : Ty} (h : id' ≠ id) : (setElemType G id' i t)[id]? = G[id]? := by
  unfold setElemType
  split
  · rw [List.getElem?_set_ne h]
  · rfl

theorem setAttr_other {G : THeap} {id id' i : Nat} {t : Ty} (h : id' ≠ id) : (setAttrType G id' i t)[id]? = G[id]? := by
  unfold setAttrType
  split
  · rw [List.getElem?_set_ne h]
  · rfl

theorem setBase_other {G : THeap} {id id' : Nat} {t : Ty} (h : id' ≠ id) : (setComplexBase G id' t)[id]? = G[id]? := by
  unfold setComplexBase
  split
  · rw [List.getElem?_set_ne h]
  · rfl

theorem flattenComplex_keeping {I : THeap → Prop} {recur : THeap → Option Ty → Run Flat} (hrec : Keeping I recur) {G : THeap} {id : Nat}
    {c : ComplexT} {r : Flat} (h1 : ∀ G i t, I G → I (setElemType G id i t)) (h2 : ∀ G i t, I G → I (setAttrType G id i t))
    (h3 : ∀ G t, I G → I (setComplexBase G id t)) (h : I G) (hr : flattenComplex recur G id c = .ok r) : I r.1 := by
  obtain ⟨e, he, hr⟩ := bind_ok hr
  obtain ⟨a, ha, hr⟩ := bind_ok hr
  obtain ⟨b, hb, hr⟩ := bind_ok hr
  have k1 := fieldLoop_keeping hrec h1 _ _ _ h he
  have k2 := fieldLoop_keeping hrec h2 _ _ _ k1 ha
  have k3 := hrec _ _ _ k2 hb
  split at hr
  · cases hr
  · cases hr
    exact h3 _ _ k3

theorem flatten1_based (cfg : Config) (n : Nat) : ∀ d, Keeping Based (flatten1 cfg n d) := by
  intro d
  induction d with
  | zero => intro G t r h hr; cases hr; exact h
  | succ d ih =>
    intro G t r h hr
    cases t with
    | none => cases hr
    | some t =>
      cases t with
      | link x => cases hr
      | builtin x => cases hr; exact h
      | obj id =>
        have hc : ∀ c, flattenComplex (flatten1 cfg n d) G id c = .ok r → Based r.1 := by
          intro c hr
          refine flattenComplex_keeping ih ?_ ?_ ?_ h hr
          · intro G i t h
            unfold setElemType
            split
            · exact h.complex
            · exact h
          · intro G i t h
            unfold setAttrType
            split
            · exact h.complex
            · exact h
          · intro G t h
            unfold setComplexBase
            split
            · exact h.complex
            · exact h
        simp only [flatten1] at hr
        split at hr
        · cases hr
        · rename_i s hs
          exact (flattenSimple_based h hs hr).1
        · rename_i c hcx
          split at hr
          · split at hr
            · cases hr; exact h
            · exact hc _ hr
          · split at hr
            · exact ih _ _ _ h hr
            · exact hc _ hr
          · exact hc _ hr

/-- A complex type that is replaced by its built-in base. -/
def Unpacked (cfg : Config) (c : ComplexT) (b : Builtin) : Prop := c.base = some (.builtin b) ∧ b ≠ AnyType ∧ (filterFields cfg c).1 = []

theorem flatten1_frozen (cfg : Config) (n : Nat) {id : Nat} {c : ComplexT} {b : Builtin} (hu : Unpacked cfg c b) :
    ∀ d, Keeping (fun G => G[id]? = some (.complex c)) (flatten1 cfg n d) := by
  intro d
  induction d with
  | zero => intro G t r h hr; cases hr; exact h
  | succ d ih =>
    intro G t r h hr
    cases t with
    | none => cases hr
    | some t =>
      cases t with
      | link x => cases hr
      | builtin x => cases hr; exact h
      | obj id' =>
        by_cases e : id' = id
        · subst e
          simp only [flatten1, h, hu.1] at hr
          rw [if_pos hu.2] at hr
          cases hr
          exact h
        · have hc : ∀ x, flattenComplex (flatten1 cfg n d) G id' x = .ok r → r.1[id]? = some (.complex c) := by
            intro x hr
            refine flattenComplex_keeping ih ?_ ?_ ?_ h hr
            · intro G i t h
              rw [setElem_other e]; exact h
            · intro G i t h
              rw [setAttr_other e]; exact h
            · intro G t h
              rw [setBase_other e]; exact h
          simp only [flatten1] at hr
          split at hr
          · cases hr
          · rename_i s hs
            obtain ⟨o', ho', ch⟩ := ((flattenSimple_spec hs hr).1 (fun _ => True)).get h
            obtain ⟨q, hq, hr⟩ := bind_ok hr
            have hget : ∀ b : Option Ty, (setSimpleBase b ((q.1.filter (isSimple G)).foldl (setSimpleBase b) G) (.obj id'))[id]? =
                some (.complex c) := by
              intro b
              rw [setSimpleBase_get, foldl_setSimpleBase, h]
            dsimp only at hr
            split at hr
            · cases hr; exact hget _
            · split at hr
              · cases hr
                show ((setSimpleBase _ _ _).set id' _)[id]? = _
                rw [List.getElem?_set_ne e]
                exact hget _
              · cases hr; exact hget _
          · split at hr
            · split at hr
              · cases hr; exact h
              · exact hc _ hr
            · split at hr
              · exact ih _ _ _ h hr
              · exact hc _ hr
            · exact hc _ hr

/-! ### Types that are replaced by built-in ones -/

/-- From now on the type is always replaced by the built-in one. -/
def Settled (cfg : Config) (H : THeap) (id : Nat) (b : Builtin) : Prop :=
  (∃ s k, H[id]? = some (.simple s) ∧ s.list = false ∧ s.union = [] ∧ keptDoc s.restriction = none ∧
    nonTrivialBuiltin (some (.builtin b)) = false ∧ EndsIn H (.obj id) b k) ∨
  ∃ c, H[id]? = some (.complex c) ∧ Unpacked cfg c b

theorem Settled.flow {cfg : Config} {n d : Nat} {H : THeap} {id : Nat} {b : Builtin} {t : Option Ty} {r : Flat} (h : Settled cfg H id b)
    (hl : Linked H) (ht : ∀ v, t = some v → NotLink v) (hr : flatten1 cfg n d H t = .ok r) : Settled cfg r.1 id b := by
  rcases h with ⟨s, k, h1, h2, h3, h4, h5, h6⟩ | ⟨c, hc, hu⟩
  · obtain ⟨o', ho', ch⟩ := (flatten1_flow cfg n d H t r hl ht hr).1.get h1
    cases o' with
    | complex _ => cases ch
    | simple s' =>
      obtain ⟨-, -, e1, e2, e3⟩ := ch
      exact Or.inl ⟨s', k, ho', e1.trans h2, e2.trans h3, by rw [e3]; exact h4, h5,
        (flatten1_keep cfg n H d _ _ _ (Keep.refl H) hr).1.endsIn h6⟩
  · exact Or.inr ⟨c, flatten1_frozen cfg n hu d _ _ _ hc hr, hu⟩

theorem Settled.ext {cfg : Config} {H H' : THeap} {id : Nat} {b : Builtin} (he : Ext H H') (h : Settled cfg H id b) : Settled cfg H' id b := by
  rcases h with ⟨s, k, h1, h2, h3, h4, h5, h6⟩ | ⟨c, hc, hu⟩
  · exact Or.inl ⟨s, k, he.simple.mpr h1, h2, h3, h4, h5, ((Keep.refl H).ext he).endsIn h6⟩
  · refine Or.inr ⟨c, ?_, hu⟩
    cases he with
    | same => exact hc
    | @grow id' bid c1 c2 b1 g1 g2 g3 =>
      have e : id' ≠ id := by
        rintro rfl
        rw [hc] at g1
        cases g1
        rw [hu.1] at g2
        cases g2
      rw [List.getElem?_set_ne e]
      exact hc

theorem Settled.result {cfg : Config} {n d : Nat} {H : THeap} {id : Nat} {b : Builtin} {r : Flat} (h : Settled cfg H id b)
    (hr : flatten1 cfg n (d + 1) H (some (.obj id)) = .ok r) : r.2.2 = some (.builtin b) := by
  rcases h with ⟨s, k, h1, h2, h3, h4, h5, h6⟩ | ⟨c, hc, hu⟩
  · simp only [flatten1, h1] at hr
    exact ((flattenSimple_keep (Keep.refl H) h1 hr).2 b k h6).2.2 h2 h3 h4 h5
  · simp only [flatten1, hc, hu.1] at hr
    rw [if_pos hu.2] at hr
    cases hr
    rfl

theorem Settled.ends {cfg : Config} {H : THeap} {id : Nat} {b : Builtin} (h : Settled cfg H id b) : Ancestor H (.obj id) (.builtin b) := by
  rcases h with ⟨s, k, h1, h2, h3, h4, h5, h6⟩ | ⟨c, hc, hu⟩
  · exact h6.anc
  · exact .base (by simp only [baseOf, hc]; exact hu.1) (.self _)

/-- What `flatten1` makes of a type. -/
theorem flatten1_class {cfg : Config} {n d : Nat} {H : THeap} {id : Nat} {r : Flat} (hb : Based H) (ha : Attributed cfg H)
    (hr : flatten1 cfg n (d + 1) H (some (.obj id)) = .ok r) : r.2.2 = some (.obj id) ∨ ∃ b, r.2.2 = some (.builtin b) ∧ Settled cfg r.1 id b := by
  simp only [flatten1] at hr
  split at hr
  · cases hr
  · rename_i s hs
    rcases (flattenSimple_based hb hs hr).2 with h | ⟨b, h, s', h1, h2, h3, h4, h5, h6⟩
    · exact Or.inl h
    · exact Or.inr ⟨b, h, Or.inl ⟨s', 1, h1, h3, h4, h5, h6, .obj (by simp only [baseOf, h1]; exact h2) (.builtin ..)⟩⟩
  · rename_i c hc
    split at hr
    · rename_i b hb
      split at hr
      · rename_i hcond
        cases hr
        exact Or.inr ⟨b, rfl, Or.inr ⟨c, hc, hb, hcond⟩⟩
      · exact Or.inl (flattenComplex_result hr)
    · rename_i bid hb
      split at hr
      · rename_i hcond
        exfalso
        have hs : ∃ s, H[bid]? = some (.simple s) := by
          have := hcond.1
          simp only [isSimple] at this
          split at this
          · rename_i s hs; exact ⟨s, hs⟩
          · cases this
        obtain ⟨s, hs⟩ := hs
        obtain ⟨a, ha, hk⟩ := ha id bid c s hc (.base (by simp only [baseOf, hc]; exact hb) (.self _)) hs
        have : a ∈ (filterFields cfg c).1 := (keptAttr_iff ..).mpr ⟨ha, fun p hp => hk p hp a.type⟩
        rw [hcond.2] at this
        cases this
      · exact Or.inl (flattenComplex_result hr)
    · exact Or.inl (flattenComplex_result hr)

/-! ### The passes -/

theorem Flow.attributed {cfg : Config} {H H' : THeap} {Q : Nat → Prop} (h : Flow H H' Q) (ha : Attributed cfg H) : Attributed cfg H' := by
  intro id sid c' s' hc' hanc hs'
  obtain ⟨o, ho, hch⟩ := h.change id _ hc'
  obtain ⟨p, hp, hch'⟩ := h.change sid _ hs'
  cases o with
  | simple _ => cases hch
  | complex c =>
    cases p with
    | complex _ => cases hch'
    | simple s =>
      obtain ⟨a, haa, hk⟩ := ha id sid c s ho (h.anc hanc sid rfl) hp
      obtain ⟨-, -, -, -, h2, -⟩ := hch
      have hm : untyped a ∈ c'.attributes.map untyped := by
        rw [h2]
        exact List.mem_map.mpr ⟨a, haa, rfl⟩
      obtain ⟨a', ha', he⟩ := List.mem_map.mp hm
      refine ⟨a', ha', fun p hp t => ?_⟩
      have : ({ a' with type := t } : XAttr) = { a with type := t } := by
        have := congrArg (fun x : XAttr => ({ x with type := t } : XAttr)) he
        exact this
      rw [this]
      exact hk p hp t

theorem Ext.attributed {cfg : Config} {H H' : THeap} (h : Ext H H') (ha : Attributed cfg H) : Attributed cfg H' := by
  intro id sid c' s hc' hanc hs
  rcases h.get id with ⟨h1, h2⟩ | ⟨s, h1, h2⟩ | ⟨c, c'', h1, h2, h3, h4, h5, h6, h7, h8, h9⟩
  · rw [h2] at hc'; cases hc'
  · rw [h2] at hc'; cases hc'
  · rw [h2] at hc'
    cases hc'
    obtain ⟨a, haa, hk⟩ := ha id sid c s h1 (h.anc.mp hanc) (h.simple.mp hs)
    exact ⟨a, h9 a haa, hk⟩

theorem Ext.based {H H' : THeap} (h : Ext H H') (hb : Based H) : Based H' := fun id s hs => hb id s (h.simple.mp hs)

/-- What the passes keep. -/
structure Fine (cfg : Config) (H : THeap) : Prop where
  linked : Linked H
  own : OwnNames H
  based : Based H
  attr : Attributed cfg H

theorem Fine.ext {cfg : Config} {H H' : THeap} (he : Ext H H') (h : Fine cfg H) : Fine cfg H' :=
  ⟨he.linked h.linked, ownNames_names he.names he.length h.own, he.based h.based, he.attributed h.attr⟩

theorem Fine.flatten {cfg : Config} {n d : Nat} {H : THeap} {t : Option Ty} {r : Flat} (h : Fine cfg H) (ht : ∀ v, t = some v → NotLink v)
    (hr : flatten1 cfg n d H t = .ok r) : Fine cfg r.1 := by
  have f := (flatten1_flow cfg n d H t r h.linked ht hr).1
  exact ⟨f.linked h.linked, ownNames_names f.names f.len h.own, flatten1_based cfg n d _ _ _ h.based hr, f.attributed h.attr⟩

theorem flattenLoop_class {cfg : Config} {n : Nat} : ∀ (ts : List Ty) (H : THeap) (r : THeap × List Ty),
    Fine cfg H → (∀ t ∈ ts, NotLink t) → flattenLoop cfg n H ts = .ok r →
    Fine cfg r.1 ∧ Flow H r.1 (Pushed r.2) ∧ (∀ t ∈ r.2, NotLink t) ∧ (∀ id b, Settled cfg H id b → Settled cfg r.1 id b) ∧
    ∀ id o, Ty.obj id ∈ ts → H[id]? = some o → skipped cfg o.name = false → Ty.obj id ∈ r.2 ∨ ∃ b, Settled cfg r.1 id b := by
  intro ts
  induction ts with
  | nil =>
    intro H r hH _ h
    cases h
    exact ⟨hH, .refl .., fun t ht => (by cases ht), fun _ _ h => h, fun _ _ h => (by cases h)⟩
  | cons t ts ih =>
    intro H r hl hts h
    simp only [flattenLoop] at h
    split at h
    · rename_i hsk
      obtain ⟨k0, k1, k2, k3, k4⟩ := ih H r hl (fun u hu => hts u (List.mem_cons_of_mem _ hu)) h
      refine ⟨k0, k1, k2, k3, ?_⟩
      intro id o hid ho hs
      rcases List.mem_cons.mp hid with e | e
      · rw [← e] at hsk
        simp only [xmlName, ho, hs] at hsk
        cases hsk
      · exact k4 id o e ho hs
    · obtain ⟨q, hq, h⟩ := bind_ok h
      obtain ⟨p, hp, h⟩ := bind_ok h
      cases h
      have htn := hts t (List.mem_cons_self ..)
      have hv : ∀ v, some t = some v → NotLink v := by intro v hv; cases hv; exact htn
      obtain ⟨f1, r1⟩ := flatten1_flow cfg n 1001 H _ q hl.linked hv hq
      have n1 := flatten1_nolinks cfg n 1001 H _ q hl.linked hv hq
      obtain ⟨k0, f2, n2, s2, g2⟩ := ih q.1 p (hl.flatten hv hq) (fun u hu => hts u (List.mem_cons_of_mem _ hu)) hp
      have f1' : Flow H q.1 (Pushed (q.2.1 ++ q.2.2.toList)) := f1.mono pushed_left
      refine ⟨k0, f1'.trans pushed_left pushed_right f2, ?_, ?_, ?_⟩
      · intro u hu
        rcases List.mem_append.mp hu with hu | hu
        · rcases List.mem_append.mp hu with hu | hu
          · exact n1 u hu
          · exact (r1 u (by simpa using hu)).1
        · exact n2 u hu
      · intro id b hs
        exact s2 id b (hs.flow hl.linked hv hq)
      · intro id o hid ho hs
        rcases List.mem_cons.mp hid with e | e
        · subst e
          rcases flatten1_class hl.based hl.attr hq with h | ⟨b, -, h⟩
          · left
            refine List.mem_append_left _ (List.mem_append_right _ ?_)
            rw [h]
            simp
          · exact Or.inr ⟨b, s2 id b h⟩
        · obtain ⟨o', ho', -⟩ := f1.get ho
          have hn : o'.name = o.name := by
            have := f1.names (.obj id)
            simp only [xmlName, ho, ho'] at this
            exact this
          rcases g2 id o' e ho' (by rw [hn]; exact hs) with h | h
          · exact Or.inl (List.mem_append_right _ h)
          · exact Or.inr h

/-- The specs of a type are those of that type. -/
theorem genTypeSpec_type {env : Env} {cfg : Config} {n : Nat} {H : THeap} {t : Ty} {r : THeap × List Spec}
    (h : genTypeSpec env cfg n H t = .ok r) : ∀ s ∈ r.2, s.xsdType = t ∧ s.name = publicName env cfg (xmlName H t) ∧ ∃ id o, t = .obj id ∧ H[id]? = some o := by
  cases t with
  | builtin b => cases h; intro s hs; cases hs
  | link b => cases h; intro s hs; cases hs
  | obj id =>
    simp only [genTypeSpec] at h
    cases ho : H[id]? with
    | none => rw [ho] at h; cases h; intro s hs; cases hs
    | some o =>
      rw [ho] at h
      have hx : xmlName H (.obj id) = o.name := by simp only [xmlName, ho]
      rw [hx]
      cases o with
      | simple s =>
        obtain ⟨q, hq, h⟩ := bind_ok h
        cases h
        unfold genSimpleType at hq
        split at hq
        · unfold genSimpleListSpec at hq
          split at hq
          · cases hq
          · obtain ⟨e, he, hq⟩ := bind_ok hq
            obtain ⟨y, hy, hq⟩ := bind_ok hq
            split at hq
            · split at hq
              · cases hq
              · cases hq
              · cases hq
                intro s hs
                rw [List.mem_singleton.mp hs]
                exact ⟨rfl, rfl, id, _, rfl, ho⟩
            · cases hq
        · split at hq
          · cases hq
            intro s hs
            rw [List.mem_singleton.mp hs]
            exact ⟨rfl, rfl, id, _, rfl, ho⟩
          · split at hq
            · cases hq
            · obtain ⟨e, he, hq⟩ := bind_ok hq
              dsimp only at hq
              split at hq
              · split at hq
                · cases hq
                · cases hq
                  intro s hs
                  rw [List.mem_singleton.mp hs]
                  exact ⟨rfl, rfl, id, _, rfl, ho⟩
              · cases hq
                intro s hs
                rw [List.mem_singleton.mp hs]
                exact ⟨rfl, rfl, id, _, rfl, ho⟩
      | complex c =>
        obtain ⟨acc, hacc, h⟩ := bind_ok h
        cases h
        intro s hs
        rw [List.mem_singleton.mp hs]
        refine ⟨rfl, ?_, id, _, rfl, ho⟩
        have := (takeOver_ext ho).names (.obj id)
        simp only [xmlName, ho, List.getElem?_set_self (List.getElem?_eq_some_iff.mp ho).1, TObj.name] at this
        show publicName env cfg (takeOver H c).name = _
        rw [this]
        rfl

theorem genList_class {env : Env} {cfg : Config} {n : Nat} : ∀ (ts : List Ty) (H : THeap) (r : THeap × List Spec × Bool),
    genList env cfg n H ts = .ok r → r.2.2 = false → Exts H r.1 ∧
    (∀ s ∈ r.2.1, s.xsdType ∈ ts ∧ s.name = publicName env cfg (xmlName H s.xsdType) ∧ ∃ id o, s.xsdType = .obj id ∧ H[id]? = some o) ∧
    ∀ id o, Ty.obj id ∈ ts → H[id]? = some o → ∃ s ∈ r.2.1, s.xsdType = .obj id := by
  intro ts
  induction ts with
  | nil =>
    intro H r h _
    cases h
    exact ⟨.refl, fun _ h => (by cases h), fun _ _ h => (by cases h)⟩
  | cons t ts ih =>
    intro H r h hr
    simp only [genList] at h
    split at h
    · rename_i q hq
      obtain ⟨p, hp, h⟩ := bind_ok h
      cases h
      obtain ⟨k1, k2⟩ := genTypeSpec_named hq
      have k3 := genTypeSpec_type hq
      obtain ⟨j1, j3, j2⟩ := ih q.1 p hp hr
      refine ⟨(Exts.tail .refl k1).trans j1, ?_, ?_⟩
      · intro s hs
        rcases List.mem_append.mp hs with hs | hs
        · obtain ⟨e1, e2, e3⟩ := k3 s hs
          rw [e1]
          exact ⟨List.mem_cons_self .., e2, e3⟩
        · obtain ⟨e1, e2, id, o, e3, e4⟩ := j3 s hs
          have hlt : id < H.length := by rw [← k1.length]; exact (List.getElem?_eq_some_iff.mp e4).1
          exact ⟨List.mem_cons_of_mem _ e1, by rw [e2, k1.names], id, _, e3, List.getElem?_eq_getElem hlt⟩
      · intro id o hid ho
        rcases List.mem_cons.mp hid with h | h
        · obtain ⟨s, hs, hn⟩ := k2 id o h.symm ho
          exact ⟨s, List.mem_append_left _ hs, (k3 s hs).1.trans h.symm⟩
        · have hlt : id < q.1.length := by rw [k1.length]; exact (List.getElem?_eq_some_iff.mp ho).1
          obtain ⟨s, hs, hn⟩ := j2 id _ h (List.getElem?_eq_getElem hlt)
          exact ⟨s, List.mem_append_right _ hs, hn⟩
    · obtain ⟨p, hp, h⟩ := bind_ok h
      cases h
      cases hr
    · cases h
    · cases h

theorem genSchemas_class {env : Env} {cfg : Config} {n : Nat} : ∀ (schemas : List (List Ty)) (H : THeap) (r : THeap × List Spec × Bool),
    Fine cfg H → (∀ types ∈ schemas, ∀ t ∈ types, NotLink t) → genSchemas env cfg n H schemas = .ok r → r.2.2 = false →
    Fine cfg r.1 ∧ (∀ t, xmlName r.1 t = xmlName H t) ∧ (∀ t a, Ancestor r.1 t a → a = .builtin AnyType ∨ Ancestor H t a) ∧
    (∀ id b, Settled cfg H id b → Settled cfg r.1 id b) ∧
    (∀ s ∈ r.2.1, s.name = publicName env cfg (xmlName H s.xsdType) ∧ ∀ b, xmlName H s.xsdType ≠ builtinName b) ∧
    ∀ types ∈ schemas, ∀ id o, Ty.obj id ∈ types → H[id]? = some o → skipped cfg o.name = false → o.name ≠ ⟨[], []⟩ →
      (∃ s ∈ r.2.1, xmlName H s.xsdType = o.name) ∨ ∃ b, Settled cfg r.1 id b := by
  intro schemas
  induction schemas with
  | nil =>
    intro H r hH _ h _
    cases h
    exact ⟨hH, fun _ => rfl, fun _ _ h => Or.inr h, fun _ _ h => h, fun _ h => (by cases h), fun _ h => (by cases h)⟩
  | cons types rest ih =>
    intro H r hH hnl h hr
    obtain ⟨f, hf, h⟩ := bind_ok h
    obtain ⟨L, hL, hf⟩ := bind_ok hf
    cases hf
    obtain ⟨H2, hH2, h⟩ := bind_ok h
    obtain ⟨g, hg, h⟩ := bind_ok h
    obtain ⟨q, hq, h⟩ := bind_ok h
    cases h
    simp only [Bool.or_eq_false_iff] at hr
    obtain ⟨k1, f1, n1, s1, g1⟩ := flattenLoop_class types H L hH (hnl types (List.mem_cons_self ..)) hL
    have e1 := expand_ext hH2
    obtain ⟨e2, d3, d2⟩ := genList_class _ H2 g hg hr.1
    have e12 := e1.trans e2
    have k3 : Fine cfg g.1 := e12.keep _ (fun _ _ h => Fine.ext h) k1
    have s3 : ∀ id b, Settled cfg L.1 id b → Settled cfg g.1 id b := fun id b => e12.keep (fun G => Settled cfg G id b) (fun _ _ h => Settled.ext h)
    have nm : ∀ t, xmlName g.1 t = xmlName H t := fun t => by rw [e12.names, f1.names]
    obtain ⟨i1, i2, i3, i4, i5, i6⟩ := ih g.1 q k3 (fun ts hts => hnl ts (List.mem_cons_of_mem _ hts)) hq hr.2
    refine ⟨i1, fun t => (i2 t).trans (nm t), ?_, fun id b h => i4 id b (s3 id b (s1 id b h)), ?_, ?_⟩
    · intro t a ha
      rcases i3 t a ha with h | h
      · exact Or.inl h
      · have : Ancestor L.1 t a := by
          clear d2 d3 hg hq k3 s3 nm ih i1 i2 i3 i4 i5 i6 e2
          revert h
          exact e12.keep (fun G => Ancestor G t a → Ancestor L.1 t a) (fun _ _ h k ha => k (h.anc.mp ha)) (fun h => h)
        exact f1.anc' this
    · intro s hs
      rcases List.mem_append.mp hs with hs | hs
      · obtain ⟨-, d4, id, o, d5, d6⟩ := d3 s hs
        refine ⟨by rw [d4, e1.names, f1.names], fun b => ?_⟩
        have k2 : Fine cfg H2 := e1.keep _ (fun _ _ h => Fine.ext h) k1
        have := k2.own id o d6 b
        rw [← f1.names, ← e1.names, d5]
        simpa only [xmlName, d6] using this
      · obtain ⟨j1, j2⟩ := i5 s hs
        exact ⟨by rw [j1, nm], fun b => by rw [← nm]; exact j2 b⟩
    · intro ts hts id o hid ho hs hn0
      rcases List.mem_cons.mp hts with rfl | hts
      · rcases g1 id o hid ho hs with hin | ⟨b, hb⟩
        · left
          have hname : xmlName L.1 (.obj id) = o.name := by rw [f1.names]; simp only [xmlName, ho]
          have hk : o.name ∈ (firsts (xmlName L.1) L.2).map (xmlName L.1) :=
            (firsts_keys _ _ _).mpr (List.mem_map.mpr ⟨_, hin, hname⟩)
          obtain ⟨u, hu, hun⟩ := List.mem_map.mp hk
          have hmem := firsts_mem _ hu
          rw [← dedup_eq] at hu
          cases u with
          | builtin b => exact absurd hun.symm (hH.own id o ho b)
          | link b => exact (n1 _ hmem).elim
          | obj k =>
            have hun2 := hun
            rw [← e1.names] at hun
            simp only [xmlName] at hun
            split at hun
            · rename_i o' ho'
              obtain ⟨s, hs', hst⟩ := d2 k o' hu ho'
              refine ⟨s, List.mem_append_left _ hs', ?_⟩
              rw [hst, ← f1.names]
              exact hun2
            · exact absurd hun.symm hn0
        · exact Or.inr ⟨b, i4 id b (s3 id b hb)⟩
      · have hlt : id < g.1.length := by
          have : g.1.length = L.1.length := e12.keep (fun G => G.length = L.1.length) (fun _ _ h k => h.length.trans k) rfl
          rw [this, f1.len]
          exact (List.getElem?_eq_some_iff.mp ho).1
        have ho' := List.getElem?_eq_getElem hlt
        have hn : (g.1[id]).name = o.name := by
          have := nm (.obj id)
          simp only [xmlName, ho, ho'] at this
          exact this
        rcases i6 ts hts id _ hid ho' (by rw [hn]; exact hs) (by rw [hn]; exact hn0) with ⟨s, hs', hx⟩ | h
        · exact Or.inl ⟨s, List.mem_append_right _ hs', by rw [← nm, hx, hn]⟩
        · exact Or.inr h

/-! ### The map of names -/

theorem nameAll_some (H : THeap) : ∀ (ss : List Spec) (m : GoMap XName Str) (k : XName) (v : Str), get (nameAll H ss m) k = some v →
    (∃ s ∈ ss, xmlName H s.xsdType = k ∧ s.name = v) ∨ get m k = some v := by
  intro ss
  induction ss with
  | nil => exact fun _ _ _ h => Or.inr h
  | cons s ss ih =>
    intro m k v h
    rcases ih _ k v h with ⟨s', hs', h⟩ | h
    · exact Or.inl ⟨s', List.mem_cons_of_mem _ hs', h⟩
    · rw [get_set] at h
      split at h
      · cases h; exact Or.inl ⟨s, List.mem_cons_self .., by assumption, rfl⟩
      · exact Or.inr h

theorem nameAll_key (H : THeap) : ∀ (ss : List Spec) (m : GoMap XName Str) (k : XName),
    ((∃ s ∈ ss, xmlName H s.xsdType = k) ∨ get m k ≠ none) → get (nameAll H ss m) k ≠ none := by
  intro ss
  induction ss with
  | nil =>
    intro m k h
    rcases h with ⟨s, hs, -⟩ | h
    · cases hs
    · exact h
  | cons s ss ih =>
    intro m k h
    refine ih _ k ?_
    rw [get_set]
    rcases h with ⟨s', hs', h⟩ | h
    · rcases List.mem_cons.mp hs' with rfl | hs'
      · right; simp [h]
      · exact Or.inl ⟨s', hs', h⟩
    · right
      split
      · simp
      · exact h

theorem nameAll_other (H : THeap) : ∀ (ss : List Spec) (m : GoMap XName Str) (k : XName), (∀ s ∈ ss, xmlName H s.xsdType ≠ k) →
    get (nameAll H ss m) k = get m k := by
  intro ss
  induction ss with
  | nil => exact fun _ _ _ => rfl
  | cons s ss ih =>
    intro m k h
    simp only [nameAll]
    rw [ih _ k (fun s hs => h s (List.mem_cons_of_mem _ hs)), get_set, if_neg (h s (List.mem_cons_self ..))]

/-! ### NameOf -/

theorem parseBuiltin_own {H : THeap} (h : OwnNames H) {id : Nat} {o : TObj} (ho : H[id]? = some o) : parseBuiltin o.name = none := by
  cases hp : parseBuiltin o.name with
  | none => rfl
  | some b => exact absurd ((C26_parse_only _ _).mp hp).2.2.symm (h id o ho b)

theorem specHeap_ext {env : Env} {cfg : Config} {n : Nat} {H : THeap} {t : Ty} : Ext H (specHeap env cfg n H t) := by
  unfold specHeap
  split
  · split
    · rename_i c hc
      split
      · exact takeOver_ext hc
      · exact .same
    · exact .same
  · exact .same

/-- What is known about the answers for the built-in types and, if wanted, for one more type, whatever has been
asked before. -/
structure Ready (on : Prop) (env : Env) (cfg : Config) (T : GoMap XName Ty) (D : GoMap Str Spec) (name : XName) (id : Nat) (ans : Str) (H : THeap) (code : Code) : Prop where
  types : code.types = T
  decls : code.decls = D
  linked : Linked H
  keys : ∀ k t, get T k = some t → NotLink t ∧ ∀ j o, t = .obj j → H[j]? = some o → ∀ b, o.name ≠ builtinName b
  one : on → ∀ k t, get T k = some t → xmlName H t = name → t = .obj id
  at_ : on → get T name = some (.obj id)
  own : on → parseBuiltin name = none
  look : on → (get code.names name = some ans ∧ ans = publicName env cfg name) ∨ (get code.names name = none ∧
    ∃ b e, Settled cfg H id b ∧ builtinExpr b = .ok (some e) ∧ 0 ≤ b ∧ b < 50 ∧ ans = exprText e)
  builtins : ∀ b, 0 ≤ b → b < 50 → ∀ v, get code.names (builtinName b) = some v → ∃ e, builtinExpr b = .ok (some e) ∧ v = exprText e

theorem Ready.heap {on : Prop} {env : Env} {cfg : Config} {T : GoMap XName Ty} {D : GoMap Str Spec} {name : XName} {id : Nat} {ans : Str} {H H' : THeap} {code : Code}
    (h : Ready on env cfg T D name id ans H code) (hl : Linked H') (hn : ∀ t, xmlName H' t = xmlName H t) (hs : ∀ b, Settled cfg H id b → Settled cfg H' id b) :
    Ready on env cfg T D name id ans H' code where
  types := h.types
  decls := h.decls
  linked := hl
  keys := fun k t ht => ⟨(h.keys k t ht).1, fun j o hj ho => by
    have hx := hn (.obj j)
    simp only [xmlName, ho] at hx
    split at hx
    · rename_i o' ho'
      rw [hx]
      exact (h.keys k t ht).2 j o' hj ho'
    · rw [hx]
      intro b hb
      have := congrArg XName.space hb
      simp only [builtinName] at this
      split at this
      · cases this
      · split at this <;> cases this⟩
  one := fun ho k t ht hx => h.one ho k t ht (by rw [← hn]; exact hx)
  at_ := h.at_
  own := h.own
  look := by
    intro ho
    rcases h.look ho with h | ⟨h1, b, e, h2, h3⟩
    · exact Or.inl h
    · exact Or.inr ⟨h1, b, e, hs b h2, h3⟩
  builtins := h.builtins

theorem nameOf_ready {on : Prop} {env : Env} {cfg : Config} {n : Nat} {T : GoMap XName Ty} {D : GoMap Str Spec} {name : XName} {id : Nat} {ans : Str} :
    ∀ (k : Nat) (H : THeap) (code : Code) (q : XName) (r : THeap × Code × Str), Ready on env cfg T D name id ans H code →
    nameOf env cfg n k H code q = .ok r → Ready on env cfg T D name id ans r.1 r.2.1 ∧ (on → q = name → r.2.2 = ans) ∧
      ∀ b e, 0 ≤ b → b < 50 → q = builtinName b → builtinExpr b = .ok (some e) → r.2.2 = exprText e := by
  intro k
  induction k with
  | zero => intro H code q r _ h; cases h
  | succ k ih =>
    intro H code q r hR h
    simp only [nameOf] at h
    split at h
    · rename_i v hv
      cases h
      refine ⟨hR, ?_, ?_⟩
      · rintro ho rfl
        rcases hR.look ho with ⟨h, -⟩ | ⟨h, -⟩ <;> rw [hv] at h <;> cases h
        rfl
      · rintro b e h0 h1 rfl he
        obtain ⟨e', h2, h3⟩ := hR.builtins b h0 h1 v hv
        rw [h2] at he
        cases he
        exact h3
    · rename_i hv
      split at h
      · rename_i b hb
        obtain ⟨b0, b1, rfl⟩ := (C26_parse_only _ _).mp hb
        have hne : on → builtinName b ≠ name := by
          rintro on rfl
          rw [hR.own on] at hb
          cases hb
        obtain ⟨o, ho, h⟩ := bind_ok h
        split at h
        · cases h
          refine ⟨hR, fun on e => absurd e (hne on), ?_⟩
          intro b' e c0 c1 hbb he
          have := C26_names_distinct b b' ⟨b0, b1⟩ ⟨c0, c1⟩ hbb
          subst this
          rw [ho] at he
          cases he
        · rename_i e
          cases h
          refine ⟨⟨hR.types, hR.decls, hR.linked, hR.keys, hR.one, hR.at_, hR.own, ?_, ?_⟩, fun on e => absurd e (hne on), ?_⟩
          · intro on
            show (get (GoMap.set code.names (builtinName b) (exprText e)) name = _ ∧ _) ∨ _
            simp only [get_set, if_neg (hne on)]
            exact hR.look on
          · intro b' c0 c1 v hv'
            simp only [get_set] at hv'
            split at hv'
            · rename_i hbb
              have := C26_names_distinct b b' ⟨b0, b1⟩ ⟨c0, c1⟩ hbb
              subst this
              cases hv'
              exact ⟨e, ho, rfl⟩
            · exact hR.builtins b' c0 c1 v hv'
          · intro b' e' c0 c1 hbb he
            have := C26_names_distinct b b' ⟨b0, b1⟩ ⟨c0, c1⟩ hbb
            subst this
            rw [ho] at he
            cases he
            rfl
      · rename_i hb
        have hnb : ∀ b, 0 ≤ b → b < 50 → q ≠ builtinName b := by
          rintro b b0 b1 rfl
          rw [C26_parse_name b b0 b1] at hb
          cases hb
        split at h
        · rename_i ht
          cases h
          refine ⟨hR, ?_, fun b e b0 b1 hq => absurd hq (hnb b b0 b1)⟩
          rintro on rfl
          rw [hR.types, hR.at_ on] at ht
          cases ht
        · rename_i t ht
          rw [hR.types] at ht
          obtain ⟨hnl, hkey⟩ := hR.keys q t ht
          obtain ⟨f, hf, h⟩ := bind_ok h
          have hv' : ∀ v, some t = some v → NotLink v := by intro v hv; cases hv; exact hnl
          have flow := (flatten1_flow cfg n 1001 H _ f hR.linked hv' hf).1
          have hR1 : Ready on env cfg T D name id ans f.1 code := hR.heap (flow.linked hR.linked) flow.names (fun b hs => hs.flow hR.linked hv' hf)
          have hself : on → q = name → ∃ b e, f.2.2 = some (.builtin b) ∧ builtinExpr b = .ok (some e) ∧ 0 ≤ b ∧ b < 50 ∧ ans = exprText e := by
            rintro on rfl
            rcases hR.look on with ⟨h, -⟩ | ⟨-, b, e, hs, h1⟩
            · rw [hv] at h; cases h
            · rw [hR.at_ on] at ht
              cases ht
              exact ⟨b, e, hs.result hf, h1⟩
          have fin : ∀ r : THeap × Code × Str, Ready on env cfg T D name id ans r.1 r.2.1 → (∀ b, f.2.2 ≠ some (.builtin b)) →
              Ready on env cfg T D name id ans r.1 r.2.1 ∧ (on → q = name → r.2.2 = ans) ∧
              ∀ b e, 0 ≤ b → b < 50 → q = builtinName b → builtinExpr b = .ok (some e) → r.2.2 = exprText e := by
            intro r hr hnot
            refine ⟨hr, ?_, fun b e b0 b1 hq => absurd hq (hnb b b0 b1)⟩
            intro on e
            obtain ⟨b, _, h, -⟩ := hself on e
            exact absurd h (hnot b)
          split at h
          · rename_i b hb'
            obtain ⟨i1, i2, i3⟩ := ih _ _ _ _ hR1 h
            refine ⟨i1, ?_, fun b e b0 b1 hq => absurd hq (hnb b b0 b1)⟩
            intro on e
            obtain ⟨b', e', h1, h2, h3, h4, h5⟩ := hself on e
            rw [hb'] at h1
            cases h1
            rw [h5]
            exact i3 b e' h3 h4 rfl h2
          · rename_i hnot
            split at h
            · cases h
              have he := specHeap_ext (env := env) (cfg := cfg) (n := n) (H := f.1) (t := t)
              exact fin _ (hR1.heap (he.linked hR1.linked) he.names (fun b hs => hs.ext he)) hnot
            · rename_i s hs
              cases h
              have he := (genTypeSpec_named hs).1
              have hR2 : Ready on env cfg T D name id ans s.1 code := hR1.heap (he.linked hR1.linked) he.names (fun b hs => hs.ext he)
              have hsame : ∀ u, xmlName s.1 u = xmlName H u := fun u => by rw [he.names, flow.names]
              have hall : ∀ x ∈ s.2, xmlName s.1 x.xsdType = xmlName H t := by
                intro x hx
                rw [(genTypeSpec_type hs x hx).1, hsame]
              refine fin _ ?_ hnot
              refine ⟨hR2.types, hR2.decls, hR2.linked, hR2.keys, hR2.one, hR2.at_, hR2.own, ?_, ?_⟩
              · intro on
                show (get (nameAll s.1 s.2 code.names) name = _ ∧ _) ∨ (get (nameAll s.1 s.2 code.names) name = _ ∧ _)
                by_cases hx : xmlName H t = name
                · rcases hR2.look on with ⟨h1, h2⟩ | ⟨-, b, e, h2, -⟩
                  · refine Or.inl ⟨?_, h2⟩
                    cases hg : get (nameAll s.1 s.2 code.names) name with
                    | none => exact absurd hg (nameAll_key _ _ _ _ (Or.inr (by rw [h1]; simp)))
                    | some v =>
                      rcases nameAll_some _ _ _ _ _ hg with ⟨x, hx', -, hxv⟩ | h
                      · rw [h2, ← hxv, (genTypeSpec_type hs x hx').2.1, flow.names, hx]
                      · rw [h1] at h; cases h; rfl
                  · have := hR.one on q t ht hx
                    subst this
                    rcases hR.look on with ⟨h1, -⟩ | ⟨-, b', e', h3, -⟩
                    · rcases hR2.look on with ⟨h4, h5⟩ | ⟨h4, -⟩
                      · refine Or.inl ⟨?_, h5⟩
                        cases hg : get (nameAll s.1 s.2 code.names) name with
                        | none => exact absurd hg (nameAll_key _ _ _ _ (Or.inr (by rw [h4]; simp)))
                        | some v =>
                          rcases nameAll_some _ _ _ _ _ hg with ⟨x, hx', -, hxv⟩ | h
                          · rw [h5, ← hxv, (genTypeSpec_type hs x hx').2.1, flow.names, hx]
                          · rw [h4] at h; cases h; rfl
                      · rw [h1] at h4; cases h4
                    · exact absurd (h3.result hf) (hnot b')
                · simp only [nameAll_other s.1 s.2 code.names name (fun x hx' => by rw [hall x hx']; exact hx)]
                  exact hR2.look on
              · intro b b0 b1 v hv2
                by_cases hx : ∃ x ∈ s.2, xmlName s.1 x.xsdType = builtinName b
                · obtain ⟨x, hx, hxb⟩ := hx
                  obtain ⟨-, -, j, o, rfl, hj⟩ := genTypeSpec_type hs x hx
                  have h1 := hall x hx
                  rw [hxb, ← flow.names] at h1
                  simp only [xmlName, hj] at h1
                  exact absurd h1.symm ((hR1.keys q _ ht).2 j o rfl hj b)
                · simp only [nameAll_other s.1 s.2 code.names (builtinName b) (fun x hx' e => hx ⟨x, hx', e⟩)] at hv2
                  exact hR2.builtins b b0 b1 v hv2
            · cases h
            · cases h

theorem after_ready {on : Prop} {env : Env} {cfg : Config} {n k : Nat} {T : GoMap XName Ty} {D : GoMap Str Spec} {name : XName} {id : Nat} {ans : Str}
    {H H' : THeap} {code code' : Code} (h : AfterCalls env cfg n k H code H' code') (hR : Ready on env cfg T D name id ans H code) :
    Ready on env cfg T D name id ans H' code' := by
  induction h with
  | start => exact hR
  | call _ hc ih => exact (nameOf_ready _ _ _ _ _ ih hc).1

/-! ### The map of types -/

theorem setAll_some : ∀ (l : List (XName × Ty)) (m : GoMap XName Ty) (k : XName) (t : Ty),
    get (l.foldl (fun m e => GoMap.set m e.1 e.2) m) k = some t → (k, t) ∈ l ∨ get m k = some t := by
  intro l
  induction l with
  | nil => exact fun _ _ _ h => Or.inr h
  | cons e l ih =>
    intro m k t h
    rcases ih _ k t h with h | h
    · exact Or.inl (List.mem_cons_of_mem _ h)
    · rw [get_set] at h
      split at h
      · rename_i hk
        cases h
        subst hk
        exact Or.inl (List.mem_cons_self ..)
      · exact Or.inr h

theorem setAll_key : ∀ (l : List (XName × Ty)) (m : GoMap XName Ty) (k : XName), ((∃ t, (k, t) ∈ l) ∨ get m k ≠ none) →
    get (l.foldl (fun m e => GoMap.set m e.1 e.2) m) k ≠ none := by
  intro l
  induction l with
  | nil =>
    intro m k h
    rcases h with ⟨t, ht⟩ | h
    · cases ht
    · exact h
  | cons e l ih =>
    intro m k h
    refine ih _ k ?_
    rcases h with ⟨t, ht⟩ | h
    · rcases List.mem_cons.mp ht with rfl | ht
      · right; simp [get_set]
      · exact Or.inl ⟨t, ht⟩
    · right
      rw [get_set]
      split
      · simp
      · exact h

theorem allTypes_from : ∀ (ss : List Schema) (m : GoMap XName Ty) (k : XName) (t : Ty),
    get (ss.foldl (fun m s => s.types.foldl (fun m e => GoMap.set m e.1 e.2) m) m) k = some t →
      (∃ s ∈ ss, (k, t) ∈ s.types) ∨ get m k = some t := by
  intro ss
  induction ss with
  | nil => exact fun _ _ _ h => Or.inr h
  | cons s ss ih =>
    intro m k t h
    rcases ih _ k t h with ⟨s', hs', h⟩ | h
    · exact Or.inl ⟨s', List.mem_cons_of_mem _ hs', h⟩
    · rcases setAll_some _ _ k t h with h | h
      · exact Or.inl ⟨s, List.mem_cons_self .., h⟩
      · exact Or.inr h

theorem allTypes_key : ∀ (ss : List Schema) (m : GoMap XName Ty) (k : XName), ((∃ s ∈ ss, ∃ t, (k, t) ∈ s.types) ∨ get m k ≠ none) →
    get (ss.foldl (fun m s => s.types.foldl (fun m e => GoMap.set m e.1 e.2) m) m) k ≠ none := by
  intro ss
  induction ss with
  | nil =>
    intro m k h
    rcases h with ⟨s, hs, -⟩ | h
    · cases hs
    · exact h
  | cons s ss ih =>
    intro m k h
    refine ih _ k ?_
    rcases h with ⟨s', hs', h⟩ | h
    · rcases List.mem_cons.mp hs' with rfl | hs'
      · exact Or.inr (setAll_key _ _ k (Or.inl h))
      · exact Or.inl ⟨s', hs', h⟩
    · exact Or.inr (setAll_key _ _ k (Or.inr h))

theorem allTypes_get {ss : List Schema} (hone : ∀ s ∈ ss, ∀ s' ∈ ss, ∀ k t t', (k, t) ∈ s.types → (k, t') ∈ s'.types → t = t')
    {s : Schema} (hs : s ∈ ss) {k : XName} {t : Ty} (ht : (k, t) ∈ s.types) : get (allTypes ss) k = some t := by
  cases h : get (allTypes ss) k with
  | none => exact absurd h (allTypes_key ss [] k (Or.inl ⟨s, hs, t, ht⟩))
  | some t' =>
    rcases allTypes_from ss [] k t' h with ⟨s', hs', ht'⟩ | h
    · rw [hone s hs s' hs' k t t' ht ht']
    · cases h

theorem builtinExpr_schema (b : Int) (h0 : 0 ≤ b) (h1 : b < 50) (hs : (builtinName b).space = schemaNS) :
    ∃ e, builtinExpr b = .ok (some e) ∧ leafName e ∈ predeclared := by
  have key : ∀ i ∈ List.range 50, (builtinName (i : Int)).space = schemaNS →
      (match builtinTbl[i]? with | some (some e) => decide (leafName e ∈ predeclared) | _ => false) = true := by decide +kernel
  have := key b.toNat (by simp; omega) (by rw [Int.toNat_of_nonneg h0]; exact hs)
  split at this
  · rename_i e he
    refine ⟨e, ?_, of_decide_eq_true this⟩
    have hlen : (builtinTbl.length : Int) = 50 := by decide
    have hc : ¬ (b > (builtinTbl.length : Int) ∨ b < 0) := by rw [hlen]; omega
    rw [builtinExpr, if_neg hc, he]
  · cases this

theorem gen_ready {env : Env} {srt : Sorter strLt} {cfg : Config} {n : Nat} {primaries deps : List Schema} {H : THeap} {r : THeap × Code × Config}
    (hpre : Untouched cfg H primaries) (hfine : Fine cfg H) (hsb : SchemaBased H)
    (htop : ∀ s ∈ primaries ++ deps, ∀ e ∈ s.types, ∀ m, e.2 ≠ .link m) 
    (hone : ∀ s ∈ primaries ++ deps, ∀ s' ∈ primaries ++ deps, ∀ k t t', (k, t) ∈ s.types → (k, t') ∈ s'.types → t = t')
    (h : gen env srt cfg n primaries deps H = .ok r) (srt' : Sorter strLt) :
    Ready False env r.2.2 r.2.1.types r.2.1.decls ⟨[], []⟩ 0 [] r.1 r.2.1 ∧
    ∀ (s : Schema) (_ : s ∈ primaries) (id : Nat) (o : TObj) (_ : (o.name, Ty.obj id) ∈ s.types) (_ : H[id]? = some o)
      (_ : ∀ s ∈ primaries ++ deps, ∀ e ∈ s.types, xmlName H e.2 = o.name → e.2 = .obj id)
      (_ : skipped cfg o.name = false) (_ : o.name ≠ ⟨[], []⟩),
    ∃ ans, Usable (genAST srt' r.2.1).2 ans ∧ Ready True env r.2.2 r.2.1.types r.2.1.decls o.name id ans r.1 r.2.1 := by
  rw [gen_untouched hpre] at h
  obtain ⟨q, hq, h⟩ := bind_ok h
  split at h
  · cases h
  · rename_i hflag
    cases h
    have hnl : ∀ e : XName × Ty, (∀ m, e.2 ≠ .link m) → NotLink e.2 := by
      intro e h
      cases he2 : e.2 with
      | link m => exact absurd he2 (h m)
      | _ => trivial
    obtain ⟨c1, c2, c3, c4, c5, c6⟩ := genSchemas_class _ H q hfine (by
      intro types ht t htt
      obtain ⟨s, hs, rfl⟩ := List.mem_map.mp ht
      obtain ⟨e, he, rfl⟩ := List.mem_map.mp htt
      exact hnl e (htop s (List.mem_append_left _ hs) e he)) hq (by simpa using hflag)
    have hbn : ∀ b v, get (nameAll q.1 q.2.1 []) (builtinName b) = some v → False := by
      intro b v hv
      rcases nameAll_some _ _ _ _ _ hv with ⟨x, hx, hxn, -⟩ | h
      · rw [c2] at hxn
        exact (c5 x hx).2 b hxn
      · cases h
    have hkeys' : ∀ k t, get (allTypes (primaries ++ deps)) k = some t → NotLink t ∧ ∀ j o, t = .obj j → q.1[j]? = some o → ∀ b, o.name ≠ builtinName b := by
      intro k t ht
      rcases allTypes_from _ [] k t ht with ⟨s', hs', ht'⟩ | h
      · exact ⟨hnl _ (htop s' hs' _ ht'), fun j o _ ho => c1.own j o ho⟩
      · cases h
    refine ⟨⟨rfl, rfl, c1.linked, hkeys', False.elim, False.elim, False.elim, False.elim, fun b _ _ v hv => (hbn b v hv).elim⟩, ?_⟩
    intro s hs id o he ho huniq hsk hn
    have hone' : ∀ k t, get (allTypes (primaries ++ deps)) k = some t → xmlName q.1 t = o.name → t = .obj id := by
      intro k t ht hx
      rcases allTypes_from _ [] k t ht with ⟨s', hs', ht'⟩ | h
      · exact huniq s' hs' _ ht' (by rw [← c2]; exact hx)
      · cases h
    have hat := allTypes_get hone (List.mem_append_left _ hs) he
    have hcfg : ∀ b, Settled cfg q.1 id b → Settled (finish srt cfg q.2.1).2 q.1 id b := by
      intro b hb
      exact hb
    have ready : ∀ ans, ((get (nameAll q.1 q.2.1 []) o.name = some ans ∧ ans = publicName env cfg o.name) ∨ (get (nameAll q.1 q.2.1 []) o.name = none ∧
          ∃ b e, Settled cfg q.1 id b ∧ builtinExpr b = .ok (some e) ∧ 0 ≤ b ∧ b < 50 ∧ ans = exprText e)) →
        Ready True env (finish srt cfg q.2.1).2 (allTypes (primaries ++ deps)) (finish srt cfg q.2.1).1 o.name id ans q.1
          { names := nameAll q.1 q.2.1 [], decls := (finish srt cfg q.2.1).1, types := allTypes (primaries ++ deps), pkgname := cfg.pkgname } := by
      intro ans hl
      refine ⟨rfl, rfl, c1.linked, hkeys', fun _ => hone', fun _ => hat, fun _ => parseBuiltin_own hfine.own ho, fun _ => ?_, fun b _ _ v hv => (hbn b v hv).elim⟩
      · rcases hl with h | ⟨h1, b, e, h2, h3⟩
        · exact Or.inl h
        · exact Or.inr ⟨h1, b, e, hcfg b h2, h3⟩
    cases hl : get (nameAll q.1 q.2.1 []) o.name with
    | some v =>
      have hv : v = publicName env cfg o.name := by
        rcases nameAll_some _ _ _ _ _ hl with ⟨x, hx, hxn, hxv⟩ | h
        · rw [← hxv, (c5 x hx).1, ← c2, hxn]
        · cases h
      refine ⟨v, ⟨.ident v, rfl, Or.inr ?_⟩, ready v (Or.inl ⟨hl, hv⟩)⟩
      rcases nameAll_some _ _ _ _ _ hl with ⟨x, hx, -, hxv⟩ | h
      · obtain ⟨w, hw⟩ := finish_key (srt := srt) (cfg := cfg) ⟨x, hx, hxv⟩
        exact ⟨w.doc, w.expr, genAST_type.mpr ⟨w, hw, rfl, rfl⟩⟩
      · cases h
    | none =>
      rcases c6 _ (List.mem_map.mpr ⟨s, hs, rfl⟩) id o (List.mem_map.mpr ⟨_, he, rfl⟩) ho hsk hn with ⟨x, hx, hxn⟩ | ⟨b, hb⟩
      · exact absurd hl (nameAll_key _ _ _ _ (Or.inl ⟨x, hx, by rw [c2]; exact hxn⟩))
      · have hgood : 0 ≤ b ∧ b < 50 ∧ (builtinName b).space = schemaNS := by
          rcases c3 _ _ hb.ends with h | h
          · cases h; decide +kernel
          · exact hsb id b h
        obtain ⟨e, he1, he2⟩ := builtinExpr_schema b hgood.1 hgood.2.1 hgood.2.2
        exact ⟨exprText e, ⟨e, rfl, Or.inl he2⟩, ready _ (Or.inr ⟨hl, b, e, hb, he1, hgood.1, hgood.2.1, rfl⟩)⟩

/-- A type that stands under its own name is the only one of that name. -/
theorem keyed_one {schemas : List Schema} {H : THeap} (hown : OwnNames H) (htop : ∀ s ∈ schemas, ∀ e ∈ s.types, ∀ m, e.2 ≠ .link m)
    (hkeys : Keyed schemas H) (hone : ∀ s ∈ schemas, ∀ s' ∈ schemas, ∀ k t t', (k, t) ∈ s.types → (k, t') ∈ s'.types → t = t')
    {s : Schema} {id : Nat} {o : TObj} (ho : H[id]? = some o) (hs : s ∈ schemas) (he : (o.name, Ty.obj id) ∈ s.types) :
    ∀ s ∈ schemas, ∀ e ∈ s.types, xmlName H e.2 = o.name → e.2 = .obj id := by
  intro s1 hs1 e he1 hx
  cases ht : e.2 with
  | link m => exact absurd ht (htop s1 hs1 e he1 m)
  | builtin b =>
    rw [ht] at hx
    exact absurd hx.symm (hown id o ho b)
  | obj j =>
    obtain ⟨s2, hs2, he2⟩ := hkeys s1 hs1 e he1 j ht
    rw [hx] at he2
    rw [← ht]
    exact hone s2 hs2 s hs _ _ _ he2 he

theorem keyed_of {schemas : List Schema} {H : THeap}
    (h : ∀ s ∈ schemas, ∀ e ∈ s.types, (match e.2 with | .obj _ => schemas.any fun s' => s'.types.contains (xmlName H e.2, e.2) | _ => true) = true) :
    Keyed schemas H := by
  intro s hs e he id hid
  have := h s hs e he
  rw [hid] at this
  obtain ⟨s', hs', h⟩ := List.any_eq_true.mp this
  rw [hid]
  exact ⟨s', hs', by simpa using h⟩

end GoXml.Xsdgen
