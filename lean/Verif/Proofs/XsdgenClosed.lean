import Verif.Proofs.XsdgenUntouched
import Verif.Proofs.XsdgenFit
import Verif.Proofs.XsdgenDecls
import Verif.Spec.XsdgenClosed
set_option autoImplicit false

/-! From the types that `flatten` leaves to the declarations. -/

namespace GoXml.Xsdgen
open Xsd GoMap

theorem Resolved.linked {H : THeap} (h : Resolved H) : Linked H := by
  have key : ∀ t : Ty, (∀ n, t ≠ .link n) → NotLink t := by
    intro t ht
    cases t with
    | link n => exact absurd rfl (ht n)
    | _ => trivial
  intro id c hc
  obtain ⟨h1, h2, h3⟩ := h id c hc
  exact ⟨fun e he => key _ (h1 e he), fun a ha => key _ (h2 a ha), fun t ht => key _ (fun n hn => h3 n (by rw [ht, hn]))⟩

/-! ### Types passed on are resolved -/

def NoLinks (recur : THeap → Option Ty → Run Flat) : Prop :=
  ∀ H t r, Linked H → (∀ v, t = some v → NotLink v) → recur H t = .ok r → ∀ u ∈ r.2.1, NotLink u

theorem fieldLoop_nolinks {recur : THeap → Option Ty → Run Flat} {get : THeap → Nat → Option Ty} {set : THeap → Nat → Ty → THeap}
    (hrec : Flows recur) (hn : NoLinks recur) (hacc : Access get set) : ∀ (is : List Nat) (H : THeap) (r : THeap × List Ty), Linked H →
      fieldLoop recur get set is H = .ok r → ∀ u ∈ r.2, NotLink u := by
  intro is
  induction is with
  | nil => intro H r hl h; cases h; intro u hu; cases hu
  | cons i is ih =>
    intro H r hl h
    obtain ⟨q, hq, h⟩ := bind_ok h
    have hget : ∀ v, get H i = some v → NotLink v := fun v hv => hacc.linked H i v hl hv
    obtain ⟨k1, k2⟩ := hrec H _ q hl hget hq
    have k3 := hn H _ q hl hget hq
    obtain ⟨q1, q2, q3⟩ := q
    cases q3 with
    | none => cases h
    | some t =>
      obtain ⟨p, hp, h⟩ := bind_ok h
      cases h
      obtain ⟨hnl, ha⟩ := k2 t rfl
      have f1 : Flow H (set q1 i t) (Pushed (q2 ++ [t])) :=
        hacc.put _ _ _ i t (k1.mono pushed_left) (cov_of_mem (by simp) hnl) (ResOk.obj ha)
      intro u hu
      simp only [List.mem_append, List.mem_cons] at hu
      rcases hu with hu | rfl | hu
      · exact k3 u hu
      · exact hnl
      · exact ih _ _ (f1.linked hl) hp u hu

theorem flattenComplex_nolinks {recur : THeap → Option Ty → Run Flat} (hrec : Flows recur) (hn : NoLinks recur) {H : THeap} {id : Nat}
    {c : ComplexT} {r : Flat} (hl : Linked H) (hc : H[id]? = some (.complex c)) (h : flattenComplex recur H id c = .ok r) :
    ∀ u ∈ r.2.1, NotLink u := by
  obtain ⟨e, he, h⟩ := bind_ok h
  obtain ⟨a, ha, h⟩ := bind_ok h
  obtain ⟨b, hb, h⟩ := bind_ok h
  obtain ⟨f1, _⟩ := fieldLoop_flow hrec (access_elem id) _ _ _ hl he
  obtain ⟨f2, _⟩ := fieldLoop_flow hrec (access_attr id) _ _ _ (f1.linked hl) ha
  have n1 := fieldLoop_nolinks hrec hn (access_elem id) _ _ _ hl he
  have n2 := fieldLoop_nolinks hrec hn (access_attr id) _ _ _ (f1.linked hl) ha
  have hl2 := f2.linked (f1.linked hl)
  have hbl : ∀ v, baseOf a.1 (.obj id) = some v → NotLink v := by
    intro v hv
    obtain ⟨o1, ho1, g1⟩ := f1.get hc
    cases o1 with
    | simple _ => cases g1
    | complex x1 =>
      obtain ⟨o2, ho2, g2⟩ := f2.get ho1
      cases o2 with
      | simple _ => cases g2
      | complex x2 =>
        simp only [baseOf, ho2, TObj.base] at hv
        exact (hl2 id x2 ho2).2.2 v hv
  obtain ⟨f3, r3⟩ := hrec a.1 _ b hl2 hbl hb
  have n3 := hn a.1 _ b hl2 hbl hb
  obtain ⟨b1, b2, b3⟩ := b
  cases b3 with
  | none => cases h
  | some t =>
    cases h
    intro u hu
    simp only [List.mem_append] at hu
    rcases hu with ((hu | hu) | hu) | hu
    · exact n1 u hu
    · exact n2 u hu
    · exact n3 u hu
    · split at hu
      · rw [List.mem_singleton.mp hu]
        exact (r3 t rfl).1
      · cases hu

theorem flatten1_nolinks (cfg : Config) (n : Nat) : ∀ d, NoLinks (flatten1 cfg n d) := by
  intro d
  induction d with
  | zero => intro H t r hl ht h; cases h; intro u hu; cases hu
  | succ d ih =>
    intro H t r hl ht h
    cases t with
    | none => cases h
    | some t =>
      cases t with
      | link x => cases h
      | builtin b => cases h; intro u hu; cases hu
      | obj id =>
        have hcomplex : ∀ c, H[id]? = some (.complex c) → flattenComplex (flatten1 cfg n d) H id c = .ok r → ∀ u ∈ r.2.1, NotLink u :=
          fun c hc h => flattenComplex_nolinks (flatten1_flow cfg n d) ih hl hc h
        simp only [flatten1] at h
        split at h
        · cases h
        · rename_i s hs
          obtain ⟨q, hq, h⟩ := bind_ok h
          have hsub : r.2.1 = q.1.filter (isSimple H) := by
            dsimp only at h
            split at h
            · cases h; rfl
            · split at h <;> cases h <;> rfl
          intro u hu
          rw [hsub] at hu
          have := (List.mem_filter.mp hu).2
          cases u with
          | link _ => cases this
          | _ => trivial
        · rename_i c hc
          split at h
          · split at h
            · cases h; intro u hu; cases hu
            · exact hcomplex c hc h
          · split at h
            · exact ih _ _ _ hl (fun v hv => by cases hv; trivial) h
            · exact hcomplex c hc h
          · exact hcomplex c hc h

/-! ### Steps that only add inherited fields -/

inductive Ext (H : THeap) : THeap → Prop
  | same : Ext H H
  | grow {id bid : Nat} {c c' b : ComplexT} : H[id]? = some (.complex c) → c.base = some (.obj bid) → H[bid]? = some (.complex b) →
      c'.name = c.name → c'.mixed = c.mixed → c'.base = c.base →
      (∀ e ∈ c'.elements, e ∈ c.elements ∨ e ∈ b.elements) → (∀ a ∈ c'.attributes, a ∈ c.attributes ∨ a ∈ b.attributes) →
      (∀ e ∈ c.elements, e ∈ c'.elements) → (∀ a ∈ c.attributes, a ∈ c'.attributes) → Ext H (H.set id (.complex c'))

/-- One type before and after. -/
def ExtAt (H H' : THeap) (k : Nat) : Prop :=
    (H[k]? = none ∧ H'[k]? = none) ∨ (∃ s, H[k]? = some (.simple s) ∧ H'[k]? = some (.simple s)) ∨
    ∃ c c', H[k]? = some (.complex c) ∧ H'[k]? = some (.complex c') ∧ c'.name = c.name ∧ c'.mixed = c.mixed ∧ c'.base = c.base ∧
      (∀ e ∈ c'.elements, e ∈ c.elements ∨ ∃ bid b, c.base = some (.obj bid) ∧ H[bid]? = some (.complex b) ∧ e ∈ b.elements) ∧
      (∀ e ∈ c'.attributes, e ∈ c.attributes ∨ ∃ bid b, c.base = some (.obj bid) ∧ H[bid]? = some (.complex b) ∧ e ∈ b.attributes) ∧
      (∀ e ∈ c.elements, e ∈ c'.elements) ∧ (∀ a ∈ c.attributes, a ∈ c'.attributes)

theorem Ext.get {H H' : THeap} (h : Ext H H') (k : Nat) : ExtAt H H' k := by
  have plain : ∀ o, H[k]? = o → H'[k]? = o → ExtAt H H' k := by
    intro o h1 h2
    cases o with
    | none => exact Or.inl ⟨h1, h2⟩
    | some o =>
      cases o with
      | simple s => exact Or.inr (Or.inl ⟨s, h1, h2⟩)
      | complex c =>
        exact Or.inr (Or.inr ⟨c, c, h1, h2, rfl, rfl, rfl, fun _ h => Or.inl h, fun _ h => Or.inl h, fun _ h => h, fun _ h => h⟩)
  cases h with
  | same => exact plain _ rfl rfl
  | @grow id bid c c' b h1 h2 h3 h4 h5 h6 h7 h8 h9 h10 =>
    by_cases e : id = k
    · subst e
      have hlt := (List.getElem?_eq_some_iff.mp h1).1
      refine Or.inr (Or.inr ⟨c, c', h1, List.getElem?_set_self hlt, h4, h5, h6, ?_, ?_, h9, h10⟩)
      · intro e he
        rcases h7 e he with h | h
        · exact Or.inl h
        · exact Or.inr ⟨bid, b, h2, h3, h⟩
      · intro e he
        rcases h8 e he with h | h
        · exact Or.inl h
        · exact Or.inr ⟨bid, b, h2, h3, h⟩
    · exact plain _ rfl (List.getElem?_set_ne e)

theorem Ext.base {H H' : THeap} (h : Ext H H') (t : Ty) : baseOf H' t = baseOf H t := by
  cases t with
  | builtin _ => rfl
  | link _ => rfl
  | obj k =>
    simp only [baseOf]
    rcases h.get k with ⟨h1, h2⟩ | ⟨s, h1, h2⟩ | ⟨c, c', h1, h2, _, _, h3, _⟩
    · rw [h1, h2]
    · rw [h1, h2]
    · rw [h1, h2]; exact h3

theorem Ext.names {H H' : THeap} (h : Ext H H') (t : Ty) : xmlName H' t = xmlName H t := by
  cases t with
  | builtin _ => rfl
  | link _ => rfl
  | obj k =>
    simp only [xmlName]
    rcases h.get k with ⟨h1, h2⟩ | ⟨s, h1, h2⟩ | ⟨c, c', h1, h2, h3, _⟩
    · rw [h1, h2]
    · rw [h1, h2]
    · rw [h1, h2]; exact h3

theorem Ext.anc {H H' : THeap} (h : Ext H H') {x a : Ty} : Ancestor H' x a ↔ Ancestor H x a := by
  constructor
  · intro ha
    induction ha with
    | self t => exact .self _
    | base hb _ ih => exact .base (by rw [← h.base]; exact hb) ih
  · intro ha
    induction ha with
    | self t => exact .self _
    | base hb _ ih => exact .base (by rw [h.base]; exact hb) ih

theorem Ext.simple {H H' : THeap} (h : Ext H H') {k : Nat} {s : SimpleT} : H'[k]? = some (.simple s) ↔ H[k]? = some (.simple s) := by
  rcases h.get k with ⟨h1, h2⟩ | ⟨s, h1, h2⟩ | ⟨c, c', h1, h2, _⟩
  · rw [h1, h2]
  · rw [h1, h2]
  · rw [h1, h2]; simp

theorem Ext.fit {H H' : THeap} (h : Ext H H') {P : Nat → Prop} {id : Nat} (hf : Fit H P id) : Fit H' P id := by
  intro a ha
  have ha := h.anc.mp ha
  obtain ⟨o, ho, hl⟩ := hf a ha
  rcases h.get a with ⟨h1, h2⟩ | ⟨s, h1, h2⟩ | ⟨c, c', h1, h2, h3, h4, h5, h6, h7, _⟩
  · rw [h1] at ho; cases ho
  · rw [h1] at ho; cases ho; exact ⟨_, h2, hl⟩
  · rw [h1] at ho
    cases ho
    have hbase : ∀ bid b, c.base = some (.obj bid) → H[bid]? = some (.complex b) → Local P (.complex b) := by
      intro bid b hb hbb
      obtain ⟨o, ho, hl⟩ := hf bid (ha.trans (.base (by simp only [baseOf, h1, TObj.base]; exact hb) (.self _)))
      rw [hbb] at ho
      cases ho
      exact hl
    refine ⟨_, h2, ?_, ?_, ?_⟩
    · intro e he
      rcases h6 e he with h | ⟨bid, b, hb, hbb, h⟩
      · exact hl.1 e h
      · exact (hbase bid b hb hbb).1 e h
    · intro e he
      rcases h7 e he with h | ⟨bid, b, hb, hbb, h⟩
      · exact hl.2.1 e h
      · exact (hbase bid b hb hbb).2.1 e h
    · intro t ht
      rw [h5] at ht
      rw [h4]
      exact hl.2.2 t ht

theorem Ext.textKept {H H' : THeap} (h : Ext H H') (ht : TextKept H) : TextKept H' := by
  intro id sid c' s hc' ha hs
  rcases h.get id with ⟨h1, h2⟩ | ⟨s, h1, h2⟩ | ⟨c, c'', h1, h2, _, h4, _⟩
  · rw [h2] at hc'; cases hc'
  · rw [h2] at hc'; cases hc'
  · rw [h2] at hc'
    cases hc'
    rw [h4]
    exact ht id sid c s h1 (h.anc.mp ha) (h.simple.mp hs)

theorem Ext.linked {H H' : THeap} (h : Ext H H') (hl : Linked H) : Linked H' := by
  intro id x hx
  rcases h.get id with ⟨h1, h2⟩ | ⟨s, h1, h2⟩ | ⟨c, c', h1, h2, h3, h4, h5, h6, h7, _⟩
  · rw [h2] at hx; cases hx
  · rw [h2] at hx; cases hx
  · rw [h2] at hx
    cases hx
    obtain ⟨l1, l2, l3⟩ := hl id c h1
    refine ⟨?_, ?_, ?_⟩
    · intro e he
      rcases h6 e he with h | ⟨bid, b, hb, hbb, h⟩
      · exact l1 e h
      · exact (hl bid b hbb).1 e h
    · intro e he
      rcases h7 e he with h | ⟨bid, b, hb, hbb, h⟩
      · exact l2 e h
      · exact (hl bid b hbb).2.1 e h
    · intro t ht
      rw [h5] at ht
      exact l3 t ht

theorem Ext.ranked {rk : Nat → Nat} {H H' : THeap} (h : Ext H H') (hr : Ranked rk H) : Ranked rk H' := by
  intro a b hu
  cases hu with
  | base hb => rw [h.base] at hb; exact hr _ _ (.base hb)
  | elem hx he ht =>
    rcases h.get a with ⟨h1, h2⟩ | ⟨s, h1, h2⟩ | ⟨c, c', h1, h2, h3, h4, h5, h6, h7, _⟩
    · rw [h2] at hx; cases hx
    · rw [h2] at hx; cases hx
    · rw [h2] at hx
      cases hx
      rcases h6 _ he with h | ⟨bid, b, hb, hbb, h⟩
      · exact hr _ _ (.elem h1 h ht)
      · exact Nat.lt_trans (hr _ _ (.elem hbb h ht)) (hr _ _ (.base (by simp only [baseOf, h1, TObj.base]; exact hb)))
  | attr hx he ht =>
    rcases h.get a with ⟨h1, h2⟩ | ⟨s, h1, h2⟩ | ⟨c, c', h1, h2, h3, h4, h5, h6, h7, _⟩
    · rw [h2] at hx; cases hx
    · rw [h2] at hx; cases hx
    · rw [h2] at hx
      cases hx
      rcases h7 _ he with h | ⟨bid, b, hb, hbb, h⟩
      · exact hr _ _ (.attr h1 h ht)
      · exact Nat.lt_trans (hr _ _ (.attr hbb h ht)) (hr _ _ (.base (by simp only [baseOf, h1, TObj.base]; exact hb)))

/-- Many such steps. -/
inductive Exts (H : THeap) : THeap → Prop
  | refl : Exts H H
  | tail {G K : THeap} : Exts H G → Ext G K → Exts H K

theorem Exts.trans {H G K : THeap} (h1 : Exts H G) (h2 : Exts G K) : Exts H K := by
  induction h2 with
  | refl => exact h1
  | tail _ h ih => exact .tail ih h

theorem Exts.keep {H H' : THeap} (h : Exts H H') (I : THeap → Prop) (hI : ∀ G K, Ext G K → I G → I K) (hH : I H) : I H' := by
  induction h with
  | refl => exact hH
  | tail _ h ih => exact hI _ _ h ih

theorem Exts.names {H H' : THeap} (h : Exts H H') (t : Ty) : xmlName H' t = xmlName H t :=
  h.keep (fun G => xmlName G t = xmlName H t) (fun _ _ h hG => (h.names t).trans hG) rfl

theorem expandOne_ext {all : List Ty} {H H' : THeap} {i : Int} (h : expandOne all H i = some H') : Ext H H' := by
  simp only [expandOne] at h
  split at h
  · split at h
    · rename_i id _ _ c hc
      split at h
      · rename_i b hb
        obtain ⟨bid, b⟩ := b
        obtain ⟨k1, k2⟩ := complexBase_iff.mp hb
        cases h
        refine .grow hc k1 k2 rfl rfl rfl ?_ ?_ ?_ ?_
        · intro e he
          rcases List.mem_append.mp he with h | h
          · exact Or.inr (List.mem_filter.mp h).1
          · exact Or.inl h
        · intro e he
          rcases List.mem_append.mp he with h | h
          · exact Or.inl h
          · exact Or.inr (List.mem_filter.mp h).1
        · exact fun e he => List.mem_append_right _ he
        · exact fun e he => List.mem_append_left _ he
      · cases h; exact .same
    · cases h
  · cases h

theorem expandWalk_ext {all : List Ty} : ∀ {is : List Int} {H H' : THeap}, expandWalk all H is = some H' → Exts H H' := by
  intro is
  induction is with
  | nil => intro H H' h; cases h; exact .refl
  | cons i is ih =>
    intro H H' h
    simp only [expandWalk] at h
    split at h
    · cases h
    · rename_i G hG
      exact (Exts.tail .refl (expandOne_ext hG)).trans (ih h)

theorem expand_ext {n : Nat} {H H' : THeap} {types : List Ty} (h : expandComplexTypes n H types = .ok H') : Exts H H' := by
  obtain ⟨r, hr, h⟩ := bind_ok h
  split at h
  · cases h
  · split at h
    · cases h
    · split at h
      · cases h
      · rename_i hw
        cases h
        exact expandWalk_ext hw

theorem takeOver_ext {H : THeap} {id : Nat} {t : ComplexT} (ht : H[id]? = some (.complex t)) : Ext H (H.set id (.complex (takeOver H t))) := by
  cases hb : complexBase H t with
  | none =>
    have e : takeOver H t = t := by simp [takeOver, hb]
    have e2 : H.set id (.complex t) = H := by
      apply List.ext_getElem?
      intro k
      by_cases ek : id = k
      · subst ek
        rw [List.getElem?_set_self (List.getElem?_eq_some_iff.mp ht).1, ht]
      · rw [List.getElem?_set_ne ek]
    rw [e, e2]
    exact .same
  | some q =>
    obtain ⟨bid, b⟩ := q
    obtain ⟨k1, k2⟩ := complexBase_iff.mp hb
    have hI := takeOver_inherits H t
    have hD : DerivedFrom H t b := ⟨bid, k1, k2⟩
    have hsame := hI.same
    have hatt := hI.attrs b hD
    have hel := hI.elems b hD
    have hw := hI.wildcard b hD
    have n1 : (takeOver H t).name = t.name := by simp [takeOver, hb]
    have n2 : (takeOver H t).mixed = t.mixed := by simp [takeOver, hb]
    have n3 : (takeOver H t).base = t.base := by simp [takeOver, hb]
    generalize takeOver H t = c at *
    by_cases hwild : ∃ e ∈ t.elements, e.wildcard = true
    · have hel := hel hwild
      refine .grow ht k1 k2 n1 n2 n3 (fun e he => Or.inl (hel ▸ he)) ?_ (fun e he => hel ▸ he) ?_
      · intro a ha
        rw [hatt] at ha
        rcases List.mem_append.mp ha with h | h
        · exact Or.inl h
        · exact Or.inr (firsts_mem _ (List.mem_filter.mp h).1)
      · intro a ha
        rw [hatt]
        exact List.mem_append_left _ ha
    · have hw := hw (fun e he => by
        cases h : e.wildcard with
        | false => rfl
        | true => exact absurd ⟨e, he, h⟩ hwild)
      refine .grow ht k1 k2 n1 n2 n3 ?_ ?_ ?_ ?_
      · intro e he
        rw [hw] at he
        rcases List.mem_append.mp he with h | h
        · exact Or.inl h
        · exact Or.inr (List.mem_filter.mp (List.mem_of_mem_take h)).1
      · intro a ha
        rw [hatt] at ha
        rcases List.mem_append.mp ha with h | h
        · exact Or.inl h
        · exact Or.inr (firsts_mem _ (List.mem_filter.mp h).1)
      · intro e he
        rw [hw]
        exact List.mem_append_left _ he
      · intro a ha
        rw [hatt]
        exact List.mem_append_left _ ha

/-! ### Expressions -/

/-- A Go type that is predeclared, or the name of one of the types given. -/
def Known (env : Env) (cfg : Config) (H : THeap) (P : Nat → Prop) (x : Str) : Prop :=
  x ∈ predeclared ∨ ∃ j, P j ∧ x = publicName env cfg (xmlName H (.obj j))

theorem builtinTbl_known : ∀ e ∈ builtinTbl, ∀ g, e = some g → leafName g ∈ predeclared := by decide +kernel

theorem exprOf_known {env : Env} {cfg : Config} {H : THeap} {P : Nat → Prop} {t : Ty} {e : GoExpr} (h : exprOf env cfg H t = .ok e)
    (ht : Cov P t) : Known env cfg H P (leafName e) := by
  cases t with
  | builtin b =>
    obtain ⟨o, ho, h⟩ := bind_ok h
    cases o with
    | none => cases h
    | some g =>
      cases h
      simp only [builtinExpr] at ho
      split at ho
      · cases ho
      · split at ho
        · rename_i x hx
          cases ho
          exact Or.inl (builtinTbl_known _ (List.mem_of_getElem? hx) _ rfl)
        · cases ho
  | obj j => cases h; exact Or.inr ⟨j, ht, rfl⟩
  | link n => cases ht

theorem elemField_known {env : Env} {cfg : Config} {H : THeap} {P : Nat → Prop} {el : XElem} {f : Field} (h : ElemField env cfg H el f)
    (ht : Cov P el.type) : Known env cfg H P (leafName f.type) := by
  obtain ⟨item, hi, ht', -⟩ := h
  have hk := exprOf_known hi ht
  have hs : Known env cfg H P b!"string" := Or.inl (by decide)
  dsimp only at ht'
  by_cases hw : el.wildcard = true ∧ el.type = .builtin AnyType
  · rw [if_pos hw] at ht'
    rw [ht']
    split
    · exact hs
    · exact hs
  · rw [if_neg hw] at ht'
    rw [ht']
    split
    · exact hk
    · exact hk

/-- The base that the text of a mixed type is of. -/
theorem mixedBase_cov {H : THeap} {P : Nat → Prop} (htext : TextKept H) : ∀ {n : Nat} {b r : Ty}, mixedBase H n b = .ok r → Cov P b →
    (∀ a, Ancestor H b (.obj a) → LocalAt H P a) → isSimple H r = true → Cov P r := by
  intro n
  induction n with
  | zero => intro b r h; cases h
  | succ n ih =>
    intro b r h hc hfit hs
    simp only [mixedBase] at h
    split at h
    · cases h; exact hc
    · rename_i c hb
      split at h
      · cases h; exact hc
      · rename_i hns
        have hanc := mixedBase_ancestor h
        refine ih h ?_ (fun a ha => hfit a (.base hb ha)) hs
        cases b with
        | builtin _ => cases hb
        | link _ => cases hb
        | obj k =>
          obtain ⟨o, ho, hl⟩ := hfit k (.self _)
          cases o with
          | simple s => exact absurd (by simp only [isSimple, ho]) hns
          | complex x =>
            have hx : x.base = some c := by simpa only [baseOf, ho, TObj.base] using hb
            cases r with
            | builtin _ => cases hs
            | link _ => cases hs
            | obj sid =>
              simp only [isSimple] at hs
              split at hs
              · rename_i s hsid
                exact (hl.2.2 c hx).2 (htext k sid x s ho (.base hb hanc) hsid)
              · cases hs

theorem charData_known {env : Env} {cfg : Config} {n : Nat} {H : THeap} {P : Nat → Prop} {t : ComplexT} {acc : Acc} {id : Nat}
    (htext : TextKept H) (hid : H[id]? = some (.complex t)) (hf : Fit H P id) (h : charData env cfg n H t = .ok acc) :
    ∀ f ∈ acc.fields, Known env cfg H P (leafName f.type) := by
  unfold charData at h
  split at h
  · rename_i hm
    split at h
    · cases h
    · rename_i b0 hb0
      obtain ⟨base, hbase, h⟩ := bind_ok h
      obtain ⟨e, he, h⟩ := bind_ok h
      have hcov : isSimple H base = true → Cov P base := by
        refine mixedBase_cov htext hbase ?_ ?_
        · obtain ⟨o, ho, hl⟩ := hf id (.self _)
          rw [hid] at ho
          cases ho
          exact (hl.2.2 b0 hb0).2 hm
        · intro a ha
          exact hf a (.base (by simp only [baseOf, hid, TObj.base]; exact hb0) ha)
      simp only at h
      split at h
      · have hk : Known env cfg H P (leafName e) := exprOf_known he trivial
        split at h
        · cases h; intro f hf; cases hf
        · split at h
          · split at h
            · cases h
            · cases h
              intro f hf
              rw [List.mem_singleton.mp hf]
              exact hk
          · cases h
            intro f hf
            rw [List.mem_singleton.mp hf]
            exact hk
      · split at h
        · rename_i hs
          cases h
          intro f hf
          rw [List.mem_singleton.mp hf]
          exact exprOf_known he (hcov hs)
        · cases h
  · cases h; intro f hf; cases hf

theorem forall2_right {α β : Type} {R : α → β → Prop} {l : List α} {m : List β} (h : List.Forall₂ R l m) : ∀ y ∈ m, ∃ x ∈ l, R x y := by
  induction h with
  | nil => intro y hy; cases hy
  | cons h _ ih =>
    intro y hy
    rcases List.mem_cons.mp hy with rfl | hy
    · exact ⟨_, List.mem_cons_self .., h⟩
    · obtain ⟨x, hx, hr⟩ := ih y hy
      exact ⟨x, List.mem_cons_of_mem _ hx, hr⟩

theorem genFields_known {env : Env} {cfg : Config} {n : Nat} {H : THeap} {P : Nat → Prop} {t : ComplexT} {acc : Acc} {id : Nat}
    (htext : TextKept H) (hid : H[id]? = some (.complex t)) (hf : Fit H P id) (h : genFields env cfg n H t = .ok acc) :
    ∀ f ∈ acc.fields, Known env cfg H P (leafName f.type) := by
  obtain ⟨a1, a2, h1, h2, h3⟩ := genFields_ok h
  obtain ⟨fs, e1, F1⟩ := elems_fields _ _ _ h2
  obtain ⟨gs, e2, F2⟩ := attrs_fields _ _ _ h3
  obtain ⟨o, ho, hl⟩ := hf id (.self _)
  rw [hid] at ho
  cases ho
  intro f hfm
  rw [e2, e1, List.append_assoc] at hfm
  rcases List.mem_append.mp hfm with hfm | hfm
  · exact charData_known htext hid hf h1 f hfm
  · rcases List.mem_append.mp hfm with hfm | hfm
    · obtain ⟨el, hel, hE⟩ := forall2_right F1 f hfm
      exact elemField_known hE (hl.1 el ((keptElem_iff ..).mp hel).1)
    · obtain ⟨a, ha, hA⟩ := forall2_right F2 f hfm
      exact exprOf_known hA.1 (hl.2.1 a ((keptAttr_iff ..).mp ha).1)

/-! ### Declarations -/

/-- One type. -/
theorem genTypeSpec_known {env : Env} {cfg : Config} {n : Nat} {H : THeap} {P : Nat → Prop} {id : Nat} {r : THeap × List Spec}
    (htext : TextKept H) (hf : Fit H P id) (h : genTypeSpec env cfg n H (.obj id) = .ok r) :
    Ext H r.1 ∧ ∃ s, r.2 = [s] ∧ s.name = publicName env cfg (xmlName H (.obj id)) ∧ ∀ x ∈ s.expr.uses, Known env cfg H P x := by
  obtain ⟨o, ho, hl⟩ := hf id (.self _)
  simp only [genTypeSpec, ho] at h
  cases o with
  | simple s =>
    obtain ⟨q, hq, h⟩ := bind_ok h
    cases h
    refine ⟨.same, ?_⟩
    have hname : xmlName H (.obj id) = s.name := by simp only [xmlName, ho, TObj.name]
    have hbase : ∀ b e, s.base = some b → exprOf env cfg H b = .ok e → Known env cfg H P (leafName e) := by
      intro b e hb he
      obtain ⟨x, rfl⟩ := hl b hb
      exact exprOf_known he trivial
    unfold genSimpleType at hq
    split at hq
    · unfold genSimpleListSpec at hq
      split at hq
      · cases hq
      · rename_i b hb
        obtain ⟨e, he, hq⟩ := bind_ok hq
        obtain ⟨y, hy, hq⟩ := bind_ok hq
        split at hq
        · split at hq
          · cases hq
          · cases hq
          · cases hq
            refine ⟨_, rfl, by rw [hname], ?_⟩
            intro x hx
            rw [List.mem_singleton.mp hx]
            exact hbase b e hb he
        · cases hq
    · split at hq
      · cases hq
        refine ⟨_, rfl, by rw [hname], ?_⟩
        intro x hx
        rw [List.mem_singleton.mp hx]
        exact Or.inl (by decide)
      · split at hq
        · cases hq
        · rename_i b hb
          obtain ⟨e, he, hq⟩ := bind_ok hq
          dsimp only at hq
          split at hq
          · split at hq
            · cases hq
            · cases hq
              refine ⟨_, rfl, by rw [hname], ?_⟩
              intro x hx
              rw [List.mem_singleton.mp hx]
              exact hbase b e hb he
          · cases hq
            refine ⟨_, rfl, by rw [hname], ?_⟩
            intro x hx
            rw [List.mem_singleton.mp hx]
            exact hbase b e hb he
  | complex c =>
    obtain ⟨acc, hacc, h⟩ := bind_ok h
    cases h
    have hext := takeOver_ext ho
    have hname : publicName env cfg (takeOver H c).name = publicName env cfg (xmlName H (.obj id)) := by
      rw [← hext.names (.obj id)]
      simp only [xmlName, List.getElem?_set_self (List.getElem?_eq_some_iff.mp ho).1, TObj.name]
    refine ⟨hext, _, rfl, hname, ?_⟩
    intro x hx
    obtain ⟨f, hf', rfl⟩ := List.mem_map.mp hx
    have := genFields_known (hext.textKept htext) (List.getElem?_set_self (List.getElem?_eq_some_iff.mp ho).1) (hext.fit hf) hacc f hf'
    rcases this with h | ⟨j, hj, h⟩
    · exact Or.inl h
    · exact Or.inr ⟨j, hj, by rw [h, hext.names]⟩

theorem genList_known {env : Env} {cfg : Config} {n : Nat} {P : Nat → Prop} : ∀ (ts : List Ty) (H : THeap) (r : THeap × List Spec × Bool),
    genList env cfg n H ts = .ok r → r.2.2 = false → TextKept H → (∀ id, Ty.obj id ∈ ts → Fit H P id) → (∀ t ∈ ts, NotLink t) →
    Exts H r.1 ∧ (∀ id, Ty.obj id ∈ ts → ∃ s ∈ r.2.1, s.name = publicName env cfg (xmlName H (.obj id))) ∧
    ∀ s ∈ r.2.1, ∀ x ∈ s.expr.uses, Known env cfg H P x := by
  intro ts
  induction ts with
  | nil =>
    intro H r h _ _ _ _
    cases h
    exact ⟨.refl, (by intro id h; cases h), by intro s h; cases h⟩
  | cons t ts ih =>
    intro H r h hr htext hfit hnl
    simp only [genList] at h
    split at h
    · rename_i q hq
      obtain ⟨p, hp, h⟩ := bind_ok h
      cases h
      have hone : Ext H q.1 ∧ (∀ id, t = .obj id → ∃ s ∈ q.2, s.name = publicName env cfg (xmlName H (.obj id))) ∧
          ∀ s ∈ q.2, ∀ x ∈ s.expr.uses, Known env cfg H P x := by
        cases t with
        | builtin b =>
          cases hq
          exact ⟨.same, fun id h => (by cases h), fun s h => (by cases h)⟩
        | link b =>
          cases hq
          exact ⟨.same, fun id h => (by cases h), fun s h => (by cases h)⟩
        | obj id =>
          obtain ⟨k1, s, k2, k3, k4⟩ := genTypeSpec_known htext (hfit id (List.mem_cons_self ..)) hq
          refine ⟨k1, ?_, ?_⟩
          · intro id' h
            cases h
            exact ⟨s, by rw [k2]; simp, k3⟩
          · intro s' hs'
            rw [k2] at hs'
            rw [List.mem_singleton.mp hs']
            exact k4
      obtain ⟨k1, k2, k3⟩ := hone
      obtain ⟨j1, j2, j3⟩ := ih q.1 p hp hr (k1.textKept htext) (fun id hid => k1.fit (hfit id (List.mem_cons_of_mem _ hid)))
        (fun u hu => hnl u (List.mem_cons_of_mem _ hu))
      refine ⟨(Exts.tail .refl k1).trans j1, ?_, ?_⟩
      · intro id hid
        rcases List.mem_cons.mp hid with h | h
        · obtain ⟨s, hs, hn⟩ := k2 id h.symm
          exact ⟨s, List.mem_append_left _ hs, hn⟩
        · obtain ⟨s, hs, hn⟩ := j2 id h
          exact ⟨s, List.mem_append_right _ hs, by rw [hn, k1.names]⟩
      · intro s hs x hx
        rcases List.mem_append.mp hs with h | h
        · exact k3 s h x hx
        · rcases j3 s h x hx with h | ⟨j, hj, h⟩
          · exact Or.inl h
          · exact Or.inr ⟨j, hj, by rw [h, k1.names]⟩
    · obtain ⟨p, hp, h⟩ := bind_ok h
      cases h
      cases hr
    · cases h
    · cases h

/-! ### Schemas -/

theorem Flow.names {H H' : THeap} {Q : Nat → Prop} (h : Flow H H' Q) (t : Ty) : xmlName H' t = xmlName H t := by
  cases t with
  | builtin _ => rfl
  | link _ => rfl
  | obj k =>
    simp only [xmlName]
    cases hk : H'[k]? with
    | none =>
      have : H[k]? = none := by
        rw [List.getElem?_eq_none_iff] at hk ⊢
        rw [← h.len]
        exact hk
      rw [this]
    | some o' =>
      obtain ⟨o, ho, hc⟩ := h.change k o' hk
      rw [ho]
      cases o with
      | simple s =>
        cases o' with
        | simple s' => exact hc.1
        | complex _ => cases hc
      | complex s =>
        cases o' with
        | complex s' => exact hc.1
        | simple _ => cases hc

theorem Flow.textKept {H H' : THeap} {Q : Nat → Prop} (h : Flow H H' Q) (ht : TextKept H) : TextKept H' := by
  intro id sid c' s' hc' ha hs'
  obtain ⟨o, ho, hch⟩ := h.change id _ hc'
  obtain ⟨p, hp, hch'⟩ := h.change sid _ hs'
  cases o with
  | simple _ => cases hch
  | complex c =>
    cases p with
    | complex _ => cases hch'
    | simple s =>
      rw [hch.2.1]
      exact ht id sid c s ho (h.anc ha sid rfl) hp

theorem ownNames_names {H H' : THeap} (hn : ∀ t, xmlName H' t = xmlName H t) (hlen : H'.length = H.length) (h : OwnNames H) : OwnNames H' := by
  intro id o ho b hb
  have hlt : id < H.length := by rw [← hlen]; exact (List.getElem?_eq_some_iff.mp ho).1
  have e := hn (.obj id)
  simp only [xmlName, ho, List.getElem?_eq_getElem hlt] at e
  exact h id _ (List.getElem?_eq_getElem hlt) b (e.symm.trans hb)

/-- What is assumed of the types of a schema and the heap before `flatten`. -/
structure FlattenOk (cfg : Config) (n : Nat) (I : THeap → Prop) : Prop where
  linked : ∀ H, I H → Linked H
  ext : ∀ H H', Ext H H' → I H → I H'
  flow : ∀ H t r, I H → NotLink t → flatten1 cfg n 1001 H (some t) = .ok r →
    I r.1 ∧ ∀ j, (Ty.obj j ∈ r.2.1 ∨ r.2.2 = some (.obj j)) → Fit r.1 (Pushed (r.2.1 ++ r.2.2.toList)) j

theorem flattenLoop_fit {cfg : Config} {n : Nat} {I : THeap → Prop} (hI : FlattenOk cfg n I) : ∀ (ts : List Ty) (H : THeap) (r : THeap × List Ty),
    I H → (∀ t ∈ ts, NotLink t) → flattenLoop cfg n H ts = .ok r →
    I r.1 ∧ Flow H r.1 (Pushed r.2) ∧ (∀ j, Pushed r.2 j → Fit r.1 (Pushed r.2) j) ∧ ∀ t ∈ r.2, NotLink t := by
  intro ts
  induction ts with
  | nil =>
    intro H r hH _ h
    cases h
    exact ⟨hH, .refl .., fun j hj => by (cases hj), fun t ht => by cases ht⟩
  | cons t ts ih =>
    intro H r hH hts h
    simp only [flattenLoop] at h
    split at h
    · exact ih H r hH (fun u hu => hts u (List.mem_cons_of_mem _ hu)) h
    · obtain ⟨q, hq, h⟩ := bind_ok h
      obtain ⟨p, hp, h⟩ := bind_ok h
      cases h
      have hl := hI.linked H hH
      have htn := hts t (List.mem_cons_self ..)
      have hv : ∀ v, some t = some v → NotLink v := by intro v hv; cases hv; exact htn
      obtain ⟨f1, r1⟩ := flatten1_flow cfg n 1001 H _ q hl hv hq
      have n1 := flatten1_nolinks cfg n 1001 H _ q hl hv hq
      obtain ⟨i1, g1⟩ := hI.flow H t q hH htn hq
      obtain ⟨i2, f2, g2, n2⟩ := ih q.1 p i1 (fun u hu => hts u (List.mem_cons_of_mem _ hu)) hp
      have f1' : Flow H q.1 (Pushed (q.2.1 ++ q.2.2.toList)) := f1.mono pushed_left
      refine ⟨i2, f1'.trans pushed_left pushed_right f2, ?_, ?_⟩
      · intro j hj
        rcases List.mem_append.mp hj with hj | hj
        · have hj' : Ty.obj j ∈ q.2.1 ∨ q.2.2 = some (.obj j) := by
            rcases List.mem_append.mp hj with h | h
            · exact Or.inl h
            · exact Or.inr (by simpa using h)
          exact f2.fit pushed_left pushed_right (g1 j hj')
        · exact (g2 j hj).mono pushed_right
      · intro u hu
        rcases List.mem_append.mp hu with hu | hu
        · rcases List.mem_append.mp hu with hu | hu
          · exact n1 u hu
          · exact (r1 u (by simpa using hu)).1
        · exact n2 u hu

theorem Ext.length {H H' : THeap} (h : Ext H H') : H'.length = H.length := by
  cases h with
  | same => rfl
  | grow => simp

/-- All schemas. -/
theorem genSchemas_known {env : Env} {cfg : Config} {n : Nat} {I : THeap → Prop} (hI : FlattenOk cfg n I) :
    ∀ (schemas : List (List Ty)) (H : THeap) (r : THeap × List Spec × Bool), I H → TextKept H → OwnNames H →
      (∀ types ∈ schemas, ∀ t ∈ types, NotLink t) → genSchemas env cfg n H schemas = .ok r → r.2.2 = false →
      ∀ s ∈ r.2.1, ∀ x ∈ s.expr.uses, x ∈ predeclared ∨ ∃ s' ∈ r.2.1, s'.name = x := by
  intro schemas
  induction schemas with
  | nil => intro H r _ _ _ _ h _; cases h; intro s hs; cases hs
  | cons types rest ih =>
    intro H r hH htext hown hnl h hr
    obtain ⟨f, hf, h⟩ := bind_ok h
    obtain ⟨L, hL, hf⟩ := bind_ok hf
    cases hf
    obtain ⟨H2, hH2, h⟩ := bind_ok h
    obtain ⟨g, hg, h⟩ := bind_ok h
    obtain ⟨q, hq, h⟩ := bind_ok h
    cases h
    simp only [Bool.or_eq_false_iff] at hr
    obtain ⟨i1, f1, g1, n1⟩ := flattenLoop_fit hI types H L hH (hnl types (List.mem_cons_self ..)) hL
    have e1 := expand_ext hH2
    have htext1 := f1.textKept htext
    have htext2 : TextKept H2 := e1.keep _ (fun _ _ h => h.textKept) htext1
    have hmem : ∀ t, t ∈ dedup L.1 L.2 → t ∈ L.2 := by
      intro t ht
      rw [dedup_eq] at ht
      exact firsts_mem _ ht
    have hfit2 : ∀ j, Pushed L.2 j → Fit H2 (Pushed L.2) j := fun j hj => e1.keep (fun G => Fit G (Pushed L.2) j) (fun _ _ h => h.fit) (g1 j hj)
    obtain ⟨e2, d2, u2⟩ := genList_known (P := Pushed L.2) _ H2 g hg hr.1 htext2 (fun id hid => hfit2 id (hmem _ hid))
      (fun t ht => n1 t (hmem t ht))
    have hnames2 : ∀ t, xmlName H2 t = xmlName L.1 t := e1.names
    have hown1 : OwnNames L.1 := ownNames_names f1.names f1.len hown
    have hown2 : OwnNames g.1 := (e1.trans e2).keep _ (fun _ _ h => ownNames_names h.names h.length) hown1
    have ih' := ih g.1 q (((e1.trans e2).keep I hI.ext) i1) (e2.keep _ (fun _ _ h => h.textKept) htext2) hown2
      (fun ts hts => hnl ts (List.mem_cons_of_mem _ hts)) hq hr.2
    intro s hs x hx
    rcases List.mem_append.mp hs with hs | hs
    · rcases u2 s hs x hx with h | ⟨j, hj, rfl⟩
      · exact Or.inl h
      · refine Or.inr ?_
        have hk : xmlName L.1 (.obj j) ∈ (firsts (xmlName L.1) L.2).map (xmlName L.1) :=
          (firsts_keys _ _ _).mpr (List.mem_map.mpr ⟨_, hj, rfl⟩)
        obtain ⟨u, hu, hun⟩ := List.mem_map.mp hk
        rw [← dedup_eq] at hu
        have hjo : ∃ o, L.1[j]? = some o := by
          obtain ⟨o, ho, _⟩ := g1 j hj j (.self _)
          exact ⟨o, ho⟩
        obtain ⟨o, ho⟩ := hjo
        cases u with
        | builtin b =>
          have : o.name = builtinName b := by
            simpa only [xmlName, ho] using hun.symm
          exact absurd this (hown1 j o ho b)
        | link b => exact (n1 _ (hmem _ hu)).elim
        | obj k =>
          obtain ⟨s', hs', hn'⟩ := d2 k hu
          refine ⟨s', List.mem_append_left _ hs', ?_⟩
          rw [hn', hnames2, hnames2, hun]
    · rcases ih' s hs x hx with h | ⟨s', hs', h⟩
      · exact Or.inl h
      · exact Or.inr ⟨s', List.mem_append_right _ hs', h⟩

/-! ### The map of declarations -/

theorem declare_some : ∀ (ss : List Spec) (m : GoMap Str Spec) (k : Str) (v : Spec), get (declare ss m) k = some v →
    (v ∈ ss ∧ v.name = k) ∨ get m k = some v := by
  intro ss
  induction ss with
  | nil => exact fun _ _ _ h => Or.inr h
  | cons s ss ih =>
    intro m k v h
    rcases ih _ _ _ h with ⟨h1, h2⟩ | h
    · exact Or.inl ⟨List.mem_cons_of_mem _ h1, h2⟩
    · rw [get_set] at h
      split at h
      · rename_i e
        cases h
        exact Or.inl ⟨List.mem_cons_self .., e⟩
      · exact Or.inr h

theorem declare_key : ∀ (ss : List Spec) (m : GoMap Str Spec) (k : Str), ((∃ s ∈ ss, s.name = k) ∨ ∃ v, get m k = some v) →
    ∃ v, get (declare ss m) k = some v := by
  intro ss
  induction ss with
  | nil =>
    rintro m k (⟨s, hs, _⟩ | h)
    · cases hs
    · exact h
  | cons s ss ih =>
    intro m k h
    refine ih _ _ ?_
    rcases h with ⟨s', hs', e⟩ | ⟨v, hv⟩
    · rcases List.mem_cons.mp hs' with rfl | hs'
      · exact Or.inr ⟨s', by rw [get_set, if_pos e]⟩
      · exact Or.inl ⟨s', hs', e⟩
    · refine Or.inr ?_
      rw [get_set]
      split
      · exact ⟨_, rfl⟩
      · exact ⟨v, hv⟩

theorem addHelpers_some : ∀ (deps : List XName) (decls : GoMap Str Spec) (helpers : GoMap XName Spec) (k : Str) (v : Spec),
    get (addHelpers deps decls helpers).1 k = some v → get decls k = some v ∨ ∃ d, get helpers d = some v := by
  intro deps
  induction deps with
  | nil => exact fun _ _ _ _ h => Or.inl h
  | cons d ds ih =>
    intro decls helpers k v h
    rw [addHelpers] at h
    split at h
    · rename_i x hx
      rcases ih _ _ _ _ h with h | ⟨d', h⟩
      · rw [get_set] at h
        split at h
        · cases h; exact Or.inr ⟨d, hx⟩
        · exact Or.inl h
      · rw [get_erase] at h
        split at h
        · cases h
        · exact Or.inr ⟨d', h⟩
    · exact ih _ _ _ _ h

theorem addHelpers_key : ∀ (deps : List XName) (decls : GoMap Str Spec) (helpers : GoMap XName Spec) (k : Str),
    (∃ v, get decls k = some v) → ∃ v, get (addHelpers deps decls helpers).1 k = some v := by
  intro deps
  induction deps with
  | nil => exact fun _ _ _ h => h
  | cons d ds ih =>
    intro decls helpers k h
    rw [addHelpers]
    split
    · refine ih _ _ _ ?_
      rw [get_set]
      split
      · exact ⟨_, rfl⟩
      · exact h
    · exact ih _ _ _ h

theorem addFuncs_expr : ∀ (deps : List Str) (s : Spec) (fns : GoMap Str FuncDecl), (addFuncs deps s fns).1.expr = s.expr := by
  intro deps
  induction deps with
  | nil => exact fun _ _ => rfl
  | cons d ds ih =>
    intro s fns
    rw [addFuncs]
    split
    · exact ih _ _
    · exact ih _ _

theorem addAllFuncs_expr : ∀ (ts : List Str) (decls : GoMap Str Spec) (fns : GoMap Str FuncDecl) (k : Str),
    (get (addAllFuncs ts decls fns).1 k).map (·.expr) = (get decls k).map (·.expr) := by
  intro ts
  induction ts with
  | nil => exact fun _ _ _ => rfl
  | cons t ts ih =>
    intro decls fns k
    rw [addAllFuncs]
    split
    · rename_i s hs
      rw [ih, get_set]
      split
      · rename_i e
        subst e
        rw [hs]
        simp only [Option.map_some, addFuncs_expr]
      · rfl
    · exact ih _ _ _

theorem genAST_type {srt : Sorter strLt} {code : Code} {doc name : Str} {e : DeclExpr} :
    GoDecl.type doc name e ∈ (genAST srt code).2 ↔ ∃ s, get code.decls name = some s ∧ s.doc = doc ∧ s.expr = e := by
  simp only [genAST, List.mem_flatMap]
  constructor
  · rintro ⟨k, hk, h⟩
    split at h
    · rename_i s hs
      rcases List.mem_cons.mp h with h | h
      · cases h; exact ⟨s, hs, rfl, rfl⟩
      · obtain ⟨f, _, hf⟩ := List.mem_map.mp h
        cases hf
    · cases h
  · rintro ⟨s, hs, rfl, rfl⟩
    refine ⟨name, ?_, by rw [hs]; exact List.mem_cons_self ..⟩
    rw [(srt.perm _).mem_iff]
    exact List.mem_map.mpr ⟨_, get_some_mem hs, rfl⟩

/-- What is declared if there is nothing to do afterwards. -/
theorem gen_closed {env : Env} {srt : Sorter strLt} {cfg : Config} {n : Nat} {I : THeap → Prop} (hI : FlattenOk cfg n I)
    {primaries deps : List Schema} {H : THeap} {r : THeap × Code × Config} (hpre : Untouched cfg H primaries) (hpost : cfg.postprocessType = none)
    (hhelp : ∀ k h, get cfg.helperTypes k = some h → ∀ x ∈ h.expr.uses, x ∈ predeclared)
    (hH : I H) (htext : TextKept H) (hown : OwnNames H) (htop : ∀ s ∈ primaries, ∀ e ∈ s.types, ∀ m, e.2 ≠ .link m)
    (h : gen env srt cfg n primaries deps H = .ok r) (srt' : Sorter strLt) : Closed (genAST srt' r.2.1).2 := by
  rw [gen_untouched hpre] at h
  obtain ⟨q, hq, h⟩ := bind_ok h
  split at h
  · cases h
  · rename_i hflag
    cases h
    have hspec := genSchemas_known hI _ H q hH htext hown (by
      intro types ht t htt
      obtain ⟨s, hs, rfl⟩ := List.mem_map.mp ht
      obtain ⟨e, he, rfl⟩ := List.mem_map.mp htt
      have := htop s hs e he
      cases he2 : e.2 with
      | link m => exact absurd he2 (this m)
      | _ => trivial) hq (by simpa using hflag)
    have hkey : ∀ x, (∃ s ∈ q.2.1, s.name = x) → ∃ v, get (finish srt cfg q.2.1).1 x = some v := by
      intro x hx
      simp only [finish, hpost]
      obtain ⟨v, hv⟩ := addHelpers_key ((declare q.2.1 []).flatMap fun e => e.2.helperTypes) _ cfg.helperTypes x (declare_key q.2.1 [] x (Or.inl hx))
      have := addAllFuncs_expr (srt.sort ((addHelpers ((declare q.2.1 []).flatMap fun e => e.2.helperTypes) (declare q.2.1 []) cfg.helperTypes).1.map (·.1)))
        (addHelpers ((declare q.2.1 []).flatMap fun e => e.2.helperTypes) (declare q.2.1 []) cfg.helperTypes).1 cfg.helperFuncs x
      rw [hv] at this
      obtain ⟨w, hw, _⟩ := Option.map_eq_some_iff.mp this
      exact ⟨w, hw⟩
    have hval : ∀ x v, get (finish srt cfg q.2.1).1 x = some v →
        (∃ s ∈ q.2.1, v.expr = s.expr) ∨ ∃ d h, get cfg.helperTypes d = some h ∧ v.expr = h.expr := by
      intro x v hv
      simp only [finish, hpost] at hv
      have := addAllFuncs_expr (srt.sort ((addHelpers ((declare q.2.1 []).flatMap fun e => e.2.helperTypes) (declare q.2.1 []) cfg.helperTypes).1.map (·.1)))
        (addHelpers ((declare q.2.1 []).flatMap fun e => e.2.helperTypes) (declare q.2.1 []) cfg.helperTypes).1 cfg.helperFuncs x
      rw [hv] at this
      obtain ⟨w, hw, hwe⟩ := Option.map_eq_some_iff.mp this.symm
      rcases addHelpers_some _ _ _ _ _ hw with h | ⟨d, h⟩
      · rcases declare_some _ _ _ _ h with ⟨h1, _⟩ | h
        · exact Or.inl ⟨w, h1, hwe.symm⟩
        · cases h
      · exact Or.inr ⟨d, w, h, hwe.symm⟩
    intro doc name e hmem x hx
    obtain ⟨s, hs, -, rfl⟩ := genAST_type.mp hmem
    rcases hval name s hs with ⟨s0, hs0, he⟩ | ⟨d, hlp, hd, he⟩
    · rw [he] at hx
      rcases hspec s0 hs0 x hx with h | h
      · exact Or.inl h
      · obtain ⟨v, hv⟩ := hkey x h
        exact Or.inr ⟨v.doc, v.expr, genAST_type.mpr ⟨v, hv, rfl, rfl⟩⟩
    · rw [he] at hx
      exact Or.inl (hhelp d hlp hd x hx)

/-! ### Types that are not recursive -/

theorem flattenOk_ranked (cfg : Config) (n : Nat) (rk : Nat → Nat) (hrk : ∀ a, rk a < 1001) :
    FlattenOk cfg n fun H => Linked H ∧ Ranked rk H where
  linked := fun _ h => h.1
  ext := fun _ _ h hH => ⟨h.linked hH.1, h.ranked hH.2⟩
  flow := by
    intro H t r hH ht h
    have hv : ∀ v, some t = some v → NotLink v := by intro v hv; cases hv; exact ht
    obtain ⟨f, _⟩ := flatten1_flow cfg n 1001 H _ r hH.1 hv h
    refine ⟨⟨f.linked hH.1, f.ranked hH.2⟩, ?_⟩
    intro j hj
    exact (flatten1_fits rk cfg n 1001 H _ r hH.1 hH.2 hv (fun id _ => hrk id) h j hj).1.mono pushed_left

end GoXml.Xsdgen
