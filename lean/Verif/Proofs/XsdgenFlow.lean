import Verif.Proofs.XsdgenFlatten
import Verif.Proofs.XsdgenSpec
import Verif.Proofs.XsdgenExpand
set_option autoImplicit false

/-! What `flatten1` may change, and what it makes of the types that it passes. -/

namespace GoXml.Xsdgen
open Xsd

/-- A type that is built in or one of those given. -/
def Cov (P : Nat → Prop) : Ty → Prop
  | .builtin _ => True
  | .obj j => P j
  | .link _ => False

theorem Cov.mono {P Q : Nat → Prop} (h : ∀ j, P j → Q j) {t : Ty} (ht : Cov P t) : Cov Q t := by
  cases t with
  | builtin _ => trivial
  | obj j => exact h j ht
  | link _ => cases ht

def NotLink : Ty → Prop
  | .link _ => False
  | _ => True

theorem Cov.notLink {P : Nat → Prop} {t : Ty} (h : Cov P t) : NotLink t := by cases t with
  | link _ => cases h
  | _ => trivial

/-- A built-in type or nil. -/
def Plain (b : Option Ty) : Prop := ∀ t, b = some t → ∃ x, t = .builtin x

/-- How the types of fields may change: to types that are given, and that the old type is derived from. -/
structure Types (H : THeap) (Q : Nat → Prop) (xs ys : List Ty) : Prop where
  len : ys.length = xs.length
  at_ : ∀ (i : Nat) t, ys[i]? = some t → xs[i]? = some t ∨
    (Cov Q t ∧ ∀ j, t = .obj j → ∃ y, xs[i]? = some (.obj y) ∧ Ancestor H (.obj y) (.obj j))

/-- An attribute without its type. -/
def untyped (a : XAttr) : XAttr := { a with type := .builtin AnyType }

/-- How an object may change. -/
def Change (H : THeap) (Q : Nat → Prop) : TObj → TObj → Prop
  | .simple s, .simple s' => s'.name = s.name ∧ (s'.base = s.base ∨ Plain s'.base) ∧ s'.list = s.list ∧ s'.union = s.union ∧ s'.restriction = s.restriction
  | .complex c, .complex c' => c'.name = c.name ∧ c'.mixed = c.mixed ∧
      Types H Q (c.elements.map (·.type)) (c'.elements.map (·.type)) ∧
      Types H Q (c.attributes.map (·.type)) (c'.attributes.map (·.type)) ∧
      c'.attributes.map untyped = c.attributes.map untyped ∧
      (c'.base = c.base ∨ ∃ t, c'.base = some t ∧ NotLink t ∧ (c.mixed = true → Cov Q t))
  | _, _ => False

/-- How the heap may change. -/
structure Flow (H H' : THeap) (Q : Nat → Prop) : Prop where
  len : H'.length = H.length
  change : ∀ (id : Nat) o', H'[id]? = some o' → ∃ o, H[id]? = some o ∧ Change H Q o o'
  bases : ∀ (id : Nat) t, baseOf H' (.obj id) = some t →
    t = .builtin AnyType ∨ ∃ b, baseOf H (.obj id) = some b ∧ Ancestor H b t

theorem Types.refl (H : THeap) (Q : Nat → Prop) (xs : List Ty) : Types H Q xs xs := ⟨rfl, fun _ _ h => Or.inl h⟩

theorem Change.refl (H : THeap) (Q : Nat → Prop) (o : TObj) : Change H Q o o := by
  cases o with
  | simple s => exact ⟨rfl, Or.inl rfl, rfl, rfl, rfl⟩
  | complex c => exact ⟨rfl, rfl, .refl .., .refl .., rfl, Or.inl rfl⟩

theorem Flow.refl (H : THeap) (Q : Nat → Prop) : Flow H H Q :=
  ⟨rfl, fun _ o' h => ⟨o', h, .refl ..⟩, fun _ t h => Or.inr ⟨t, h, .self _⟩⟩

theorem builtin_ancestor {H : THeap} {b : Builtin} {a : Ty} (h : Ancestor H (.builtin b) a) : a = .builtin b := by
  cases h with
  | self => rfl
  | base h _ => cases h

theorem ancestor_obj {H : THeap} {x : Ty} {j : Nat} (h : Ancestor H x (.obj j)) : ∃ k, x = .obj k := by
  cases x with
  | obj k => exact ⟨k, rfl⟩
  | builtin b => cases builtin_ancestor h
  | link n =>
    cases h with
    | base h _ => cases h

/-- Ancestors after a change were ancestors before. -/
theorem Flow.anc' {H H' : THeap} {Q : Nat → Prop} (h : Flow H H' Q) {x a : Ty} (ha : Ancestor H' x a) :
    a = .builtin AnyType ∨ Ancestor H x a := by
  induction ha with
  | self t => exact Or.inr (.self _)
  | @base t b a hb hr ih =>
    rcases ih with ih | ih
    · exact Or.inl ih
    · cases t with
      | builtin x => cases hb
      | link x => cases hb
      | obj id =>
        rcases h.bases _ _ hb with rfl | ⟨c, hc, h2⟩
        · exact Or.inl (builtin_ancestor ih)
        · exact Or.inr (.base hc (h2.trans ih))

theorem Flow.anc {H H' : THeap} {Q : Nat → Prop} (h : Flow H H' Q) {x a : Ty} (ha : Ancestor H' x a) (j : Nat) (hj : a = .obj j) :
    Ancestor H x a := by
  rcases h.anc' ha with rfl | h
  · cases hj
  · exact h

theorem Types.trans {H H' : THeap} {P Q R : Nat → Prop} (hP : ∀ j, P j → R j) (hQ : ∀ j, Q j → R j) (hf : Flow H H' P) {xs ys zs : List Ty}
    (h1 : Types H P xs ys) (h2 : Types H' Q ys zs) : Types H R xs zs := by
  refine ⟨h2.len.trans h1.len, fun i t ht => ?_⟩
  rcases h2.at_ i t ht with h | ⟨hc, ha⟩
  · rcases h1.at_ i t h with h | ⟨hc, ha⟩
    · exact Or.inl h
    · exact Or.inr ⟨hc.mono hP, ha⟩
  · refine Or.inr ⟨hc.mono hQ, fun j hj => ?_⟩
    obtain ⟨y, hy, hay⟩ := ha j hj
    have hay := hf.anc hay j rfl
    rcases h1.at_ i _ hy with h | ⟨_, ha'⟩
    · exact ⟨y, h, hay⟩
    · obtain ⟨y', hy', hay'⟩ := ha' y rfl
      exact ⟨y', hy', hay'.trans hay⟩

theorem Flow.trans {H H' H'' : THeap} {P Q R : Nat → Prop} (hP : ∀ j, P j → R j) (hQ : ∀ j, Q j → R j)
    (h1 : Flow H H' P) (h2 : Flow H' H'' Q) : Flow H H'' R := by
  refine ⟨h2.len.trans h1.len, ?_, ?_⟩
  · intro id o'' ho''
    obtain ⟨o', ho', c2⟩ := h2.change id o'' ho''
    obtain ⟨o, ho, c1⟩ := h1.change id o' ho'
    refine ⟨o, ho, ?_⟩
    cases o with
    | simple s =>
      cases o' with
      | complex _ => cases c1
      | simple s' =>
        cases o'' with
        | complex _ => cases c2
        | simple s'' =>
          refine ⟨c2.1.trans c1.1, ?_, c2.2.2.1.trans c1.2.2.1, c2.2.2.2.1.trans c1.2.2.2.1, c2.2.2.2.2.trans c1.2.2.2.2⟩
          rcases c2.2.1 with h | h
          · rcases c1.2.1 with h' | h'
            · exact Or.inl (h.trans h')
            · exact Or.inr (by rw [h]; exact h')
          · exact Or.inr h
    | complex c =>
      cases o' with
      | simple _ => cases c1
      | complex c' =>
        cases o'' with
        | simple _ => cases c2
        | complex c'' =>
          obtain ⟨a1, a2, a3, a4, a6, a5⟩ := c1
          obtain ⟨b1, b2, b3, b4, b6, b5⟩ := c2
          refine ⟨b1.trans a1, b2.trans a2, .trans hP hQ h1 a3 b3, .trans hP hQ h1 a4 b4, b6.trans a6, ?_⟩
          rcases b5 with h | ⟨t, h3, h4, h5⟩
          · rcases a5 with h' | ⟨t, h3, h4, h5⟩
            · exact Or.inl (h.trans h')
            · exact Or.inr ⟨t, h.trans h3, h4, fun hm => (h5 hm).mono hP⟩
          · exact Or.inr ⟨t, h3, h4, fun hm => (h5 (a2 ▸ hm)).mono hQ⟩
  · intro id t ht
    rcases h2.bases id t ht with h | ⟨b, hb, ha⟩
    · exact Or.inl h
    · rcases h1.anc' ha with h | ha
      · exact Or.inl h
      · rcases h1.bases id b hb with rfl | ⟨b', hb', ha'⟩
        · exact Or.inl (builtin_ancestor ha)
        · exact Or.inr ⟨b', hb', ha'.trans ha⟩

theorem Flow.mono {H H' : THeap} {P R : Nat → Prop} (h : Flow H H' P) (hP : ∀ j, P j → R j) : Flow H H' R :=
  h.trans hP (fun _ h => h) (.refl H' R)

/-! ### Local conditions -/

/-- The types that the declaration of an object uses are built in or among those given. -/
def Local (P : Nat → Prop) : TObj → Prop
  | .simple s => Plain s.base
  | .complex c => (∀ e ∈ c.elements, Cov P e.type) ∧ (∀ a ∈ c.attributes, Cov P a.type) ∧
      ∀ t, c.base = some t → NotLink t ∧ (c.mixed = true → Cov P t)

def LocalAt (H : THeap) (P : Nat → Prop) (id : Nat) : Prop := ∃ o, H[id]? = some o ∧ Local P o

theorem Types.cov {H : THeap} {P Q R : Nat → Prop} (hP : ∀ j, P j → R j) (hQ : ∀ j, Q j → R j) {xs ys : List Ty}
    (h : Types H Q xs ys) (hx : ∀ t ∈ xs, Cov P t) : ∀ t ∈ ys, Cov R t := by
  intro t ht
  obtain ⟨i, hi⟩ := List.mem_iff_getElem?.mp ht
  rcases h.at_ i t hi with h | ⟨h, _⟩
  · exact (hx t (List.mem_of_getElem? h)).mono hP
  · exact h.mono hQ

theorem Change.loc {H : THeap} {P Q R : Nat → Prop} (hP : ∀ j, P j → R j) (hQ : ∀ j, Q j → R j) {o o' : TObj}
    (h : Change H Q o o') (hl : Local P o) : Local R o' := by
  cases o with
  | simple s =>
    cases o' with
    | complex _ => cases h
    | simple s' =>
      rcases h.2 with h | h
      · show Plain s'.base
        rw [h]; exact hl
      · exact h
  | complex c =>
    cases o' with
    | simple _ => cases h
    | complex c' =>
      obtain ⟨a1, a2, a3, a4, _, a5⟩ := h
      obtain ⟨l1, l2, l3⟩ := hl
      refine ⟨?_, ?_, ?_⟩
      · have := a3.cov hP hQ (by simpa using l1)
        simpa using this
      · have := a4.cov hP hQ (by simpa using l2)
        simpa using this
      · intro t ht
        rcases a5 with h | ⟨u, h3, h4, h5⟩
        · rw [h] at ht
          exact ⟨(l3 t ht).1, fun hm => ((l3 t ht).2 (a2 ▸ hm)).mono hP⟩
        · rw [h3] at ht
          cases ht
          exact ⟨h4, fun hm => (h5 (a2 ▸ hm)).mono hQ⟩

theorem Flow.get {H H' : THeap} {Q : Nat → Prop} (h : Flow H H' Q) {id : Nat} {o : TObj} (ho : H[id]? = some o) :
    ∃ o', H'[id]? = some o' ∧ Change H Q o o' := by
  have hlt := (List.getElem?_eq_some_iff.mp ho).1
  have hlt' : id < H'.length := by rw [h.len]; exact hlt
  obtain ⟨o2, ho2, hc⟩ := h.change id _ (List.getElem?_eq_getElem hlt')
  rw [ho] at ho2
  cases ho2
  exact ⟨_, List.getElem?_eq_getElem hlt', hc⟩

theorem Flow.loc {H H' : THeap} {P Q R : Nat → Prop} (hP : ∀ j, P j → R j) (hQ : ∀ j, Q j → R j) (h : Flow H H' Q) {id : Nat}
    (hl : LocalAt H P id) : LocalAt H' R id := by
  obtain ⟨o, ho, hl⟩ := hl
  obtain ⟨o', ho', hc⟩ := h.get ho
  exact ⟨o', ho', hc.loc hP hQ hl⟩

/-- The object and all that it is derived from. -/
def Fit (H : THeap) (P : Nat → Prop) (id : Nat) : Prop := ∀ a, Ancestor H (.obj id) (.obj a) → LocalAt H P a

theorem Flow.fit {H H' : THeap} {P Q R : Nat → Prop} (hP : ∀ j, P j → R j) (hQ : ∀ j, Q j → R j) (h : Flow H H' Q) {id : Nat}
    (hl : Fit H P id) : Fit H' R id := fun a ha => h.loc hP hQ (hl a (h.anc ha a rfl))

theorem Fit.mono {H : THeap} {P R : Nat → Prop} (hP : ∀ j, P j → R j) {id : Nat} (hl : Fit H P id) : Fit H R id :=
  (Flow.refl H R).fit hP (fun _ h => h) hl

/-! ### Unresolved names -/

/-- No field is of an unresolved type, and no complex type is derived from one. -/
def Linked (H : THeap) : Prop := ∀ (id : Nat) c, H[id]? = some (.complex c) →
  (∀ e ∈ c.elements, NotLink e.type) ∧ (∀ a ∈ c.attributes, NotLink a.type) ∧ ∀ t, c.base = some t → NotLink t

theorem Types.linked {H : THeap} {Q : Nat → Prop} {xs ys : List Ty} (h : Types H Q xs ys) (hx : ∀ t ∈ xs, NotLink t) :
    ∀ t ∈ ys, NotLink t := by
  intro t ht
  obtain ⟨i, hi⟩ := List.mem_iff_getElem?.mp ht
  rcases h.at_ i t hi with h | ⟨h, _⟩
  · exact hx t (List.mem_of_getElem? h)
  · exact h.notLink

theorem Flow.linked {H H' : THeap} {Q : Nat → Prop} (h : Flow H H' Q) (hl : Linked H) : Linked H' := by
  intro id c' hc'
  obtain ⟨o, ho, hch⟩ := h.change id _ hc'
  cases o with
  | simple _ => cases hch
  | complex c =>
    obtain ⟨a1, a2, a3, a4, _, a5⟩ := hch
    obtain ⟨l1, l2, l3⟩ := hl id c ho
    refine ⟨?_, ?_, ?_⟩
    · simpa using a3.linked (by simpa using l1)
    · simpa using a4.linked (by simpa using l2)
    · intro t ht
      rcases a5 with h | ⟨u, h3, h4, _⟩
      · rw [h] at ht; exact l3 t ht
      · rw [h3] at ht; cases ht; exact h4

/-! ### Assignments -/

theorem map_type_modify {α : Type} (l : List α) (i : Nat) (ty : α → Ty) (f : α → α) (k : Nat) :
    ((l.modify i f).map ty)[k]? = if i = k then (l[k]?).map fun x => ty (f x) else (l.map ty)[k]? := by
  rw [List.getElem?_map, List.getElem?_modify, List.getElem?_map]
  by_cases h : i = k
  · simp [h, Option.map_map, Function.comp_def]
  · simp [h]

theorem map_untyped_modify : ∀ (l : List XAttr) (i : Nat) (t : Ty),
    (l.modify i fun e => { e with type := t }).map untyped = l.map untyped := by
  intro l
  induction l with
  | nil => intro i t; cases i <;> rfl
  | cons a l ih =>
    intro i t
    cases i with
    | zero => rfl
    | succ i => simp only [List.modify_succ_cons, List.map_cons, ih]

theorem Types.set {H : THeap} {Q : Nat → Prop} {α : Type} {xs : List Ty} {l : List α} {ty : α → Ty} {f : α → α} {t : Ty}
    (hf : ∀ x, ty (f x) = t) (h : Types H Q xs (l.map ty)) (i : Nat) (hc : Cov Q t)
    (ha : ∀ j, t = .obj j → ∃ y, xs[i]? = some (.obj y) ∧ Ancestor H (.obj y) (.obj j)) :
    Types H Q xs ((l.modify i f).map ty) := by
  refine ⟨by simpa using h.len, fun k u hu => ?_⟩
  rw [map_type_modify] at hu
  by_cases e : i = k
  · subst e
    simp only [if_true, hf] at hu
    obtain ⟨_, _, rfl⟩ := Option.map_eq_some_iff.mp hu
    exact Or.inr ⟨hc, ha⟩
  · simp only [e, if_false] at hu
    exact h.at_ k u hu

/-- An object is replaced after a change. -/
theorem Flow.put {H G : THeap} {Q : Nat → Prop} (h : Flow H G Q) {id : Nat} {o o' : TObj} (ho : H[id]? = some o)
    (hc : Change H Q o o')
    (hb : ∀ t, o'.base = some t → t = .builtin AnyType ∨ ∃ b, baseOf H (.obj id) = some b ∧ Ancestor H b t) : Flow H (G.set id o') Q := by
  have hlt : id < G.length := by rw [h.len]; exact (List.getElem?_eq_some_iff.mp ho).1
  refine ⟨by simpa using h.len, ?_, ?_⟩
  · intro k p hp
    by_cases e : id = k
    · subst e
      rw [List.getElem?_set_self hlt] at hp
      cases hp
      exact ⟨o, ho, hc⟩
    · rw [List.getElem?_set_ne e] at hp
      exact h.change k p hp
  · intro k j hj
    by_cases e : id = k
    · subst e
      simp only [baseOf, List.getElem?_set_self hlt] at hj
      exact hb j hj
    · simp only [baseOf, List.getElem?_set_ne e] at hj
      exact h.bases k j hj

theorem Flow.setElem {H G : THeap} {Q : Nat → Prop} (h : Flow H G Q) (id i : Nat) (t : Ty) (hc : Cov Q t)
    (ha : ∀ j, t = .obj j → ∃ y, elemType H id i = some (.obj y) ∧ Ancestor H (.obj y) (.obj j)) : Flow H (setElemType G id i t) Q := by
  unfold setElemType
  split
  · rename_i c' hc'
    obtain ⟨o, ho, hch⟩ := h.change id _ hc'
    cases o with
    | simple _ => cases hch
    | complex c =>
      obtain ⟨a1, a2, a3, a4, a6, a5⟩ := hch
      refine h.put ho ⟨a1, a2, a3.set (f := fun e => { e with type := t }) (fun _ => rfl) i hc ?_, a4, a6, a5⟩ ?_
      · intro j hj
        obtain ⟨y, hy, hay⟩ := ha j hj
        refine ⟨y, ?_, hay⟩
        simpa only [elemType, ho, List.getElem?_map] using hy
      · intro j hj
        refine h.bases id j ?_
        simpa only [baseOf, hc', TObj.base] using hj
  · exact h

theorem Flow.setAttr {H G : THeap} {Q : Nat → Prop} (h : Flow H G Q) (id i : Nat) (t : Ty) (hc : Cov Q t)
    (ha : ∀ j, t = .obj j → ∃ y, attrType H id i = some (.obj y) ∧ Ancestor H (.obj y) (.obj j)) : Flow H (setAttrType G id i t) Q := by
  unfold setAttrType
  split
  · rename_i c' hc'
    obtain ⟨o, ho, hch⟩ := h.change id _ hc'
    cases o with
    | simple _ => cases hch
    | complex c =>
      obtain ⟨a1, a2, a3, a4, a6, a5⟩ := hch
      refine h.put ho ⟨a1, a2, a3, a4.set (f := fun e => { e with type := t }) (fun _ => rfl) i hc ?_, ?_, a5⟩ ?_
      · intro j hj
        obtain ⟨y, hy, hay⟩ := ha j hj
        refine ⟨y, ?_, hay⟩
        simpa only [attrType, ho, List.getElem?_map] using hy
      · rw [← a6]
        exact map_untyped_modify c'.attributes i t
      · intro j hj
        refine h.bases id j ?_
        simpa only [baseOf, hc', TObj.base] using hj
  · exact h

theorem Flow.setBase {H G : THeap} {Q : Nat → Prop} (h : Flow H G Q) (id : Nat) (t : Ty) (hn : NotLink t)
    (hc : ∀ c, H[id]? = some (.complex c) → c.mixed = true → Cov Q t)
    (ha : t = .builtin AnyType ∨ ∃ b, baseOf H (.obj id) = some b ∧ Ancestor H b t) : Flow H (setComplexBase G id t) Q := by
  unfold setComplexBase
  split
  · rename_i c' hc'
    obtain ⟨o, ho, hch⟩ := h.change id _ hc'
    cases o with
    | simple _ => cases hch
    | complex c =>
      obtain ⟨a1, a2, a3, a4, a6, a5⟩ := hch
      refine h.put ho ⟨a1, a2, a3, a4, a6, Or.inr ⟨t, rfl, hn, hc c ho⟩⟩ ?_
      intro u hu
      cases hu
      exact ha
  · exact h

/-! ### Simple types -/

theorem baseChain_obj {H : THeap} : ∀ {n : Nat} {o : Option Builtin} {b : Option Ty} {r : List Ty × Option Builtin},
    baseChain H n o b = .ok r → ∀ j, Ty.obj j ∈ r.1 → ∃ t, b = some t ∧ Ancestor H t (.obj j) := by
  intro n
  induction n with
  | zero => intro o b r h; cases h
  | succ n ih =>
    intro o b r h j hj
    cases b with
    | none => simp only [baseChain, Run.ok.injEq] at h; subst h; cases hj
    | some t =>
      have step : (baseChain H n (some AnyType) (baseOf H t)).bind (fun r => .ok (t :: r.1, r.2)) = .ok r →
          ∃ t', some t = some t' ∧ Ancestor H t' (.obj j) := by
        intro h
        obtain ⟨q, hq, h⟩ := bind_ok h
        cases h
        refine ⟨t, rfl, ?_⟩
        rcases List.mem_cons.mp hj with e | hj
        · rw [← e]; exact .self _
        · obtain ⟨u, hu, ha⟩ := ih hq j hj
          exact .base hu ha
      cases t with
      | builtin x => simp only [baseChain, Run.ok.injEq] at h; subst h; cases hj
      | obj x => exact step h
      | link x => exact step h

theorem baseChain_end {H : THeap} : ∀ {n : Nat} {o : Option Builtin} {b : Option Ty} {r : List Ty × Option Builtin},
    baseChain H n o b = .ok r → ∀ x, r.2 = some x → o = some x ∨ x = AnyType ∨ ∃ t, b = some t ∧ Ancestor H t (.builtin x) := by
  intro n
  induction n with
  | zero => intro o b r h; cases h
  | succ n ih =>
    intro o b r h x hx
    cases b with
    | none => simp only [baseChain, Run.ok.injEq] at h; subst h; exact Or.inl hx
    | some t =>
      have step : (baseChain H n (some AnyType) (baseOf H t)).bind (fun r => .ok (t :: r.1, r.2)) = .ok r →
          o = some x ∨ x = AnyType ∨ ∃ t', some t = some t' ∧ Ancestor H t' (.builtin x) := by
        intro h
        obtain ⟨q, hq, h⟩ := bind_ok h
        cases h
        rcases ih hq x hx with h | h | ⟨u, hu, ha⟩
        · cases h; exact Or.inr (Or.inl rfl)
        · exact Or.inr (Or.inl h)
        · exact Or.inr (Or.inr ⟨t, rfl, .base hu ha⟩)
      cases t with
      | builtin y =>
        simp only [baseChain, Run.ok.injEq] at h; subst h; cases hx
        exact Or.inr (Or.inr ⟨_, rfl, .self _⟩)
      | obj y => exact step h
      | link y => exact step h

theorem baseChain_mem {H : THeap} : ∀ {n : Nat} {o : Option Builtin} {b : Option Ty} {r : List Ty × Option Builtin},
    baseChain H n o b = .ok r → ∀ j, Ty.obj j ∈ r.1 → ∀ x, r.2 = some x →
      x = AnyType ∨ ∃ t, baseOf H (.obj j) = some t ∧ Ancestor H t (.builtin x) := by
  intro n
  induction n with
  | zero => intro o b r h; cases h
  | succ n ih =>
    intro o b r h j hj x hx
    cases b with
    | none => simp only [baseChain, Run.ok.injEq] at h; subst h; cases hj
    | some t =>
      have step : (baseChain H n (some AnyType) (baseOf H t)).bind (fun r => .ok (t :: r.1, r.2)) = .ok r →
          x = AnyType ∨ ∃ t, baseOf H (.obj j) = some t ∧ Ancestor H t (.builtin x) := by
        intro h
        obtain ⟨q, hq, h⟩ := bind_ok h
        cases h
        rcases List.mem_cons.mp hj with e | hj
        · rw [e]
          rcases baseChain_end hq x hx with h | h | h
          · cases h; exact Or.inl rfl
          · exact Or.inl h
          · exact Or.inr h
        · exact ih hq j hj x hx
      cases t with
      | builtin y => simp only [baseChain, Run.ok.injEq] at h; subst h; cases hj
      | obj y => exact step h
      | link y => exact step h

/-- What `flatten1` does to a simple type. -/
theorem flattenSimple_spec {n : Nat} {H : THeap} {id : Nat} {s : SimpleT} {r : Flat} (hs : H[id]? = some (.simple s))
    (h : flattenSimple n H id s = .ok r) :
    (∀ Q, Flow H r.1 Q) ∧ (∀ j, (j = id ∨ Ty.obj j ∈ r.2.1) → ∃ s', r.1[j]? = some (.simple s') ∧ Plain s'.base) ∧
    (r.2.2 = some (.obj id) ∨ (Plain r.2.2 ∧
      ∀ v, r.2.2 = some v → v = .builtin AnyType ∨ ∃ t, baseOf H (.obj id) = some t ∧ Ancestor H t v)) := by
  obtain ⟨q, hq, h⟩ := bind_ok h
  have hplain : Plain (q.2.map Ty.builtin) := by
    intro t ht
    obtain ⟨x, _, rfl⟩ := Option.map_eq_some_iff.mp ht
    exact ⟨x, rfl⟩
  have hfrom : ∀ j, (j = id ∨ Ty.obj j ∈ q.1.filter (isSimple H)) → ∀ t, q.2.map Ty.builtin = some t →
      t = .builtin AnyType ∨ ∃ t', baseOf H (.obj j) = some t' ∧ Ancestor H t' t := by
    intro j hj t ht
    obtain ⟨x, hx, rfl⟩ := Option.map_eq_some_iff.mp ht
    rcases hj with rfl | hj
    · rcases baseChain_end hq x hx with h | h | h
      · cases h
      · exact Or.inl (by rw [h])
      · refine Or.inr ?_
        simp only [baseOf, hs, TObj.base]
        exact h
    · rcases baseChain_mem hq j (List.mem_filter.mp hj).1 x hx with h | h
      · exact Or.inl (by rw [h])
      · exact Or.inr h
  generalize hb : q.2.map Ty.builtin = b at h hplain hfrom
  have hget : ∀ (j : Nat), (setSimpleBase b ((q.1.filter (isSimple H)).foldl (setSimpleBase b) H) (.obj id))[j]? =
      match H[j]? with
      | some (.simple t) => some (.simple (if j = id ∨ Ty.obj j ∈ q.1.filter (isSimple H) then { t with base := b } else t))
      | o => o := by
    intro j
    rw [setSimpleBase_get, foldl_setSimpleBase]
    cases h : H[j]? with
    | none => rfl
    | some o =>
      cases o with
      | complex c => rfl
      | simple t =>
        by_cases h1 : id = j
        · subst h1; by_cases h2 : Ty.obj id ∈ q.1.filter (isSimple H) <;> simp [h2]
        · have h1' : ¬ j = id := fun h => h1 h.symm
          simp [h1, h1']
  have hlen : (setSimpleBase b ((q.1.filter (isSimple H)).foldl (setSimpleBase b) H) (.obj id)).length = H.length := by
    rw [setSimpleBase_length, foldl_setSimpleBase_length]
  generalize hG : setSimpleBase b ((q.1.filter (isSimple H)).foldl (setSimpleBase b) H) (.obj id) = G at h hget hlen
  have hflow : ∀ Q, Flow H G Q := by
    intro Q
    refine ⟨hlen, ?_, ?_⟩
    · intro j o' ho'
      rw [hget] at ho'
      cases hj : H[j]? with
      | none => rw [hj] at ho'; cases ho'
      | some o =>
        rw [hj] at ho'
        refine ⟨o, rfl, ?_⟩
        cases o with
        | complex c => cases ho'; exact .refl ..
        | simple t =>
          cases ho'
          by_cases e : j = id ∨ Ty.obj j ∈ q.1.filter (isSimple H)
          · rw [if_pos e]; exact ⟨rfl, Or.inr hplain, rfl, rfl, rfl⟩
          · rw [if_neg e]; exact .refl ..
    · intro j k hk
      simp only [baseOf, hget] at hk
      cases hj : H[j]? with
      | none => rw [hj] at hk; cases hk
      | some o =>
        rw [hj] at hk
        cases o with
        | complex c => exact Or.inr ⟨k, by simp only [baseOf, hj]; exact hk, .self _⟩
        | simple t =>
          simp only [TObj.base] at hk
          by_cases e : j = id ∨ Ty.obj j ∈ q.1.filter (isSimple H)
          · rw [if_pos e] at hk
            exact hfrom j e k hk
          · rw [if_neg e] at hk
            exact Or.inr ⟨k, by simp only [baseOf, hj]; exact hk, .self _⟩
  have hpush : ∀ (j : Nat), (j = id ∨ Ty.obj j ∈ q.1.filter (isSimple H)) → ∃ s', G[j]? = some (.simple s') ∧ Plain s'.base := by
    intro j hj
    have : ∃ t, H[j]? = some (.simple t) := by
      rcases hj with rfl | hj
      · exact ⟨s, hs⟩
      · have := (List.mem_filter.mp hj).2
        simp only [isSimple] at this
        split at this
        · rename_i t ht; exact ⟨t, ht⟩
        · cases this
    obtain ⟨t, ht⟩ := this
    refine ⟨_, by rw [hget, ht], ?_⟩
    rw [if_pos hj]
    exact hplain
  have hlt : id < G.length := by rw [hlen]; exact (List.getElem?_eq_some_iff.mp hs).1
  dsimp only at h
  rw [hG] at h
  split at h
  · cases h
    exact ⟨hflow, hpush, Or.inl rfl⟩
  · split at h
    · rename_i d _
      cases h
      refine ⟨fun Q => (hflow Q).put hs ⟨rfl, Or.inr hplain, rfl, rfl, rfl⟩ ?_, ?_, Or.inl rfl⟩
      · exact fun t ht => hfrom id (Or.inl rfl) t ht
      · intro j hj
        by_cases e : id = j
        · subst e
          exact ⟨_, List.getElem?_set_self hlt, hplain⟩
        · show ∃ s', (G.set id _)[j]? = _ ∧ _
          rw [List.getElem?_set_ne e]
          exact hpush j hj
    · cases h
      exact ⟨hflow, hpush, Or.inr ⟨hplain, fun t ht => hfrom id (Or.inl rfl) t ht⟩⟩

/-! ### flatten1 -/

/-- The result is the type itself, one that it is derived from, or built in. -/
def ResOk (H : THeap) (t : Option Ty) (u : Option Ty) : Prop :=
  ∀ v, u = some v → NotLink v ∧ (v = .builtin AnyType ∨ ∃ y, t = some y ∧ Ancestor H y v)

theorem ResOk.obj {H : THeap} {t : Option Ty} {v : Ty} (h : v = .builtin AnyType ∨ ∃ y, t = some y ∧ Ancestor H y v) (j : Nat) (hj : v = .obj j) :
    ∃ id, t = some (.obj id) ∧ Ancestor H (.obj id) (.obj j) := by
  subst hj
  rcases h with h | ⟨y, hy, ha⟩
  · cases h
  · obtain ⟨k, rfl⟩ := ancestor_obj ha
    exact ⟨k, hy, ha⟩

def Pushed (l : List Ty) (j : Nat) : Prop := Ty.obj j ∈ l

theorem pushed_left {l l' : List Ty} (j : Nat) (h : Pushed l j) : Pushed (l ++ l') j := List.mem_append_left _ h
theorem pushed_right {l l' : List Ty} (j : Nat) (h : Pushed l' j) : Pushed (l ++ l') j := List.mem_append_right _ h

theorem cov_of_mem {l : List Ty} {t : Ty} (hm : t ∈ l) (hn : NotLink t) : Cov (Pushed l) t := by
  cases t with
  | builtin _ => trivial
  | obj j => exact hm
  | link _ => cases hn

/-- What is needed of the functions that read and write the fields of an object. -/
structure Access (get : THeap → Nat → Option Ty) (set : THeap → Nat → Ty → THeap) : Prop where
  linked : ∀ H i t, Linked H → get H i = some t → NotLink t
  put : ∀ H G Q i t, Flow H G Q → Cov Q t → (∀ j, t = .obj j → ∃ y, get H i = some (.obj y) ∧ Ancestor H (.obj y) (.obj j)) →
    Flow H (set G i t) Q
  self : ∀ H i t u, get (set H i t) i = some u → u = t
  flow : ∀ H G Q i u, Flow H G Q → get G i = some u → get H i = some u ∨ Cov Q u

theorem access_elem (id : Nat) : Access (fun H i => elemType H id i) (fun H i t => setElemType H id i t) where
  linked := by
    intro H i t hl h
    simp only [elemType] at h
    split at h
    · rename_i c hc
      obtain ⟨e, he, rfl⟩ := Option.map_eq_some_iff.mp h
      exact (hl id c hc).1 e (List.mem_of_getElem? he)
    · cases h
  put := fun _ _ _ i t h hc ha => h.setElem id i t hc ha
  self := by
    intro H i t u h
    simp only [elemType, setElemType] at h
    cases ho : H[id]? with
    | none => simp [ho] at h
    | some o =>
      cases o with
      | simple s => simp [ho] at h
      | complex c =>
        have hlt := (List.getElem?_eq_some_iff.mp ho).1
        simp only [ho, List.getElem?_set_self hlt, ← List.getElem?_map, map_type_modify, if_true] at h
        rw [List.getElem?_map] at h
        obtain ⟨_, _, rfl⟩ := Option.map_eq_some_iff.mp h
        rfl
  flow := by
    intro H G Q i u hf h
    simp only [elemType] at h ⊢
    cases ho : G[id]? with
    | none => simp [ho] at h
    | some o' =>
      cases o' with
      | simple s => simp [ho] at h
      | complex c' =>
        obtain ⟨o, ho', hch⟩ := hf.change id _ ho
        cases o with
        | simple _ => cases hch
        | complex c =>
          simp only [ho, ho', ← List.getElem?_map] at h ⊢
          rcases hch.2.2.1.at_ i u h with h | h
          · exact Or.inl h
          · exact Or.inr h.1

theorem access_attr (id : Nat) : Access (fun H i => attrType H id i) (fun H i t => setAttrType H id i t) where
  linked := by
    intro H i t hl h
    simp only [attrType] at h
    split at h
    · rename_i c hc
      obtain ⟨e, he, rfl⟩ := Option.map_eq_some_iff.mp h
      exact (hl id c hc).2.1 e (List.mem_of_getElem? he)
    · cases h
  put := fun _ _ _ i t h hc ha => h.setAttr id i t hc ha
  self := by
    intro H i t u h
    simp only [attrType, setAttrType] at h
    cases ho : H[id]? with
    | none => simp [ho] at h
    | some o =>
      cases o with
      | simple s => simp [ho] at h
      | complex c =>
        have hlt := (List.getElem?_eq_some_iff.mp ho).1
        simp only [ho, List.getElem?_set_self hlt, ← List.getElem?_map, map_type_modify, if_true] at h
        rw [List.getElem?_map] at h
        obtain ⟨_, _, rfl⟩ := Option.map_eq_some_iff.mp h
        rfl
  flow := by
    intro H G Q i u hf h
    simp only [attrType] at h ⊢
    cases ho : G[id]? with
    | none => simp [ho] at h
    | some o' =>
      cases o' with
      | simple s => simp [ho] at h
      | complex c' =>
        obtain ⟨o, ho', hch⟩ := hf.change id _ ho
        cases o with
        | simple _ => cases hch
        | complex c =>
          simp only [ho, ho', ← List.getElem?_map] at h ⊢
          rcases hch.2.2.2.1.at_ i u h with h | h
          · exact Or.inl h
          · exact Or.inr h.1

/-- What a call of `flatten1` does. -/
def Flows (recur : THeap → Option Ty → Run Flat) : Prop :=
  ∀ H t r, Linked H → (∀ v, t = some v → NotLink v) → recur H t = .ok r → Flow H r.1 (Pushed r.2.1) ∧ ResOk H t r.2.2

theorem fieldLoop_flow {recur : THeap → Option Ty → Run Flat} {get : THeap → Nat → Option Ty} {set : THeap → Nat → Ty → THeap}
    (hrec : Flows recur) (hacc : Access get set) : ∀ (is : List Nat) (H : THeap) (r : THeap × List Ty), Linked H →
      fieldLoop recur get set is H = .ok r →
      Flow H r.1 (Pushed r.2) ∧ ∀ i ∈ is, ∀ u, get r.1 i = some u → Cov (Pushed r.2) u := by
  intro is
  induction is with
  | nil =>
    intro H r hl h
    cases h
    exact ⟨.refl .., by simp⟩
  | cons i is ih =>
    intro H r hl h
    obtain ⟨q, hq, h⟩ := bind_ok h
    obtain ⟨k1, k2⟩ := hrec H _ q hl (fun v hv => hacc.linked H i v hl hv) hq
    obtain ⟨q1, q2, q3⟩ := q
    cases q3 with
    | none => cases h
    | some t =>
      obtain ⟨p, hp, h⟩ := bind_ok h
      cases h
      obtain ⟨hn, ha⟩ := k2 t rfl
      have hcov : Cov (Pushed (q2 ++ [t])) t := cov_of_mem (by simp) hn
      have f1 : Flow H (set q1 i t) (Pushed (q2 ++ [t])) := hacc.put _ _ _ i t (k1.mono pushed_left) hcov (ResOk.obj ha)
      obtain ⟨f2, c2⟩ := ih _ _ (f1.linked hl) hp
      have e : q2 ++ t :: p.2 = (q2 ++ [t]) ++ p.2 := by simp
      show Flow H p.1 (Pushed (q2 ++ t :: p.2)) ∧ _
      rw [e]
      refine ⟨f1.trans pushed_left pushed_right f2, ?_⟩
      intro k hk u hu
      show Cov (Pushed (q2 ++ [t] ++ p.2)) u
      rcases List.mem_cons.mp hk with rfl | hk
      · rcases hacc.flow _ _ _ k u f2 hu with h | h
        · rw [hacc.self _ _ _ _ h]; exact hcov.mono pushed_left
        · exact h.mono pushed_right
      · exact (c2 k hk u hu).mono pushed_right

/-- A complex type that is not unpacked. -/
theorem flattenComplex_flow {recur : THeap → Option Ty → Run Flat} (hrec : Flows recur) {H : THeap} {id : Nat} {c : ComplexT} {r : Flat}
    (hl : Linked H) (hc : H[id]? = some (.complex c)) (h : flattenComplex recur H id c = .ok r) :
    Flow H r.1 (Pushed r.2.1) ∧ r.2.2 = some (.obj id) ∧ LocalAt r.1 (Pushed r.2.1) id := by
  obtain ⟨e, he, h⟩ := bind_ok h
  obtain ⟨a, ha, h⟩ := bind_ok h
  obtain ⟨b, hb, h⟩ := bind_ok h
  obtain ⟨f1, c1⟩ := fieldLoop_flow hrec (access_elem id) _ _ _ hl he
  obtain ⟨f2, c2⟩ := fieldLoop_flow hrec (access_attr id) _ _ _ (f1.linked hl) ha
  have hl2 := f2.linked (f1.linked hl)
  have hbl : ∀ v, baseOf a.1 (.obj id) = some v → NotLink v := by
    intro v hv
    obtain ⟨o1, ho1, g1⟩ := f1.get hc
    cases o1 with
    | simple _ => cases g1
    | complex x1 =>
      obtain ⟨o2, ho2, g2⟩ := f2.get ho1
      cases o2 with
      | simple _ => cases g2
      | complex x2 =>
        simp only [baseOf, ho2, TObj.base] at hv
        exact (hl2 id x2 ho2).2.2 v hv
  obtain ⟨f3, r3⟩ := hrec a.1 _ b hl2 hbl hb
  obtain ⟨b1, b2, b3⟩ := b
  cases b3 with
  | none => cases h
  | some t =>
    cases h
    obtain ⟨hn, hanc⟩ := r3 t rfl
    -- what holds after all calls
    have f12 : Flow H a.1 (Pushed (e.2 ++ a.2)) := f1.trans pushed_left pushed_right f2
    have hmix : ∀ x, a.1[id]? = some (.complex x) → x.mixed = c.mixed := by
      intro x hx
      obtain ⟨o, ho, g⟩ := f12.change id _ hx
      rw [hc] at ho
      cases ho
      exact g.2.1
    have f3' : Flow a.1 (setComplexBase b1 id t) (Pushed (b2 ++ if c.mixed then [t] else [])) := by
      refine (f3.mono pushed_left).setBase id t hn ?_ ?_
      · intro x hx hm
        rw [hmix x hx] at hm
        exact cov_of_mem (by simp [hm]) hn
      · exact hanc
    have fall : Flow H (setComplexBase b1 id t) (Pushed (e.2 ++ a.2 ++ b2 ++ if c.mixed then [t] else [])) := by
      rw [List.append_assoc (e.2 ++ a.2)]
      exact f12.trans pushed_left pushed_right f3'
    refine ⟨fall, rfl, ?_⟩
    obtain ⟨o', ho', g⟩ := fall.get hc
    cases o' with
    | simple _ => cases g
    | complex c' =>
      obtain ⟨g1, g2, g3, g4, _, g5⟩ := g
      refine ⟨_, ho', ?_, ?_, ?_⟩
      · intro el hel
        obtain ⟨i, hi⟩ := List.mem_iff_getElem?.mp hel
        have hlen : i < c.elements.length := by
          have := (List.getElem?_eq_some_iff.mp hi).1
          have e := g3.len
          simp only [List.length_map] at e
          omega
        have f23 : Flow e.1 (setComplexBase b1 id t) (Pushed (a.2 ++ (b2 ++ if c.mixed then [t] else []))) :=
          f2.trans pushed_left pushed_right f3'
        have hu : elemType (setComplexBase b1 id t) id i = some el.type := by simp only [elemType, ho', hi, Option.map_some]
        rcases (access_elem id).flow _ _ _ i _ f23 hu with h | h
        · refine (c1 i (List.mem_range.mpr hlen) _ h).mono ?_
          intro j hj
          exact pushed_left j (pushed_left j (pushed_left j hj))
        · refine h.mono ?_
          intro j hj
          simp only [Pushed, List.mem_append] at hj ⊢
          tauto
      · intro el hel
        obtain ⟨i, hi⟩ := List.mem_iff_getElem?.mp hel
        have hlen : i < c.attributes.length := by
          have := (List.getElem?_eq_some_iff.mp hi).1
          have e := g4.len
          simp only [List.length_map] at e
          omega
        have hu : attrType (setComplexBase b1 id t) id i = some el.type := by simp only [attrType, ho', hi, Option.map_some]
        rcases (access_attr id).flow _ _ _ i _ f3' hu with h | h
        · refine (c2 i (List.mem_range.mpr hlen) _ h).mono ?_
          intro j hj
          simp only [Pushed, List.mem_append] at hj ⊢
          tauto
        · refine h.mono ?_
          intro j hj
          simp only [Pushed, List.mem_append] at hj ⊢
          tauto
      · intro u hu
        have hb1 : ∃ x, b1[id]? = some (.complex x) := by
          obtain ⟨o2, ho2, g2⟩ := f12.get hc
          cases o2 with
          | simple _ => cases g2
          | complex x2 =>
            obtain ⟨o3, ho3, g3⟩ := f3.get ho2
            cases o3 with
            | simple _ => cases g3
            | complex x3 => exact ⟨x3, ho3⟩
        obtain ⟨x, hx⟩ := hb1
        have hlt := (List.getElem?_eq_some_iff.mp hx).1
        simp only [setComplexBase, hx, List.getElem?_set_self hlt] at ho'
        cases ho'
        cases hu
        refine ⟨hn, fun hm => cov_of_mem ?_ hn⟩
        have : c.mixed = true := by rw [← g2]; exact hm
        simp [this]

theorem flatten1_flow (cfg : Config) (n : Nat) : ∀ d, Flows (flatten1 cfg n d) := by
  intro d
  induction d with
  | zero =>
    intro H t r hl ht h
    cases h
    refine ⟨.refl .., ?_⟩
    intro v hv
    exact ⟨ht v hv, Or.inr ⟨v, hv, .self _⟩⟩
  | succ d ih =>
    intro H t r hl ht h
    cases t with
    | none => cases h
    | some t =>
      cases t with
      | link x => cases h
      | builtin b =>
        cases h
        exact ⟨.refl .., fun v hv => by cases hv; exact ⟨trivial, Or.inr ⟨_, rfl, .self _⟩⟩⟩
      | obj id =>
        have hcomplex : ∀ c, H[id]? = some (.complex c) → flattenComplex (flatten1 cfg n d) H id c = .ok r →
            Flow H r.1 (Pushed r.2.1) ∧ ResOk H (some (.obj id)) r.2.2 := by
          intro c hc h
          obtain ⟨k1, k2, _⟩ := flattenComplex_flow ih hl hc h
          refine ⟨k1, ?_⟩
          intro v hv
          rw [k2] at hv
          cases hv
          exact ⟨trivial, Or.inr ⟨_, rfl, .self _⟩⟩
        simp only [flatten1] at h
        split at h
        · cases h
        · rename_i s hs
          obtain ⟨k1, _, k3⟩ := flattenSimple_spec hs h
          refine ⟨k1 _, ?_⟩
          intro v hv
          rcases k3 with k3 | ⟨k3, k4⟩
          · rw [k3] at hv
            cases hv
            exact ⟨trivial, Or.inr ⟨_, rfl, .self _⟩⟩
          · refine ⟨?_, ?_⟩
            · obtain ⟨x, rfl⟩ := k3 v hv
              trivial
            · rcases k4 v hv with h | ⟨t, ht, ha⟩
              · exact Or.inl h
              · exact Or.inr ⟨_, rfl, .base ht ha⟩
        · rename_i c hc
          split at h
          · rename_i b hb
            split at h
            · cases h
              refine ⟨.refl .., fun v hv => ?_⟩
              cases hv
              exact ⟨trivial, Or.inr ⟨_, rfl, .base (by simp only [baseOf, hc, TObj.base, hb]) (.self _)⟩⟩
            · exact hcomplex c hc h
          · rename_i bid hb
            split at h
            · obtain ⟨k1, k2⟩ := ih _ _ _ hl (fun v hv => by cases hv; trivial) h
              refine ⟨k1, ?_⟩
              intro v hv
              refine ⟨(k2 v hv).1, ?_⟩
              rcases (k2 v hv).2 with h | ⟨y, hy, ha⟩
              · exact Or.inl h
              · cases hy
                exact Or.inr ⟨_, rfl, .base (by simp only [baseOf, hc, TObj.base, hb]) ha⟩
            · exact hcomplex c hc h
          · exact hcomplex c hc h

end GoXml.Xsdgen
