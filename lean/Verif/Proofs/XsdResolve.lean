import Verif.Spec.XsdResolve
import Verif.Proofs.XsdParse
import Verif.Props.XsdBuiltin
set_option autoImplicit false

/-! Helper lemmas for resolving links. -/

namespace GoXml.Xsd

theorem mapOpt_some_iff {α β : Type} (f : α → Option β) (xs : List α) (ys : List β) :
    mapOpt f xs = some ys ↔ List.Forall₂ (fun x y => f x = some y) xs ys := by
  constructor
  · exact mapOpt_forall₂
  · intro h
    induction h with
    | nil => rfl
    | cons h1 _ ih => rw [mapOpt, h1, ih]

theorem mapOpt_none_iff {α β : Type} (f : α → Option β) (xs : List α) :
    mapOpt f xs = none ↔ ∃ x ∈ xs, f x = none := by
  induction xs with
  | nil => simp [mapOpt]
  | cons x xs ih =>
    rw [mapOpt]
    cases hx : f x with
    | none => simp [hx]
    | some y =>
      cases hm : mapOpt f xs with
      | none => rw [hm] at ih; simpa [hx] using ih
      | some ys => rw [hm] at ih; simpa [hx] using ih

theorem mapOpt_map {α β : Type} (f : α → Option β) (g : α → β) (xs : List α) (h : ∀ x ∈ xs, f x = some (g x)) :
    mapOpt f xs = some (xs.map g) := by
  induction xs with
  | nil => rfl
  | cons x xs ih =>
    rw [mapOpt, h x (by simp), ih fun y hy => h y (by simp [hy])]; rfl

theorem resolveTy_none (lk : XName → Option Ty) (t : Ty) : resolveTy lk t = none ↔ ∃ n, t = .link n ∧ lk n = none := by
  cases t <;> simp [resolveTy]

theorem resolveTy_some (lk : XName → Option Ty) (t : Ty) (h : ¬ ∃ n, t = .link n ∧ lk n = none) :
    resolveTy lk t = some (linkTo lk t) := by
  cases t with
  | builtin b => rfl
  | obj i => rfl
  | link n =>
    simp only [resolveTy, linkTo]
    cases hl : lk n with
    | none => exact absurd ⟨n, rfl, hl⟩ h
    | some t => rfl

theorem map_self {α : Type} (g : α → α) (l : List α) (h : ∀ x ∈ l, g x = x) : l.map g = l := by
  induction l with
  | nil => rfl
  | cons x l ih => rw [List.map_cons, h x (by simp), ih fun y hy => h y (by simp [hy])]

/-- An object can be resolved iff all links it mentions have a meaning. -/
theorem resolveObj_eq (lk : XName → Option Ty) (o : TObj) [Decidable (∃ n, Ty.link n ∈ o.tys ∧ lk n = none)] :
    resolveObj lk o = if ∃ n, Ty.link n ∈ o.tys ∧ lk n = none then none else some (o.mapTy (linkTo lk)) := by
  split
  · rename_i h
    obtain ⟨n, hm, hn⟩ := h
    have hr : resolveTy lk (.link n) = none := hn
    cases o with
    | complex c =>
      simp only [TObj.tys, List.mem_append, Option.mem_toList, List.mem_map] at hm
      simp only [resolveObj]
      rcases hm with (hm | ⟨e, he, het⟩) | ⟨a, ha, hat⟩
      · skip
        have : resolveBase lk (some (.link n)) = none := by simp [resolveBase, hr]
        rw [hm, this]
      · have : mapOpt (fun e : XElem => (resolveTy lk e.type).map fun t => { e with type := t }) c.elements = none := by
          rw [mapOpt_none_iff]; exact ⟨e, he, by rw [het, hr]; rfl⟩
        rw [this]
        cases resolveBase lk c.base <;> cases mapOpt (fun a : XAttr => (resolveTy lk a.type).map fun t => { a with type := t }) c.attributes <;> rfl
      · have : mapOpt (fun a : XAttr => (resolveTy lk a.type).map fun t => { a with type := t }) c.attributes = none := by
          rw [mapOpt_none_iff]; exact ⟨a, ha, by rw [hat, hr]; rfl⟩
        rw [this]
        cases resolveBase lk c.base <;> cases mapOpt (fun e : XElem => (resolveTy lk e.type).map fun t => { e with type := t }) c.elements <;> rfl
    | simple s =>
      simp only [TObj.tys, List.mem_append, Option.mem_toList] at hm
      simp only [resolveObj]
      rcases hm with hm | hm
      · skip
        have : resolveBase lk (some (.link n)) = none := by simp [resolveBase, hr]
        rw [hm, this]
      · have : mapOpt (resolveTy lk) s.union = none := by
          rw [mapOpt_none_iff]; exact ⟨_, hm, hr⟩
        rw [this]
        cases resolveBase lk s.base <;> rfl
  · rename_i h
    have ht : ∀ t ∈ o.tys, resolveTy lk t = some (linkTo lk t) := by
      intro t hm
      apply resolveTy_some
      rintro ⟨n, rfl, hn⟩
      exact h ⟨n, hm, hn⟩
    cases o with
    | complex c =>
      simp only [TObj.tys, List.mem_append, Option.mem_toList, List.mem_map] at ht
      have h1 : resolveBase lk c.base = some (c.base.map (linkTo lk)) := by
        cases hb : c.base with
        | none => rfl
        | some b => simp only [resolveBase, ht b (Or.inl (Or.inl hb))]; rfl
      have h2 := mapOpt_map (fun e : XElem => (resolveTy lk e.type).map fun t => { e with type := t })
        (fun e => { e with type := linkTo lk e.type }) c.elements
        (fun e he => by simp only [ht _ (Or.inl (Or.inr ⟨e, he, rfl⟩)), Option.map_some])
      have h3 := mapOpt_map (fun a : XAttr => (resolveTy lk a.type).map fun t => { a with type := t })
        (fun a => { a with type := linkTo lk a.type }) c.attributes
        (fun a ha => by simp only [ht _ (Or.inr ⟨a, ha, rfl⟩), Option.map_some])
      simp only [resolveObj, h1, h2, h3]; rfl
    | simple s =>
      simp only [TObj.tys, List.mem_append, Option.mem_toList] at ht
      have h1 : resolveBase lk s.base = some (s.base.map (linkTo lk)) := by
        cases hb : s.base with
        | none => rfl
        | some b => simp only [resolveBase, ht b (Or.inl hb)]; rfl
      have h2 := mapOpt_map (resolveTy lk) (linkTo lk) s.union (fun t hm => ht t (Or.inr hm))
      simp only [resolveObj, h1, h2]; rfl

theorem tys_mapTy (f : Ty → Ty) (o : TObj) : (o.mapTy f).tys = o.tys.map f := by
  cases o with
  | complex c =>
    simp only [TObj.mapTy, TObj.tys, List.map_append, List.map_map]
    cases c.base <;> rfl
  | simple s =>
    simp only [TObj.mapTy, TObj.tys, List.map_append]
    cases s.base <;> rfl

theorem mapTy_id (f : Ty → Ty) (o : TObj) (h : ∀ t ∈ o.tys, f t = t) : o.mapTy f = o := by
  cases o with
  | complex c =>
    simp only [TObj.tys, List.mem_append, Option.mem_toList, List.mem_map] at h
    have h1 : c.base.map f = c.base := by
      cases hb : c.base with
      | none => rfl
      | some b => simp [h b (Or.inl (Or.inl hb))]
    have h2 : (c.elements.map fun e => { e with type := f e.type }) = c.elements := by
      apply map_self
      intro e he
      rw [h _ (Or.inl (Or.inr ⟨e, he, rfl⟩))]
    have h3 : (c.attributes.map fun a => { a with type := f a.type }) = c.attributes := by
      apply map_self
      intro e he
      rw [h _ (Or.inr ⟨e, he, rfl⟩)]
    simp only [TObj.mapTy, h1, h2, h3]
  | simple s =>
    simp only [TObj.tys, List.mem_append, Option.mem_toList] at h
    have h1 : s.base.map f = s.base := by
      cases hb : s.base with
      | none => rfl
      | some b => simp [h b (Or.inl hb)]
    have h2 : s.union.map f = s.union := map_self _ _ fun t ht => h t (Or.inr ht)
    simp only [TObj.mapTy, h1, h2]

theorem linkTo_idem (lk : XName → Option Ty) (hlk : ∀ n t, lk n = some t → t.isLink = false) (t : Ty) :
    linkTo lk (linkTo lk t) = linkTo lk t := by
  cases t with
  | builtin b => rfl
  | obj i => rfl
  | link n =>
    simp only [linkTo]
    cases h : lk n with
    | none => simp [linkTo, h]
    | some t =>
      have := hlk n t h
      cases t <;> simp_all [Ty.isLink, linkTo]

/-- Whether an object can be resolved, as a test. -/
theorem resolvable_mapTy (lk : XName → Option Ty) (hlk : ∀ n t, lk n = some t → t.isLink = false) (o : TObj) :
    ¬ (∃ n, Ty.link n ∈ o.tys ∧ lk n = none) → ¬ ∃ n, Ty.link n ∈ (o.mapTy (linkTo lk)).tys ∧ lk n = none := by
  rintro h ⟨n, hm, hn⟩
  rw [tys_mapTy, List.mem_map] at hm
  obtain ⟨t, ht, he⟩ := hm
  cases t with
  | builtin b => cases he
  | obj i => cases he
  | link m =>
    simp only [linkTo] at he
    cases hl : lk m with
    | none => exact h ⟨m, ht, hl⟩
    | some u =>
      rw [hl] at he
      simp only [Option.getD_some] at he
      have := hlk m u hl
      rw [he] at this; cases this

theorem mapTy_idem (lk : XName → Option Ty) (hlk : ∀ n t, lk n = some t → t.isLink = false) (o : TObj) :
    (o.mapTy (linkTo lk)).mapTy (linkTo lk) = o.mapTy (linkTo lk) := by
  apply mapTy_id
  intro t ht
  rw [tys_mapTy, List.mem_map] at ht
  obtain ⟨u, _, rfl⟩ := ht
  exact linkTo_idem lk hlk u

/-- What the loop does, if it succeeds. -/
theorem resolveTypes_some (lk : XName → Option Ty) (hlk : ∀ n t, lk n = some t → t.isLink = false) (ts : List Ty) :
    ∀ H H', resolveTypes lk H ts = some H' →
      H'.length = H.length ∧ ∀ (id : Nat) o, H[id]? = some o →
        H'[id]? = some (if Ty.obj id ∈ ts then o.mapTy (linkTo lk) else o) := by
  classical
  induction ts with
  | nil => intro H H' h; cases h; exact ⟨rfl, fun id o ho => by simpa using ho⟩
  | cons t ts ih =>
    intro H H' h
    cases t with
    | builtin b =>
      obtain ⟨h1, h2⟩ := ih H H' h
      exact ⟨h1, fun id o ho => by simpa using h2 id o ho⟩
    | link n => cases h
    | obj i =>
      rw [resolveTypes] at h
      split at h
      · cases h
      · rename_i o' ho'
        rw [resolveObj_eq] at h
        split at h
        · cases h
        · rename_i o'' ho''
          split at ho''
          · cases ho''
          · simp only [Option.some.injEq] at ho''
            subst ho''
            obtain ⟨h1, h2⟩ := ih _ _ h
            refine ⟨by rw [h1]; simp, ?_⟩
            intro id o ho
            by_cases hid : id = i
            · subst hid
              rw [ho'] at ho; cases ho
              have hlt := (List.getElem?_eq_some_iff.mp ho').1
              rw [h2 id (o'.mapTy (linkTo lk)) (by rw [List.getElem?_set_self hlt])]
              simp only [List.mem_cons, true_or, if_true]
              split
              · rw [mapTy_idem lk hlk]
              · rfl
            · rw [h2 id o (by rw [List.getElem?_set_ne (Ne.symm hid)]; exact ho)]
              simp [hid]

/-- When the loop fails. -/
theorem resolveTypes_none (lk : XName → Option Ty) (hlk : ∀ n t, lk n = some t → t.isLink = false) (ts : List Ty) :
    ∀ H : THeap, (∀ t ∈ ts, t.isLink = false ∧ ∀ id, t = .obj id → id < H.length) →
      (resolveTypes lk H ts = none ↔
        ∃ (id : Nat) (o : TObj) (n : XName), Ty.obj id ∈ ts ∧ H[id]? = some o ∧ Ty.link n ∈ o.tys ∧ lk n = none) := by
  classical
  induction ts with
  | nil => intro H _; simp [resolveTypes]
  | cons t ts ih =>
    intro H hv
    have hv' : ∀ t ∈ ts, t.isLink = false ∧ ∀ id, t = .obj id → id < H.length := fun t ht => hv t (by simp [ht])
    cases t with
    | builtin b => rw [resolveTypes, ih H hv']; simp
    | link n => exact absurd (hv (.link n) (by simp)).1 (by simp [Ty.isLink])
    | obj i =>
      have hlt := (hv (.obj i) (by simp)).2 i rfl
      obtain ⟨o, ho⟩ : ∃ o, H[i]? = some o := ⟨_, List.getElem?_eq_getElem hlt⟩
      rw [resolveTypes, ho]
      simp only
      rw [resolveObj_eq]
      by_cases hbad : ∃ n, Ty.link n ∈ o.tys ∧ lk n = none
      · rw [if_pos hbad]
        simp only [true_iff]
        obtain ⟨n, h1, h2⟩ := hbad
        exact ⟨i, o, n, by simp, ho, h1, h2⟩
      · rw [if_neg hbad]
        simp only
        rw [ih _ (by simpa using hv')]
        constructor
        · rintro ⟨id, o', n, h1, h2, h3, h4⟩
          by_cases hid : id = i
          · subst hid
            rw [List.getElem?_set_self hlt] at h2
            cases h2
            exact absurd ⟨n, h3, h4⟩ (resolvable_mapTy lk hlk o hbad)
          · rw [List.getElem?_set_ne (Ne.symm hid)] at h2
            exact ⟨id, o', n, by simp [h1], h2, h3, h4⟩
        · rintro ⟨id, o', n, h1, h2, h3, h4⟩
          by_cases hid : id = i
          · subst hid
            rw [ho] at h2; cases h2
            exact absurd ⟨n, h3, h4⟩ hbad
          · refine ⟨id, o', n, ?_, by rw [List.getElem?_set_ne (Ne.symm hid)]; exact h2, h3, h4⟩
            simpa [hid] using h1

theorem lookupType_iff (own ext : GoMap XName Ty) (n : XName) (t : Ty) :
    lookupType own ext n = some t ↔ Meaning ext.get own.get n t := by
  unfold lookupType Meaning
  cases hb : parseBuiltin n with
  | some b =>
    have hb' := (C26_parse_only n b).mp hb
    simp only [Option.some.injEq]
    constructor
    · rintro rfl; exact Or.inl ⟨b, hb'.1, hb'.2.1, hb'.2.2, rfl⟩
    · rintro (⟨c, h1, h2, h3, rfl⟩ | ⟨h, _⟩)
      · have := (C26_parse_only n c).mpr ⟨h1, h2, h3⟩
        rw [hb] at this; cases this; rfl
      · exact absurd hb'.2.2 (h b hb'.1 hb'.2.1)
  | none =>
    have hb' : ∀ b : Int, 0 ≤ b → b < 50 → builtinName b ≠ n := by
      intro b h1 h2 h3
      rw [(C26_parse_only n b).mpr ⟨h1, h2, h3⟩] at hb; cases hb
    simp only
    constructor
    · intro h
      right
      refine ⟨hb', ?_⟩
      cases he : ext.get n with
      | none => rw [he] at h; exact Or.inr ⟨rfl, h⟩
      | some u => rw [he] at h; left; exact h
    · rintro (⟨b, h1, h2, h3, _⟩ | ⟨_, h | ⟨h1, h2⟩⟩)
      · exact absurd h3 (hb' b h1 h2)
      · rw [h]
      · rw [h1]; exact h2

end GoXml.Xsd
