import Verif.Spec.XsdgenName
set_option autoImplicit false

/-! Tests on concrete types for the hypotheses of the theorems about closedness. -/

namespace GoXml.Xsdgen
open Xsd

/-- The types that a type refers to. -/
def refs (H : THeap) (id : Nat) : List Ty :=
  (baseOf H (.obj id)).toList ++ match H[id]? with
    | some (.complex c) => c.elements.map (·.type) ++ c.attributes.map (·.type)
    | _ => []

theorem uses_refs {H : THeap} {a b : Nat} (h : Uses H a b) : a ∈ List.range H.length ∧ Ty.obj b ∈ refs H a := by
  have lt : ∀ {a : Nat} {o : TObj}, H[a]? = some o → a ∈ List.range H.length :=
    fun h => List.mem_range.mpr (List.getElem?_eq_some_iff.mp h).1
  cases h with
  | base hb =>
    refine ⟨?_, List.mem_append_left _ (by rw [hb]; simp)⟩
    simp only [baseOf] at hb
    cases ha : H[a]? with
    | none => rw [ha] at hb; cases hb
    | some o => exact lt ha
  | elem hc he ht =>
    refine ⟨lt hc, List.mem_append_right _ ?_⟩
    rw [hc]
    exact List.mem_append_left _ (List.mem_map.mpr ⟨_, he, ht⟩)
  | attr hc he ht =>
    refine ⟨lt hc, List.mem_append_right _ ?_⟩
    rw [hc]
    exact List.mem_append_right _ (List.mem_map.mpr ⟨_, he, ht⟩)

def objId : Ty → Option Nat
  | .obj id => some id
  | _ => none

theorem rank_of {H : THeap} {rank : Nat → Nat}
    (h : ∀ a ∈ List.range H.length, ∀ t ∈ refs H a, ∀ b ∈ (objId t).toList, rank b < rank a ∧ rank a ≤ 1000) :
    ∀ a b, Uses H a b → rank b < rank a ∧ rank a ≤ 1000 :=
  fun a b hu => h a (uses_refs hu).1 _ (uses_refs hu).2 b (by simp [objId])

def isLink : Ty → Bool
  | .link _ => true
  | _ => false

theorem resolved_of {H : THeap} (h : ∀ a ∈ List.range H.length, ∀ t ∈ refs H a, isLink t = false) : Resolved H := by
  intro id c hc
  have h := h id (List.mem_range.mpr (List.getElem?_eq_some_iff.mp hc).1)
  have key : ∀ t ∈ refs H id, ∀ n, t ≠ .link n := by
    intro t ht n hn
    have := h t ht
    rw [hn] at this
    cases this
  refine ⟨fun e he => key _ ?_, fun e he => key _ ?_, fun n hn => key _ ?_ n rfl⟩
  · refine List.mem_append_right _ ?_
    rw [hc]
    exact List.mem_append_left _ (List.mem_map.mpr ⟨_, he, rfl⟩)
  · refine List.mem_append_right _ ?_
    rw [hc]
    exact List.mem_append_right _ (List.mem_map.mpr ⟨_, he, rfl⟩)
  · refine List.mem_append_left _ ?_
    simp only [baseOf, hc, TObj.base, hn]
    simp

def textOk (f : Bool) : Option TObj → Bool
  | some (.simple _) => f
  | some (.complex c) => !f || c.mixed
  | none => true

/-- `f` tells which types are derived from simple ones. -/
theorem textKept_of {H : THeap} (f : Nat → Bool)
    (h : ∀ id ∈ List.range H.length, (∀ b ∈ ((baseOf H (.obj id)).bind objId).toList, f b = true → f id = true) ∧
      textOk (f id) H[id]? = true) : TextKept H := by
  have key : ∀ x y, Ancestor H x y → ∀ id sid, x = .obj id → y = .obj sid → f sid = true → f id = true := by
    intro x y hxy
    induction hxy with
    | self t => rintro id sid rfl h; cases h; exact fun h => h
    | @base t b a hb hr ih =>
      rintro id sid rfl rfl hs
      cases b with
      | obj k =>
        have hlt : id ∈ List.range H.length := by
          simp only [baseOf] at hb
          cases ha : H[id]? with
          | none => rw [ha] at hb; cases hb
          | some o => exact List.mem_range.mpr (List.getElem?_eq_some_iff.mp ha).1
        exact (h id hlt).1 k (by rw [hb]; simp [objId]) (ih k sid rfl rfl hs)
      | builtin k => cases hr with
        | base hb' => cases hb'
      | link k => cases hr with
        | base hb' => cases hb'
  intro id sid c s hc ha hs
  have h1 := (h id (List.mem_range.mpr (List.getElem?_eq_some_iff.mp hc).1)).2
  have h2 := (h sid (List.mem_range.mpr (List.getElem?_eq_some_iff.mp hs).1)).2
  rw [hc] at h1
  rw [hs] at h2
  simpa [textOk, key _ _ ha id sid rfl rfl h2] using h1

theorem ownNames_of {H : THeap} (h : ∀ o ∈ H, o.name.space ∉ [schemaNS, xmlXsdNS]) : OwnNames H := by
  intro id o ho b hb
  refine h o (List.mem_of_getElem? ho) ?_
  rw [hb, builtinName]
  split
  · simp
  · split
    · simp
    · simp

theorem based_of {H : THeap} (h : ∀ o ∈ H, o.base.isSome) : Based H := by
  intro id s hs hn
  have := h _ (List.mem_of_getElem? hs)
  simp only [TObj.base, hn] at this
  cases this

/-- The types derived from a type have what that has, if a type has what its base has. -/
theorem ancestor_of {H : THeap} {f : Nat → Bool} (h : ∀ id ∈ List.range H.length,
      ∀ b ∈ ((baseOf H (.obj id)).bind objId).toList, f b = true → f id = true) {id sid : Nat} (ha : Ancestor H (.obj id) (.obj sid))
    (hs : f sid = true) : f id = true := by
  have key : ∀ x y, Ancestor H x y → ∀ id sid, x = .obj id → y = .obj sid → f sid = true → f id = true := by
    intro x y hxy
    induction hxy with
    | self t => rintro id sid rfl h; cases h; exact fun h => h
    | @base t b a hb hr ih =>
      rintro id sid rfl rfl hs
      cases b with
      | obj k =>
        have hlt : id ∈ List.range H.length := by
          simp only [baseOf] at hb
          cases ha : H[id]? with
          | none => rw [ha] at hb; cases hb
          | some o => exact List.mem_range.mpr (List.getElem?_eq_some_iff.mp ha).1
        exact h id hlt k (by rw [hb]; simp [objId]) (ih k sid rfl rfl hs)
      | builtin k => cases hr with
        | base hb' => cases hb'
      | link k => cases hr with
        | base hb' => cases hb'
  exact key _ _ ha id sid rfl rfl hs

def attrOk (f : Bool) : Option TObj → Bool
  | some (.simple _) => f
  | some (.complex c) => !f || !c.attributes.isEmpty
  | none => true

/-- `f` tells which types are derived from simple ones. -/
theorem attributed_of {cfg : Config} {H : THeap} (hcfg : cfg.filterAttributes = none) (f : Nat → Bool)
    (h : ∀ id ∈ List.range H.length, (∀ b ∈ ((baseOf H (.obj id)).bind objId).toList, f b = true → f id = true) ∧
      attrOk (f id) H[id]? = true) : Attributed cfg H := by
  intro id sid c s hc ha hs
  have h1 := (h id (List.mem_range.mpr (List.getElem?_eq_some_iff.mp hc).1)).2
  have h2 := (h sid (List.mem_range.mpr (List.getElem?_eq_some_iff.mp hs).1)).2
  rw [hc] at h1
  rw [hs] at h2
  have hf := ancestor_of (fun id hid => (h id hid).1) ha h2
  cases hat : c.attributes with
  | nil => simp [attrOk, hf, hat] at h1
  | cons a l => exact ⟨a, List.mem_cons_self .., fun p hp => by rw [hcfg] at hp; cases hp⟩

def baseOk : Option Ty → Bool
  | some (.builtin b) => decide (0 ≤ b ∧ b < 50 ∧ (builtinName b).space = schemaNS)
  | _ => true

theorem schemaBased_of {H : THeap} (h : ∀ id ∈ List.range H.length, baseOk (baseOf H (.obj id)) = true) : SchemaBased H := by
  have key : ∀ x y, Ancestor H x y → ∀ id b, x = .obj id → y = .builtin b → 0 ≤ b ∧ b < 50 ∧ (builtinName b).space = schemaNS := by
    intro x y hxy
    induction hxy with
    | self t => rintro id b rfl h; cases h
    | @base t u a hb hr ih =>
      rintro id b rfl rfl
      cases u with
      | obj k => exact ih k b rfl rfl
      | builtin k =>
        have hlt : id ∈ List.range H.length := by
          simp only [baseOf] at hb
          cases ha : H[id]? with
          | none => rw [ha] at hb; cases hb
          | some o => exact List.mem_range.mpr (List.getElem?_eq_some_iff.mp ha).1
        have := h id hlt
        rw [hb] at this
        cases hr with
        | self => exact of_decide_eq_true this
        | base hb' => cases hb'
      | link k => cases hr with
        | base hb' => cases hb'
  exact fun id b h => key _ _ h id b rfl rfl

end GoXml.Xsdgen
