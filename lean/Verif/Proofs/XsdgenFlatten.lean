import Verif.Spec.Xsdgen
set_option autoImplicit false

/-! Lemmas about `flatten1` and `flatten`. -/

namespace GoXml.Xsdgen
open Xsd

/-! ### Chains of simple types -/

theorem SimpleChain.unique {H : THeap} {id : Nat} {ids : List Nat} {b : Builtin} (h : SimpleChain H id ids b) :
    ∀ {ids' : List Nat} {b' : Builtin}, SimpleChain H id ids' b' → ids = ids' ∧ b = b' := by
  induction h with
  | last h1 h2 =>
    intro ids' b' h'
    cases h' with
    | last h3 h4 => rw [h1] at h3; cases h3; rw [h2] at h4; cases h4; exact ⟨rfl, rfl⟩
    | step h3 h4 _ => rw [h1] at h3; cases h3; rw [h2] at h4; cases h4
  | step h1 h2 _ ih =>
    intro ids' b' h'
    cases h' with
    | last h3 h4 => rw [h1] at h3; cases h3; rw [h2] at h4; cases h4
    | step h3 h4 h5 =>
      rw [h1] at h3; cases h3; rw [h2] at h4; cases h4
      obtain ⟨rfl, rfl⟩ := ih h5
      exact ⟨rfl, rfl⟩

theorem SimpleChain.later {H : THeap} {id : Nat} {ids : List Nat} {b : Builtin} (h : SimpleChain H id ids b) :
    ∀ j ∈ ids, ∃ js, SimpleChain H j js b ∧ js.length < ids.length := by
  induction h with
  | last _ _ => simp
  | @step id bid s ids b h1 h2 h3 ih =>
    intro j hj
    rcases List.mem_cons.mp hj with rfl | hj
    · exact ⟨ids, h3, by simp⟩
    · obtain ⟨js, k1, k2⟩ := ih j hj
      exact ⟨js, k1, by simp; omega⟩

theorem SimpleChain.not_mem {H : THeap} {id : Nat} {ids : List Nat} {b : Builtin} (h : SimpleChain H id ids b) : id ∉ ids := by
  intro hm
  obtain ⟨js, k1, k2⟩ := h.later id hm
  obtain ⟨rfl, _⟩ := h.unique k1
  omega

theorem SimpleChain.simple {H : THeap} {id : Nat} {ids : List Nat} {b : Builtin} (h : SimpleChain H id ids b) :
    ∃ s, H[id]? = some (.simple s) := by
  cases h with
  | last h _ => exact ⟨_, h⟩
  | step h _ _ => exact ⟨_, h⟩

theorem baseChain_chain (H : THeap) {id : Nat} {ids : List Nat} {b : Builtin} (h : SimpleChain H id ids b) :
    ∀ (n : Nat) (o : Option Builtin) (s : SimpleT), H[id]? = some (.simple s) → ids.length < n →
      baseChain H n o s.base = .ok (ids.map .obj, some b) := by
  induction h with
  | last h1 h2 =>
    intro n o s hs hn
    rw [h1] at hs
    cases hs
    obtain ⟨n, rfl⟩ : ∃ m, n = m + 1 := ⟨n - 1, by simp at hn; omega⟩
    rw [h2]
    rfl
  | @step id bid s ids b h1 h2 h3 ih =>
    intro n o s' hs hn
    rw [h1] at hs
    cases hs
    obtain ⟨n, rfl⟩ : ∃ m, n = m + 1 := ⟨n - 1, by simp at hn; omega⟩
    obtain ⟨t, ht⟩ := h3.simple
    have := ih n (some AnyType) t ht (by simp at hn; omega)
    rw [h2]
    have hb : baseOf H (.obj bid) = t.base := by simp only [baseOf, ht, TObj.base]
    simp only [baseChain, hb, this, Run.bind, List.map_cons]

theorem setSimpleBase_get (b : Option Ty) (H : THeap) (t : Ty) (j : Nat) :
    (setSimpleBase b H t)[j]? = match H[j]? with
      | some (.simple s) => some (.simple (if t = .obj j then { s with base := b } else s))
      | o => o := by
  cases t with
  | builtin x => simp only [setSimpleBase]; cases h : H[j]? with
    | none => rfl
    | some o => cases o <;> simp
  | link x => simp only [setSimpleBase]; cases h : H[j]? with
    | none => rfl
    | some o => cases o <;> simp
  | obj id =>
    simp only [setSimpleBase]
    by_cases he : id = j
    · subst he
      cases h : H[id]? with
      | none => simp [h]
      | some o =>
        cases o with
        | simple s =>
          have := (List.getElem?_eq_some_iff.mp h).1
          simp [List.getElem?_set, this]
        | complex c => simp [h]
    · have hne : (Ty.obj id = Ty.obj j) ↔ False := by simp [he]
      have h' : ∀ X : THeap, X[j]? = H[j]? → X[j]? = match H[j]? with
          | some (.simple s) => some (.simple (if Ty.obj id = .obj j then { s with base := b } else s))
          | o => o := by
        intro X hX
        rw [hX]
        cases h : H[j]? with
        | none => rfl
        | some o => cases o <;> simp [he]
      split
      · exact h' _ (List.getElem?_set_ne he)
      · exact h' _ rfl

theorem setSimpleBase_length (b : Option Ty) (H : THeap) (t : Ty) : (setSimpleBase b H t).length = H.length := by
  unfold setSimpleBase
  split
  · split <;> simp
  · rfl

theorem foldl_setSimpleBase (b : Option Ty) (j : Nat) : ∀ (l : List Ty) (H : THeap),
    (l.foldl (setSimpleBase b) H)[j]? = match H[j]? with
      | some (.simple s) => some (.simple (if Ty.obj j ∈ l then { s with base := b } else s))
      | o => o := by
  intro l
  induction l with
  | nil =>
    intro H
    simp only [List.foldl_nil, List.not_mem_nil, if_false]
    split <;> simp_all
  | cons t l ih =>
    intro H
    rw [List.foldl_cons, ih, setSimpleBase_get]
    cases h : H[j]? with
    | none => rfl
    | some o =>
      cases o with
      | complex c => rfl
      | simple s =>
        simp only [List.mem_cons]
        by_cases h1 : t = .obj j
        · subst h1; by_cases h2 : Ty.obj j ∈ l <;> simp [h2]
        · have h1' : ¬ Ty.obj j = t := fun h => h1 h.symm
          simp [h1, h1']

theorem foldl_setSimpleBase_length (b : Option Ty) : ∀ (l : List Ty) (H : THeap),
    (l.foldl (setSimpleBase b) H).length = H.length := by
  intro l
  induction l with
  | nil => intro H; rfl
  | cons t l ih => intro H; rw [List.foldl_cons, ih, setSimpleBase_length]

theorem filter_simple {H : THeap} {id : Nat} {ids : List Nat} {b : Builtin} (h : SimpleChain H id ids b) :
    (ids.map Ty.obj).filter (isSimple H) = ids.map Ty.obj := by
  rw [List.filter_eq_self]
  intro t ht
  obtain ⟨j, hj, rfl⟩ := List.mem_map.mp ht
  obtain ⟨js, k1, _⟩ := h.later j hj
  obtain ⟨s, hs⟩ := k1.simple
  simp [isSimple, hs]

/-- What `flatten1` makes of a chain of simple types. -/
theorem flattenSimple_chain (n : Nat) (H : THeap) (id : Nat) (ids : List Nat) (b : Builtin) (s : SimpleT)
    (hc : SimpleChain H id ids b) (hs : H[id]? = some (.simple s)) (hn : ids.length < n) :
    ∃ H' d r, flattenSimple n H id s = .ok (H', ids.map .obj, some r) ∧ H'.length = H.length ∧
      (∀ j, j ∉ id :: ids → H'[j]? = H[j]?) ∧
      (∀ j ∈ ids, ∀ t, H[j]? = some (.simple t) → H'[j]? = some (.simple { t with base := some (.builtin b) })) ∧
      H'[id]? = some (.simple { s with base := some (.builtin b), doc := d }) ∧
      ((s.list = true ∨ s.union ≠ [] ∨ nonTrivialBuiltin (some (.builtin b)) = true) ∧ d = s.doc ∧ r = .obj id ∨
       ¬ (s.list = true ∨ s.union ≠ [] ∨ nonTrivialBuiltin (some (.builtin b)) = true) ∧ keptDoc s.restriction = some d ∧ r = .obj id ∨
       ¬ (s.list = true ∨ s.union ≠ [] ∨ nonTrivialBuiltin (some (.builtin b)) = true) ∧ keptDoc s.restriction = none ∧
        d = s.doc ∧ r = .builtin b) := by
  have h1 := baseChain_chain H hc n none s hs hn
  have h2 := filter_simple hc
  let bt : Option Ty := some (.builtin b)
  let H1 := setSimpleBase bt ((ids.map Ty.obj).foldl (setSimpleBase bt) H) (.obj id)
  have hlen : H1.length = H.length := by
    show (setSimpleBase _ _ _).length = _
    rw [setSimpleBase_length, foldl_setSimpleBase_length]
  have hget : ∀ j, H1[j]? = match H[j]? with
      | some (TObj.simple t) => some (TObj.simple (if j ∈ id :: ids then { t with base := bt } else t))
      | o => o := by
    intro j
    show (setSimpleBase _ _ _)[j]? = _
    rw [setSimpleBase_get, foldl_setSimpleBase]
    cases h : H[j]? with
    | none => rfl
    | some o =>
      cases o with
      | complex c => rfl
      | simple t =>
        by_cases h1 : id = j
        · subst h1; by_cases h2 : id ∈ ids <;> simp [h2]
        · have h1' : ¬ j = id := fun h => h1 h.symm
          simp [h1, h1']
  have hid : H1[id]? = some (.simple { s with base := bt }) := by rw [hget, hs]; simp
  have hother : ∀ j, j ∉ id :: ids → H1[j]? = H[j]? := by
    intro j hj
    rw [hget]
    cases h : H[j]? with
    | none => rfl
    | some o =>
      cases o with
      | complex c => rfl
      | simple t => simp only [hj, if_false]
  have hmem : ∀ j ∈ ids, ∀ t, H[j]? = some (.simple t) → H1[j]? = some (.simple { t with base := bt }) := by
    intro j hj t ht
    rw [hget, ht]
    simp [hj]
  have hlt : id < H1.length := (List.getElem?_eq_some_iff.mp hid).1
  have e : flattenSimple n H id s = (if s.list ∨ s.union ≠ [] ∨ nonTrivialBuiltin bt then .ok (H1, ids.map Ty.obj, some (.obj id))
    else match keptDoc s.restriction with
      | some d => .ok (H1.set id (.simple { s with base := bt, doc := d }), ids.map Ty.obj, some (.obj id))
      | none => .ok (H1, ids.map Ty.obj, bt)) := by
    simp only [flattenSimple, h1, Run.bind, h2, Option.map_some]
    rfl
  rw [e]
  by_cases hk : s.list = true ∨ s.union ≠ [] ∨ nonTrivialBuiltin bt = true
  · rw [if_pos hk]
    exact ⟨H1, s.doc, .obj id, rfl, hlen, hother, hmem, hid, Or.inl ⟨hk, rfl, rfl⟩⟩
  rw [if_neg hk]
  cases hd : keptDoc s.restriction with
  | none => exact ⟨H1, s.doc, .builtin b, rfl, hlen, hother, hmem, hid, Or.inr (Or.inr ⟨hk, rfl, rfl, rfl⟩)⟩
  | some d =>
    refine ⟨_, d, .obj id, rfl, by simpa using hlen, ?_, ?_, ?_, Or.inr (Or.inl ⟨hk, rfl, rfl⟩)⟩
    · intro j hj
      rw [List.getElem?_set_ne (fun h => hj (by simp [h])), hother j hj]
    · intro j hj t ht
      rw [List.getElem?_set_ne (fun (h : id = j) => hc.not_mem (h ▸ hj)), hmem j hj t ht]
    · rw [List.getElem?_set_self hlt]

theorem keptDoc_none (r : Restriction) : keptDoc r = none ↔
    r.enum = [] ∧ r.pattern = none ∧ r.maxLength = 0 ∧ r.minLength = 0 := by
  unfold keptDoc
  by_cases h1 : r.enum = []
  · cases h2 : r.pattern with
    | some p => simp [h1]
    | none =>
      by_cases h3 : r.maxLength = 0 <;> by_cases h4 : r.minLength = 0 <;> simp [h1, h3, h4]
  · simp [h1]

theorem nonTrivial_iff (b : Int) : nonTrivialBuiltin (some (.builtin b)) = true ↔
    builtinName b ∈ specialBuiltins.map (XName.mk schemaNS) := by
  by_cases hb : 0 ≤ b ∧ b ≤ 49
  · have key : ∀ i ∈ List.range 50, (nonTrivialBuiltin (some (.builtin (i : Int))) = true ↔
      builtinName (i : Int) ∈ specialBuiltins.map (XName.mk schemaNS)) := by decide +kernel
    have := key b.toNat (by simp; omega)
    rwa [Int.toNat_of_nonneg hb.1] at this
  · have h1 : builtinString b = b!"Builtin(" ++ intStr b ++ b!")" := by
      have e : (builtinIndex.length : Int) = 51 := by decide
      have hb' : b < 0 ∨ b ≥ (builtinIndex.length : Int) - 1 := by rw [e]; omega
      rw [builtinString, if_pos hb']
    have h2 : (builtinName b).loc.take 8 = b!"builtin(" := by
      have e : lowerFirst (b!"Builtin(" ++ intStr b ++ b!")") = b!"builtin(" ++ (intStr b ++ b!")") := by
        rw [List.append_assoc]
        rfl
      have hm : b ∉ [ENTITIES, ENTITY, ID, IDREF, IDREFS, NCName, NMTOKEN, NMTOKENS, NOTATION, QName, Name] := by
        simp only [ENTITIES, ENTITY, ID, IDREF, IDREFS, NCName, NMTOKEN, NMTOKENS, NOTATION, QName, Name, List.mem_cons,
          List.not_mem_nil, or_false]
        intro h
        rcases h with h | h | h | h | h | h | h | h | h | h | h <;> exact hb (by rw [h]; decide)
      rw [builtinName, if_neg hm]
      split <;> simp only [h1, e] <;> rfl
    constructor
    · intro h
      simp only [nonTrivialBuiltin, decide_eq_true_eq, List.mem_cons, List.not_mem_nil, or_false] at h
      rcases h with h | h | h | h | h | h | h | h | h | h <;> exact absurd (by rw [h]; decide) hb
    · intro h
      exfalso
      have key : ∀ n ∈ specialBuiltins.map (XName.mk schemaNS), n.loc.take 8 ≠ b!"builtin(" := by decide +kernel
      exact key _ h h2

end GoXml.Xsdgen
