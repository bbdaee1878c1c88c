import Verif.Proofs.XsdgenCost
import Verif.Props.XsdgenRecursive
set_option autoImplicit false

/-! Property C148: how many types are collected before code is generated. -/

namespace GoXml.Xsdgen
open Xsd GoMap

/-- C148, partial. The list of types that `flatten` collects has at most about a thousand members for each place of the
schema where a type stands, if each complex type refers to at most one complex type, in one place. `f` is larger than the
number of fields of a type, and `n` is the number of steps allowed for each way from a simple type to a built-in one. The
full statement has no such hypothesis; `C148_tree_refuted` shows that it is false. -/
theorem C148_collected_partial (cfg : Config) (n f : Nat) (H H' : THeap) (types collected : List Ty) (hres : Resolved H) (hsolid : Solid cfg H)
    (hone : OneWay H) (hf : FewFields f H) (htop : ∀ t ∈ types, ∀ m, t ≠ .link m)
    (h : flattenLoop cfg n H types = .ok (H', collected)) : collected.length ≤ types.length * (1001 * (f * (n + 2)) + n + 2) := by
  refine flattenLoop_cost types H (H', collected) (shape_of hres.linked hsolid) hone hf (fun t ht => ?_) h
  cases t with
  | link m => exact absurd rfl (htop _ ht m)
  | _ => trivial

/-- The list type of C96 meets the hypotheses, and the list has 2003 members. -/
example : Resolved C96_list ∧ Solid { namespaces := [b!"u"] } C96_list ∧ OneWay C96_list ∧ FewFields 3 C96_list ∧
    ∃ r, flattenLoop (addStandardHelpers { namespaces := [b!"u"] }) 20 C96_list [.obj 0] = .ok r ∧ r.2.length = 2003 := by
  refine ⟨resolved_of (by decide +kernel), C96_list_generated.1, ?_, ?_, ?_⟩
  · have key : ∀ a σ b, Structured C96_list a → slotTy C96_list a σ = some (.obj b) → Structured C96_list b → σ = .elem 0 := by
      intro a σ b ha hs hb
      match a, ha, hs with
      | 0, _, hs =>
        cases σ with
        | elem i =>
          match i, hs with
          | 0, _ => rfl
          | i + 1, hs => cases hs
        | attr i =>
          match i, hs with
          | 0, hs => cases hs; obtain ⟨c, hc, -⟩ := hb; cases hc
          | i + 1, hs => cases hs
        | base => cases hs
      | 1, ha, _ => obtain ⟨c, hc, -⟩ := ha; cases hc
      | a + 2, ha, _ => obtain ⟨c, hc, -⟩ := ha; cases hc
    exact fun a σ τ b c ha hb hib hc hic => (key a σ b ha hb hib).trans (key a τ c ha hc hic).symm
  · intro id c hc
    match id, hc with
    | 0, hc => cases hc; decide
    | 1, hc => cases hc
    | id + 2, hc => cases hc
  · simp only [flattenLoop]
    rw [show skipped _ (xmlName C96_list (.obj 0)) = false by decide +kernel, C96_list_flatten1 1000]
    refine ⟨_, rfl, ?_⟩
    have hlen : ∀ m, (List.replicate m [Ty.obj 0, Ty.obj 1]).flatten.length = m * 2 := fun m => by simp
    simp only [List.length_append, hlen, List.length_nil]
    rfl

/-- A tree: a type with two elements of the type itself. -/
def C148_tree : THeap :=
  [.complex { name := ⟨b!"u", b!"tree"⟩, base := some (.builtin 0),
              elements := [{ name := ⟨b!"u", b!"left"⟩, type := .obj 0, optional := true },
                { name := ⟨b!"u", b!"right"⟩, type := .obj 0, optional := true }] }]

/-- Each level of calls doubles the number of types. -/
theorem C148_tree_calls (cfg : Config) (n d : Nat) : ∃ l, flatten1 cfg n d C148_tree (some (.obj 0)) = .ok (C148_tree, l, some (.obj 0)) ∧
    l.length + 2 = 2 ^ (d + 1) := by
  induction d with
  | zero => exact ⟨[], rfl, rfl⟩
  | succ d ih =>
    obtain ⟨l, hl, hlen⟩ := ih
    have h0 : flatten1 cfg n d C148_tree (some (.builtin 0)) = .ok (C148_tree, [], some (.builtin 0)) := flatten1_builtin ..
    refine ⟨l ++ Ty.obj 0 :: (l ++ [Ty.obj 0]), ?_, ?_⟩
    · show flattenComplex (flatten1 cfg n d) C148_tree 0 _ = _
      simp only [flattenComplex]
      show ((fieldLoop _ _ _ [0, 1] _).bind _) = _
      simp only [fieldLoop]
      rw [show elemType C148_tree 0 0 = some (.obj 0) from rfl, hl]
      simp only [Run.bind]
      rw [show elemType (setElemType C148_tree 0 0 (.obj 0)) 0 1 = some (.obj 0) from rfl,
        show setElemType C148_tree 0 0 (.obj 0) = C148_tree from rfl, hl]
      simp only [Run.bind]
      rw [show setElemType C148_tree 0 1 (.obj 0) = C148_tree from rfl]
      simp only [List.length_nil, List.range_zero, fieldLoop]
      rw [show baseOf C148_tree (.obj 0) = some (.builtin 0) from rfl, h0]
      simp only [Bool.false_eq_true, if_false, List.append_nil]
      rfl
    · simp only [List.length_append, List.length_cons, List.length_nil]
      rw [Nat.pow_succ]
      omega

/-- C148 is false of a schema with a single type that has two elements of the same type: more than 2¹⁰⁰⁰ types are
collected, whatever the configuration, so that no program ends for it. -/
theorem C148_tree_refuted (cfg : Config) (n : Nat) (h : skipped cfg ⟨b!"u", b!"tree"⟩ = false) :
    ∃ collected, flattenLoop cfg n C148_tree [.obj 0] = .ok (C148_tree, collected) ∧ 2 ^ 1000 < collected.length := by
  obtain ⟨l, hl, hlen⟩ := C148_tree_calls cfg n 1001
  refine ⟨l ++ [Ty.obj 0], ?_, ?_⟩
  · simp only [flattenLoop]
    rw [show xmlName C148_tree (.obj 0) = ⟨b!"u", b!"tree"⟩ from rfl, h, hl]
    simp [Run.bind]
  · have : (2 : Nat) ^ 1000 < 2 ^ 1002 - 2 := by decide +kernel
    simp only [List.length_append, List.length_cons, List.length_nil]
    omega

/-- The default configuration selects the type. -/
example : skipped (addStandardHelpers {}) ⟨b!"u", b!"tree"⟩ = false := by decide +kernel

/-- The type number `i`, with two elements of the type number `i + 1`. -/
def C148_link (i : Nat) : TObj :=
  .complex { name := ⟨b!"u", List.replicate i 116⟩, base := some (.builtin 0),
             elements := [{ name := ⟨b!"u", b!"left"⟩, type := .obj (i + 1) }, { name := ⟨b!"u", b!"right"⟩, type := .obj (i + 1) }] }

/-- The last type, without elements. -/
def C148_end (i : Nat) : TObj := .complex { name := ⟨b!"u", List.replicate i 116⟩, base := some (.builtin 0) }

/-- Types each of which has two elements of the next type. -/
def C148_chain (k : Nat) : THeap := (List.range k).map C148_link ++ [C148_end k]

theorem C148_chain_get {k i : Nat} (h : i < k) : (C148_chain k)[i]? = some (C148_link i) := by
  rw [C148_chain, List.getElem?_append_left (by simpa using h), List.getElem?_map, List.getElem?_range h]
  rfl

theorem C148_chain_last (k : Nat) : (C148_chain k)[k]? = some (C148_end k) := by
  rw [C148_chain, List.getElem?_append_right (by simp)]
  simp

theorem set_same {H : THeap} {i : Nat} {o : TObj} (h : H[i]? = some o) : H.set i o = H := by
  obtain ⟨hlt, rfl⟩ := List.getElem?_eq_some_iff.mp h
  exact List.set_getElem_self hlt

theorem C148_chain_leaf (cfg : Config) (n d k : Nat) :
    flatten1 cfg n (d + 1) (C148_chain k) (some (.obj k)) = .ok (C148_chain k, [], some (.obj k)) := by
  have hg := C148_chain_last k
  rw [flatten1]
  simp only [hg, C148_end]
  rw [if_neg (fun h => h.1 rfl)]
  simp only [flattenComplex, List.length_nil, List.range_zero, fieldLoop, Run.bind]
  rw [show baseOf (C148_chain k) (.obj k) = some (.builtin 0) by simp only [baseOf, hg, C148_end, TObj.base], flatten1_builtin]
  simp only [Bool.false_eq_true, if_false, List.append_nil, setComplexBase, hg, C148_end]
  exact congrArg (fun H => Run.ok (H, _, _)) (set_same hg)

theorem C148_chain_calls (cfg : Config) (n d k : Nat) : ∀ j i, i + j = k → j ≤ d →
    ∃ l, flatten1 cfg n (d + 1) (C148_chain k) (some (.obj i)) = .ok (C148_chain k, l, some (.obj i)) ∧ l.length + 2 = 2 ^ (j + 1) := by
  induction d with
  | zero =>
    intro j i hij hj
    have : j = 0 := by omega
    subst this
    have : i = k := by omega
    subst this
    exact ⟨[], C148_chain_leaf .., rfl⟩
  | succ d ih =>
    intro j i hij hj
    cases j with
    | zero =>
      have : i = k := by omega
      subst this
      exact ⟨[], C148_chain_leaf .., rfl⟩
    | succ j =>
      obtain ⟨l, hl, hlen⟩ := ih j (i + 1) (by omega) (by omega)
      have hg := C148_chain_get (k := k) (i := i) (by omega)
      have s0 : setElemType (C148_chain k) i 0 (.obj (i + 1)) = C148_chain k := by
        simp only [setElemType, hg, C148_link]
        exact set_same hg
      have s1 : setElemType (C148_chain k) i 1 (.obj (i + 1)) = C148_chain k := by
        simp only [setElemType, hg, C148_link]
        exact set_same hg
      refine ⟨l ++ Ty.obj (i + 1) :: (l ++ [Ty.obj (i + 1)]), ?_, ?_⟩
      · rw [flatten1]
        simp only [hg, C148_link]
        rw [if_neg (fun h => h.1 rfl)]
        simp only [flattenComplex]
        show ((fieldLoop _ _ _ [0, 1] _).bind _) = _
        simp only [fieldLoop]
        rw [show elemType (C148_chain k) i 0 = some (.obj (i + 1)) by simp only [elemType, hg, C148_link]; rfl, hl]
        simp only [Run.bind]
        rw [s0, show elemType (C148_chain k) i 1 = some (.obj (i + 1)) by simp only [elemType, hg, C148_link]; rfl, hl]
        simp only [Run.bind]
        rw [s1]
        simp only [List.length_nil, List.range_zero, fieldLoop]
        rw [show baseOf (C148_chain k) (.obj i) = some (.builtin 0) by simp only [baseOf, hg, C148_link, TObj.base], flatten1_builtin]
        simp only [Bool.false_eq_true, if_false, List.append_nil, setComplexBase, hg, C148_link]
        exact congrArg (fun H => Run.ok (H, _, _)) (set_same hg)
      · simp only [List.length_append, List.length_cons, List.length_nil]
        rw [Nat.pow_succ]
        omega

/-- C148 is false of types that do not use themselves, too: for `k + 1` types the first of which has two elements of the
second and so on, more than 2ᵏ types are collected, for every `k` up to 1000. -/
theorem C148_chain_refuted (cfg : Config) (n k : Nat) (hk : k ≤ 1000) (h : skipped cfg ⟨b!"u", []⟩ = false) :
    ∃ collected, flattenLoop cfg n (C148_chain k) [.obj 0] = .ok (C148_chain k, collected) ∧ 2 ^ k ≤ collected.length := by
  obtain ⟨l, hl, hlen⟩ := C148_chain_calls cfg n 1000 k k 0 (by omega) hk
  refine ⟨l ++ [Ty.obj 0], ?_, ?_⟩
  · have hname : xmlName (C148_chain k) (.obj 0) = ⟨b!"u", []⟩ := by
      cases k with
      | zero => rfl
      | succ k => simp only [xmlName, C148_chain_get (Nat.succ_pos k)]; rfl
    simp only [flattenLoop]
    rw [hname, h, hl]
    simp [Run.bind]
  · have : 2 ^ k ≥ 1 := Nat.one_le_two_pow
    rw [Nat.pow_succ] at hlen
    simp only [List.length_append, List.length_cons, List.length_nil]
    omega

end GoXml.Xsdgen
