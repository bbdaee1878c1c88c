import Verif.Props.XsdgenClosed
set_option autoImplicit false

/-! Property C96: the refutation for types that use themselves. -/

namespace GoXml.Xsdgen
open Xsd GoMap

/-! ### Types that use themselves -/

/-- T has an element of type U, which has one of type T, and one of type C, which extends S. The flag tells
whether the latter has been replaced. -/
def C96_loop (done : Bool) : THeap :=
  [.complex { name := ⟨[], b!"T"⟩, base := some (.builtin 0),
              elements := [{ name := ⟨[], b!"u"⟩, type := .obj 3, optional := true },
                { name := ⟨[], b!"c"⟩, type := if done then .builtin 38 else .obj 1 }] },
   .complex { name := ⟨[], b!"C"⟩, base := some (.obj 2), extends_ := true, mixed := true },
   .simple { name := ⟨[], b!"S"⟩, base := some (.builtin 38) },
   .complex { name := ⟨[], b!"U"⟩, base := some (.builtin 0), elements := [{ name := ⟨[], b!"t"⟩, type := .obj 0 }] }]

/-- The configuration without any option. -/
def C96_cfg : Config := addStandardHelpers {}

theorem C96_loop_flatten1 (k : Nat) : flatten1 C96_cfg 20 (2 * k + 3) (C96_loop false) (some (.obj 0)) =
    .ok (C96_loop true, [Ty.obj 3, .obj 1] ++ (List.replicate (k + 1) [Ty.obj 0, .obj 3, .builtin 38]).flatten, some (.obj 0)) := by
  induction k with
  | zero => rfl
  | succ k ih =>
    have e : 2 * (k + 1) + 3 = (2 * k + 3) + 1 + 1 := by omega
    have hU : flatten1 C96_cfg 20 ((2 * k + 3) + 1) (C96_loop false) (some (.obj 3)) =
        .ok (C96_loop true, [Ty.obj 3, .obj 1] ++ (List.replicate (k + 1) [Ty.obj 0, .obj 3, .builtin 38]).flatten ++ [.obj 0], some (.obj 3)) := by
      show flattenComplex (flatten1 C96_cfg 20 (2 * k + 3)) (C96_loop false) 3 _ = _
      simp only [flattenComplex]
      show ((fieldLoop _ _ _ [0] _).bind _) = _
      simp only [fieldLoop]
      rw [show elemType (C96_loop false) 3 0 = some (.obj 0) from rfl, ih]
      generalize [Ty.obj 3, .obj 1] ++ (List.replicate (k + 1) [Ty.obj 0, .obj 3, .builtin 38]).flatten = l
      exact Eq.trans (b := Run.ok (C96_loop true, ((l ++ [Ty.obj 0]) ++ [] ++ [] ++ [], some (Ty.obj 3)))) rfl (by simp)
    rw [e]
    show flattenComplex (flatten1 C96_cfg 20 ((2 * k + 3) + 1)) (C96_loop false) 0 _ = _
    simp only [flattenComplex]
    show ((fieldLoop _ _ _ [0, 1] _).bind _) = _
    simp only [fieldLoop]
    rw [show elemType (C96_loop false) 0 0 = some (.obj 3) from rfl, hU]
    rw [List.replicate_succ' (n := k + 1), List.flatten_append, ← List.append_assoc]
    generalize [Ty.obj 3, .obj 1] ++ (List.replicate (k + 1) [Ty.obj 0, .obj 3, .builtin 38]).flatten = l
    exact Eq.trans (b := Run.ok (C96_loop true, (((l ++ [Ty.obj 0]) ++ Ty.obj 3 :: ([] ++ [Ty.builtin 38])) ++ [] ++ [] ++ [], some (Ty.obj 0)))) rfl
      (by simp)

/-- Nothing changes after the first type. -/
theorem C96_loop_rest (d : Nat) : ∀ j ∈ [0, 3], ∃ l, flatten1 C96_cfg 20 d (C96_loop true) (some (.obj j)) = .ok (C96_loop true, l, some (.obj j)) ∧
    ∀ t ∈ l, t ∈ [Ty.obj 0, .obj 3, .builtin 38] := by
  induction d with
  | zero => exact fun j _ => ⟨[], rfl, fun t ht => by cases ht⟩
  | succ d ih =>
    have hb : flatten1 C96_cfg 20 d (C96_loop true) (some (.builtin 38)) = .ok (C96_loop true, [], some (.builtin 38)) := by cases d <;> rfl
    have h0 : flatten1 C96_cfg 20 d (C96_loop true) (some (.builtin 0)) = .ok (C96_loop true, [], some (.builtin 0)) := by cases d <;> rfl
    intro j hj
    simp only [List.mem_cons, List.not_mem_nil, or_false] at hj
    rcases hj with rfl | rfl
    · obtain ⟨l, hl, hm⟩ := ih 3 (by simp)
      refine ⟨l ++ Ty.obj 3 :: ([] ++ [Ty.builtin 38]), ?_, ?_⟩
      · show flattenComplex (flatten1 C96_cfg 20 d) (C96_loop true) 0 _ = _
        simp only [flattenComplex]
        show ((fieldLoop _ _ _ [0, 1] _).bind _) = _
        simp only [fieldLoop]
        rw [show elemType (C96_loop true) 0 0 = some (.obj 3) from rfl, hl]
        simp only [Run.bind]
        rw [show elemType (setElemType (C96_loop true) 0 0 (.obj 3)) 0 1 = some (.builtin 38) from rfl,
          show setElemType (C96_loop true) 0 0 (.obj 3) = C96_loop true from rfl, hb]
        simp only [Run.bind]
        rw [show setElemType (C96_loop true) 0 1 (.builtin 38) = C96_loop true from rfl]
        simp only [List.length_nil, List.range_zero, fieldLoop]
        rw [show baseOf (C96_loop true) (.obj 0) = some (.builtin 0) from rfl, h0]
        simp only [Bool.false_eq_true, if_false, List.append_nil]
        rfl
      · intro t ht
        simp only [List.mem_append, List.mem_cons, List.nil_append, List.not_mem_nil, or_false] at ht
        rcases ht with ht | rfl | rfl
        · exact hm t ht
        · simp
        · simp
    · obtain ⟨l, hl, hm⟩ := ih 0 (by simp)
      refine ⟨l ++ [Ty.obj 0], ?_, ?_⟩
      · show flattenComplex (flatten1 C96_cfg 20 d) (C96_loop true) 3 _ = _
        simp only [flattenComplex]
        show ((fieldLoop _ _ _ [0] _).bind _) = _
        simp only [fieldLoop]
        rw [show elemType (C96_loop true) 3 0 = some (.obj 0) from rfl, hl]
        simp only [Run.bind]
        rw [show setElemType (C96_loop true) 3 0 (.obj 0) = C96_loop true from rfl]
        simp only [List.length_nil, List.range_zero, fieldLoop]
        rw [show baseOf (C96_loop true) (.obj 3) = some (.builtin 0) from rfl, h0]
        simp only [Bool.false_eq_true, if_false, List.append_nil]
        rfl
      · intro t ht
        simp only [List.mem_append, List.mem_singleton] at ht
        rcases ht with ht | rfl
        · exact hm t ht
        · simp

/-- The list of types to generate has the type C, but not S. -/
theorem C96_loop_flatten : flatten C96_cfg 20 (C96_loop false) [.obj 0, .obj 1, .obj 2, .obj 3] =
    .ok (C96_loop true, [.obj 3, .obj 1, .obj 0, .builtin 38]) := by
  obtain ⟨lU, hU, hlU⟩ := C96_loop_rest 1001 3 (by simp)
  have hl : flattenLoop C96_cfg 20 (C96_loop false) [.obj 0, .obj 1, .obj 2, .obj 3] =
      .ok (C96_loop true, [Ty.obj 3, .obj 1] ++ (List.replicate 500 [Ty.obj 0, .obj 3, .builtin 38]).flatten ++ [Ty.obj 0] ++
        (Ty.builtin 38 :: Ty.builtin 38 :: (lU ++ [Ty.obj 3]))) := by
    have e := C96_loop_flatten1 499
    simp only [flattenLoop]
    rw [show skipped C96_cfg (xmlName (C96_loop false) (.obj 0)) = false by decide +kernel]
    rw [show 2 * 499 + 3 = 1001 from rfl, show 499 + 1 = 500 from rfl] at e
    rw [e]
    generalize [Ty.obj 3, .obj 1] ++ (List.replicate 500 [Ty.obj 0, .obj 3, .builtin 38]).flatten = l
    simp only [Run.bind]
    rw [show skipped C96_cfg (xmlName (C96_loop true) (.obj 1)) = false by decide +kernel]
    rw [show flatten1 C96_cfg 20 1001 (C96_loop true) (some (.obj 1)) = .ok (C96_loop true, [], some (.builtin 38)) from rfl]
    simp only [Bool.false_eq_true, if_false]
    rw [show skipped C96_cfg (xmlName (C96_loop true) (.obj 2)) = false by decide +kernel]
    rw [show flatten1 C96_cfg 20 1001 (C96_loop true) (some (.obj 2)) = .ok (C96_loop true, [], some (.builtin 38)) from rfl]
    simp only [Bool.false_eq_true, if_false]
    rw [show skipped C96_cfg (xmlName (C96_loop true) (.obj 3)) = false by decide +kernel]
    rw [hU]
    simp
  have hd : ∀ (H : THeap) (seen : List XName) (l : List Ty), (∀ t ∈ l, xmlName H t ∈ seen) → dedupLoop H seen l = [] := by
    intro H seen l
    induction l with
    | nil => intro _; rfl
    | cons t l ih =>
      intro h
      rw [dedupLoop, if_pos (h t (List.mem_cons_self ..)), ih (fun u hu => h u (List.mem_cons_of_mem _ hu))]
  rw [flatten, hl]
  simp only [Run.bind]
  rw [show (500 : Nat) = 499 + 1 from rfl, List.replicate_succ, List.flatten_cons]
  have hrest : ∀ t ∈ (List.replicate 499 [Ty.obj 0, .obj 3, .builtin 38]).flatten ++ [Ty.obj 0] ++ (Ty.builtin 38 :: Ty.builtin 38 :: (lU ++ [Ty.obj 3])),
      xmlName (C96_loop true) t ∈ [builtinName 38, ⟨[], b!"T"⟩, ⟨[], b!"C"⟩, ⟨[], b!"U"⟩] := by
    intro t ht
    have hm : t ∈ [Ty.obj 0, .obj 3, .builtin 38] := by
      simp only [List.mem_append, List.mem_flatten, List.mem_replicate, List.mem_cons, List.not_mem_nil, or_false] at ht
      rcases ht with (⟨x, ⟨_, rfl⟩, h⟩ | h) | h | h | h | h
      · exact h
      · rw [h]; simp
      · rw [h]; simp
      · rw [h]; simp
      · exact hlU t h
      · rw [h]; simp
    have key : ∀ t ∈ [Ty.obj 0, .obj 3, .builtin 38], xmlName (C96_loop true) t ∈ [builtinName 38, ⟨[], b!"T"⟩, ⟨[], b!"C"⟩, ⟨[], b!"U"⟩] := by
      decide +kernel
    exact key t hm
  have := hd _ _ _ hrest
  generalize (List.replicate 499 [Ty.obj 0, .obj 3, .builtin 38]).flatten = l at *
  have e2 : dedup (C96_loop true) ([Ty.obj 3, .obj 1] ++ ([Ty.obj 0, .obj 3, .builtin 38] ++ l) ++ [Ty.obj 0] ++ (Ty.builtin 38 :: Ty.builtin 38 :: (lU ++ [Ty.obj 3]))) =
      [.obj 3, .obj 1, .obj 0, .builtin 38] ++ dedupLoop (C96_loop true) [builtinName 38, ⟨[], b!"T"⟩, ⟨[], b!"C"⟩, ⟨[], b!"U"⟩] (l ++ [Ty.obj 0] ++ (Ty.builtin 38 :: Ty.builtin 38 :: (lU ++ [Ty.obj 3]))) := by
    rfl
  rw [e2, this]
  rfl

/-- C96 is false for types that use themselves, without any option. After 1001 nested calls type C is added to the list as it is, so that
it is declared with a field of type S; later it is replaced by `string`, so that S is not added. -/
theorem C96_closed_refuted : Resolved (C96_loop false) ∧ TextKept (C96_loop false) ∧ OwnNames (C96_loop false) ∧
    ∃ r, gen asciiEnv (Sorter.byKey fun s => s) C96_cfg 20
      [{ types := [(⟨[], b!"T"⟩, .obj 0), (⟨[], b!"C"⟩, .obj 1), (⟨[], b!"S"⟩, .obj 2), (⟨[], b!"U"⟩, .obj 3)] }] [] (C96_loop false) = .ok r ∧
      declaredExprs (genAST (Sorter.byKey fun s => s) r.2.1).2 =
        [(b!"C", .struct [⟨b!"S", .ident b!"S", b!"xml:\",chardata\""⟩]),
         (b!"T", .struct [⟨b!"U", .ident b!"U", b!"xml:\" u,omitempty\""⟩, ⟨b!"C", .ident b!"string", b!"xml:\" c\""⟩]),
         (b!"U", .struct [⟨b!"T", .ident b!"T", b!"xml:\" t\""⟩])] ∧
      ¬ Closed (genAST (Sorter.byKey fun s => s) r.2.1).2 := by
  refine ⟨resolved_of (by decide +kernel), textKept_of (fun id => id == 1 || id == 2) (by decide +kernel), ownNames_of (by decide +kernel), ?_⟩
  have key : ((gen asciiEnv (Sorter.byKey fun s => s) C96_cfg 20
      [{ types := [(⟨[], b!"T"⟩, .obj 0), (⟨[], b!"C"⟩, .obj 1), (⟨[], b!"S"⟩, .obj 2), (⟨[], b!"U"⟩, .obj 3)] }] [] (C96_loop false)).toOption.map
      fun r => (genAST (Sorter.byKey fun s => s) r.2.1).2) =
      some [.type [] b!"C" (.struct [⟨b!"S", .ident b!"S", b!"xml:\",chardata\""⟩]),
         .type [] b!"T" (.struct [⟨b!"U", .ident b!"U", b!"xml:\" u,omitempty\""⟩, ⟨b!"C", .ident b!"string", b!"xml:\" c\""⟩]),
         .type [] b!"U" (.struct [⟨b!"T", .ident b!"T", b!"xml:\" t\""⟩])] := by
    simp only [gen]
    rw [show C96_cfg.preprocessType = none from rfl]
    simp only [List.map_cons, List.map_nil, genSchemas]
    rw [C96_loop_flatten]
    decide +kernel
  obtain ⟨r, hr, hd⟩ := Option.map_eq_some_iff.mp key
  refine ⟨r, ?_, ?_, ?_⟩
  · generalize gen asciiEnv _ _ _ _ _ _ = g at hr
    cases g <;> cases hr
    rfl
  · rw [hd]; rfl
  · intro hc
    rw [hd] at hc
    rcases hc [] b!"C" _ (List.mem_cons_self ..) b!"S" (by decide) with h | ⟨doc, e, h⟩
    · revert h; decide
    · simp at h

end GoXml.Xsdgen
