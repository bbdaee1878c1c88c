import Verif.Proofs.XsdMixed
set_option autoImplicit false

/-! Property C39: propagation of mixed content. -/

namespace GoXml.Xsd

/-- C39: if the base chains of the types end within the depth limit, propagation succeeds; a complex
type on one of the chains then is mixed iff it has mixed content by the rules, and nothing else
changes. -/
theorem C39_mixed (H : THeap) (ts : List Ty) (hc : ∀ t ∈ ts, Chain H 1001 t) :
    ∃ H', propagateAll H ts = some H' ∧ H'.length = H.length ∧
      (∀ (id : Nat) s, H[id]? = some (.simple s) → H'[id]? = some (.simple s)) ∧
      ∀ (id : Nat) c, H[id]? = some (.complex c) → ∃ m, H'[id]? = some (.complex { c with mixed := m }) ∧
        ((∃ t ∈ ts, OnChain H t (.obj id)) → (m = true ↔ IsMixed H (.obj id))) ∧
        ((¬ ∃ t ∈ ts, OnChain H t (.obj id)) → m = c.mixed) := by
  classical
  obtain ⟨H', e, hb, h⟩ := propagateAll_eq H ts H (between_refl H) hc
  refine ⟨H', e, hb.1, ?_, ?_⟩
  · intro id s hs
    by_cases ho : ∃ t ∈ ts, OnChain H t (.obj id)
    · exact (h id _ hs).1 ho
    · rw [(h id _ hs).2 ho]; exact hs
  · intro id c hcx
    by_cases ho : ∃ t ∈ ts, OnChain H t (.obj id)
    · refine ⟨decide (IsMixed H (.obj id)), (h id _ hcx).1 ho, fun _ => by simp, fun hn => absurd ho hn⟩
    · refine ⟨c.mixed, ?_, fun hn => absurd hn ho, fun _ => rfl⟩
      rw [(h id _ hcx).2 ho]; exact hcx

/-- C39: the order in which the types are visited makes no difference. -/
theorem C39_order (H : THeap) (ts ts' : List Ty) (hp : ts.Perm ts') (hc : ∀ t ∈ ts, Chain H 1001 t) :
    propagateAll H ts = propagateAll H ts' := by
  obtain ⟨H1, e1, hb1, h1⟩ := propagateAll_eq H ts H (between_refl H) hc
  obtain ⟨H2, e2, hb2, h2⟩ := propagateAll_eq H ts' H (between_refl H) fun t ht => hc t (hp.mem_iff.mpr ht)
  rw [e1, e2]
  congr 1
  apply between_ext hb1 hb2
  intro id o ho
  have hiff : (∃ t ∈ ts, OnChain H t (.obj id)) ↔ ∃ t ∈ ts', OnChain H t (.obj id) := by
    constructor
    · rintro ⟨t, ht, h⟩; exact ⟨t, hp.mem_iff.mp ht, h⟩
    · rintro ⟨t, ht, h⟩; exact ⟨t, hp.mem_iff.mpr ht, h⟩
  by_cases hon : ∃ t ∈ ts, OnChain H t (.obj id)
  · rw [(h1 id o ho).1 hon, (h2 id o ho).1 (hiff.mp hon)]
  · rw [(h1 id o ho).2 hon, (h2 id o ho).2 (fun h => hon (hiff.mpr h))]

/-- C39: a second run changes nothing. -/
theorem C39_again (H H' : THeap) (ts : List Ty) (hc : ∀ t ∈ ts, Chain H 1001 t) (h : propagateAll H ts = some H') :
    propagateAll H' ts = some H' := by
  obtain ⟨H1, e1, hb1, h1⟩ := propagateAll_eq H ts H (between_refl H) hc
  rw [h] at e1; cases e1
  obtain ⟨H2, e2, hb2, h2⟩ := propagateAll_eq H ts H' hb1 hc
  rw [e2]
  congr 1
  apply between_ext hb2 hb1
  intro id o ho
  by_cases hon : ∃ t ∈ ts, OnChain H t (.obj id)
  · rw [(h1 id o ho).1 hon, (h2 id o ho).1 hon]
  · rw [(h2 id o ho).2 hon]

/-- A chain: type 0 extends type 1, which extends type 2, which restricts anyType and is declared mixed. -/
def mixedChain : THeap :=
  [.complex { base := some (.obj 1), extends_ := true }, .complex { base := some (.obj 2), extends_ := true },
   .complex { base := some (.builtin 0), mixed := true }]

theorem mixedChain_chain : ∀ t ∈ [Ty.obj 1, .obj 0], Chain mixedChain 1001 t := by
  have h2 : Chain mixedChain 999 (.obj 2) := .step (n := 998) rfl rfl (.builtin _ _)
  have h1 : Chain mixedChain 1000 (.obj 1) := .step rfl rfl h2
  have h0 : Chain mixedChain 1001 (.obj 0) := .step rfl rfl h1
  have h1' : Chain mixedChain 1001 (.obj 1) := .step rfl rfl (.step (n := 999) rfl rfl (.builtin _ _))
  intro t ht
  simp only [List.mem_cons, List.not_mem_nil, or_false] at ht
  rcases ht with rfl | rfl
  · exact h1'
  · exact h0

example : (∀ t ∈ [Ty.obj 1, .obj 0], Chain mixedChain 1001 t) ∧
    (propagateAll mixedChain [.obj 1, .obj 0]).map (fun H => H.map fun o => match o with
      | .complex c => c.mixed
      | .simple _ => false) = some [true, true, true] := ⟨mixedChain_chain, by decide +kernel⟩

end GoXml.Xsd
