import Verif.Proofs.XsdgenAccepted
set_option autoImplicit false

/-! Ways to see that concrete types are coherent and make lists that there is code for. -/

namespace GoXml.Xsdgen
open Xsd

instance (b : Builtin) : Decidable (InSchema b) := by unfold InSchema; infer_instance

def tyRank (rank : List Nat) : Ty → Nat
  | .obj j => (rank[j]?).getD 0 + 1
  | _ => 0

theorem ancestor_rank {H : THeap} {rank : List Nat} (h : ∀ t b, baseOf H t = some b → tyRank rank b < tyRank rank t) {t a : Ty}
    (ha : Ancestor H t a) : tyRank rank a ≤ tyRank rank t := by
  induction ha with
  | self => exact Nat.le_refl _
  | base hb _ ih => exact Nat.le_trans ih (Nat.le_of_lt (h _ _ hb))

/-- The built-in type at the end of a chain of bases. -/
def lastBuiltin (H : THeap) : Nat → Ty → Option Builtin
  | _, .builtin b => some b
  | 0, _ => none
  | n + 1, t => (baseOf H t).bind (lastBuiltin H n)

theorem lastBuiltin_ancestor {H : THeap} {t : Ty} {b : Builtin} (h : Ancestor H t (.builtin b)) :
    ∀ n b', lastBuiltin H n t = some b' → b' = b := by
  generalize ha : Ty.builtin b = a at h
  induction h with
  | self =>
    subst ha
    intro n b' e
    rw [lastBuiltin] at e
    exact (Option.some.inj e).symm
  | @base t c a hb _ ih =>
    intro n b' e
    cases t with
    | builtin => cases hb
    | link => cases hb
    | obj j =>
      cases n with
      | zero => rw [lastBuiltin] at e; cases e; simp
      | succ n =>
        rw [lastBuiltin, hb] at e
        exact ih ha n b' e
        simp

def typeOk : Ty → Bool
  | .builtin b => decide (InSchema b)
  | _ => true

theorem typeOk_iff {t : Ty} (h : typeOk t = true) (b : Builtin) (e : t = .builtin b) : InSchema b := by
  subst e
  exact of_decide_eq_true h

def fieldsOk : TObj → Bool
  | .complex c => c.elements.all (fun e => typeOk e.type) && c.attributes.all fun a => typeOk a.type
  | .simple _ => true

def listOk (H : THeap) (id : Nat) : TObj → Bool
  | .simple s => !s.list || (lastBuiltin H 20 (.obj id)).any fun b => decide ((builtinName b).loc ∉ unlisted)
  | .complex _ => true

/-- What is left of the conditions of C153 on types, decided. -/
def acceptedOk (rank : List Nat) (H : THeap) : Bool :=
  H.all (fun o => o.base.isSome) && H.all fieldsOk &&
  (List.range H.length).all (fun id => (baseOf H (.obj id)).all fun b => decide (tyRank rank b < tyRank rank (.obj id))) &&
  (List.range H.length).all fun id => (H[id]?).all (listOk H id)

theorem acceptedOk_of {rank : List Nat} {H : THeap} (h : acceptedOk rank H = true) : (∀ o ∈ H, o.base ≠ none) ∧
    (∀ (id : Nat) c, H[id]? = some (.complex c) → (∀ e ∈ c.elements, ∀ b, e.type = .builtin b → InSchema b) ∧
      ∀ a ∈ c.attributes, ∀ b, a.type = .builtin b → InSchema b) ∧
    (∀ (id : Nat) b, baseOf H (.obj id) = some b → ¬ Ancestor H b (.obj id)) ∧ Listed H := by
  simp only [acceptedOk, Bool.and_eq_true, List.all_eq_true, List.mem_range] at h
  obtain ⟨⟨⟨h1, h2⟩, h3⟩, h4⟩ := h
  have lt : ∀ (id : Nat) o, H[id]? = some o → id < H.length := fun id o e => (List.getElem?_eq_some_iff.mp e).1
  refine ⟨fun o ho e => ?_, fun id c e => ?_, fun id b hb ha => ?_, fun id s b hs hl ha => ?_⟩
  · have := h1 o ho
    rw [e] at this
    cases this
  · have := h2 _ (List.mem_of_getElem? e)
    simp only [fieldsOk, Bool.and_eq_true, List.all_eq_true] at this
    exact ⟨fun x hx => typeOk_iff (this.1 x hx), fun x hx => typeOk_iff (this.2 x hx)⟩
  · have hrank : ∀ t b, baseOf H t = some b → tyRank rank b < tyRank rank t := by
      intro t b e
      cases t with
      | builtin => cases e
      | link => cases e
      | obj j =>
        cases hj : H[j]? with
        | none => simp only [baseOf, hj] at e; cases e
        | some o =>
          have := h3 j (lt _ _ hj)
          rw [e] at this
          exact of_decide_eq_true this
    have h5 := hrank _ _ hb
    have h6 := ancestor_rank hrank ha
    omega
  · have := h4 id (lt _ _ hs)
    simp only [hs, Option.all_some, listOk, hl, Bool.not_true, Bool.false_or] at this
    cases e : lastBuiltin H 20 (.obj id) with
    | none => rw [e] at this; cases this
    | some b' =>
      rw [e] at this
      cases lastBuiltin_ancestor ha _ _ e
      exact of_decide_eq_true this

end GoXml.Xsdgen
