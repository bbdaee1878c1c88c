import Verif.Spec.Xsdgen
import Verif.Proofs.GoMap
set_option autoImplicit false

/-! Lemmas about the configuration of xsdgen. -/

namespace GoXml.Xsdgen
open Xsd

/-- Two states between which the options go back and forth. -/
theorem undoable_of_swap {C O : Type} (apply : O → C → C × O) (o : O) (c : C) (o' : O)
    (h1 : apply (apply o c).2 (apply o c).1 = (c, o')) (h2 : apply o' c = apply o c) : Undoable apply o c := by
  have key : ∀ n : Nat, undoChain apply o c (2 * n) = apply o c ∧ undoChain apply o c (2 * n + 1) = (c, o') := by
    intro n
    induction n with
    | zero => exact ⟨rfl, h1⟩
    | succ n ih =>
      have e : undoChain apply o c (2 * (n + 1)) = apply o c := by
        show apply (undoChain apply o c (2 * n + 1)).2 (undoChain apply o c (2 * n + 1)).1 = _
        rw [ih.2, h2]
      refine ⟨e, ?_⟩
      show apply (undoChain apply o c (2 * (n + 1))).2 (undoChain apply o c (2 * (n + 1))).1 = _
      rw [e, h1]
  intro n
  rw [(key n).1, (key n).2]
  exact ⟨rfl, rfl⟩

theorem keepAttrs_eq (p : XAttr → Bool) (as : List XAttr) : keepAttrs (some p) as = as.filter fun a => !p a := by
  induction as with
  | nil => rfl
  | cons a as ih => simp only [keepAttrs, ih, List.filter_cons]; cases p a <;> rfl

theorem keepAttrs_none (as : List XAttr) : keepAttrs none as = as := by
  induction as with
  | nil => rfl
  | cons a as ih => simp only [keepAttrs, ih]

theorem keepElems_eq (p : XElem → Bool) (es : List XElem) : keepElems (some p) es = es.filter fun e => !p e := by
  induction es with
  | nil => rfl
  | cons a as ih => simp only [keepElems, ih, List.filter_cons]; cases p a <;> rfl

theorem keepElems_none (es : List XElem) : keepElems none es = es := by
  induction es with
  | nil => rfl
  | cons a as ih => simp only [keepElems, ih]

end GoXml.Xsdgen
