import Verif.Spec.XsdgenValues
set_option autoImplicit false

/-! Lemmas for the theorems about values of generated types: how the model computes what the vocabulary describes. -/

namespace GoXml.Values
open Xsd Xsdgen

theorem byteType_iff {decls : GoMap Str Spec} {e : GoExpr} : ByteType decls e ↔ isByte decls e = true := by
  constructor
  · rintro (_ | ⟨h1, h2⟩)
    · simp [isByte]
    · simp [isByte, h1, h2]
  · intro h
    match e, h with
    | .ident s, h =>
      simp only [isByte, Bool.or_eq_true, decide_eq_true_eq] at h
      rcases h with rfl | h
      · exact .byte
      · cases hd : decls.get s with
        | none => simp [hd] at h
        | some sp =>
          simp only [hd, decide_eq_true_eq] at h
          exact .named hd h
    | .array _, h => simp [isByte] at h

theorem notByteType_iff {decls : GoMap Str Spec} {e : GoExpr} : ¬ ByteType decls e ↔ isByte decls e = false := by
  rw [byteType_iff, Bool.not_eq_true]

theorem shaped_shape (decls : GoMap Str Spec) : ∀ e : GoExpr, Shaped decls e (shape decls e).1 (shape decls e).2
  | .ident s => by
    cases hd : decls.get s with
    | none =>
      by_cases hn : s = b!"xml.Name"
      · subst hn
        simpa [shape, hd] using Shaped.name hd
      · simpa [shape, hd, hn] using Shaped.go hd hn
    | some sp =>
      cases he : sp.expr with
      | struct fs => simpa [shape, hd, he] using Shaped.struct hd he
      | plain t =>
        cases t with
        | ident t => simpa [shape, hd, he] using Shaped.plain hd he
        | array t =>
          by_cases h : sp.methods = [] ∧ isByte decls t = false
          · have := Shaped.bare hd he h.1 (notByteType_iff.mpr h.2)
            simpa [shape, hd, he, h.1, h.2] using this
          · have : Shaped decls (.ident s) 0 (.text (.ident s)) := by
              refine Shaped.methods hd he ?_
              by_cases hm : sp.methods = []
              · exact Or.inr (byteType_iff.mpr (by simpa [hm] using h))
              · exact Or.inl hm
            simp only [shape, hd, he, if_neg h]
            exact this
  | .array e => by
    cases hb : isByte decls e with
    | true => simpa [shape, hb] using Shaped.bytes (byteType_iff.mpr hb)
    | false => simpa [shape, hb] using Shaped.slice (notByteType_iff.mpr hb) (shaped_shape decls e)

theorem Shaped.shape {decls : GoMap Str Spec} {e : GoExpr} {k : Nat} {b : Base} (h : Shaped decls e k b) : Values.shape decls e = (k, b) := by
  induction h with
  | struct h1 h2 => simp [Values.shape, h1, h2]
  | bare h1 h2 h3 h4 => simp [Values.shape, h1, h2, h3, notByteType_iff.mp h4]
  | methods h1 h2 h3 =>
    simp only [Values.shape, h1, h2]
    rw [if_neg]
    rintro ⟨g1, g2⟩
    rcases h3 with h3 | h3
    · exact h3 g1
    · rw [byteType_iff, g2] at h3
      cases h3
  | plain h1 h2 => simp [Values.shape, h1, h2]
  | name h1 => simp [Values.shape, h1]
  | go h1 h2 => simp [Values.shape, h1, h2]
  | bytes h => simp [Values.shape, byteType_iff.mp h]
  | slice h _ ih => simp [Values.shape, notByteType_iff.mp h, ih]

theorem shaped_iff {decls : GoMap Str Spec} {e : GoExpr} {k : Nat} {b : Base} : Shaped decls e k b ↔ shape decls e = (k, b) := by
  refine ⟨Shaped.shape, fun h => ?_⟩
  have := shaped_shape decls e
  rwa [h] at this

instance (decls : GoMap Str Spec) (e : GoExpr) : Decidable (ByteType decls e) := decidable_of_iff _ byteType_iff.symm
instance (decls : GoMap Str Spec) (e : GoExpr) (k : Nat) (b : Base) : Decidable (Shaped decls e k b) := decidable_of_iff _ shaped_iff.symm

theorem textOf_eq : ∀ kids : List XNode, textOf kids = textIn kids
  | [] => rfl
  | .text s :: ks => by
    rw [textIn, ← textOf_eq ks]
    simp [textOf]
  | .elem _ _ _ :: ks => by
    rw [textIn, ← textOf_eq ks]
    simp [textOf]

theorem OnlyText.eq {s : Str} {kids : List XNode} (h : OnlyText s kids) : kids = textKids s := by
  unfold textKids
  rcases h with ⟨h, hk⟩ | ⟨h, hk⟩
  · rw [if_pos h, hk]
  · rw [if_neg h, hk]

theorem onlyText (s : Str) : OnlyText s (textKids s) := by
  unfold textKids OnlyText
  by_cases h : s = [] <;> simp [h]

end GoXml.Values
