import Verif.Model.XsdgenList
import Verif.Proofs.Numbers
set_option autoImplicit false

/-! Words joined by blanks are read back. -/

namespace GoXml.Xsdgen
open Xsd

theorem fieldsLoop_word (w : Str) (hs : ∀ c ∈ w, isSpace c = false) : ∀ (cur rest : Str),
    fieldsLoop cur (w ++ rest) = fieldsLoop (w.reverse ++ cur) rest := by
  induction w with
  | nil => intro cur rest; rfl
  | cons c cs ih =>
    intro cur rest
    have h1 := hs c (by simp)
    simp only [List.cons_append, fieldsLoop, h1, Bool.false_eq_true, if_false]
    rw [ih (fun d hd => hs d (by simp [hd]))]
    simp

theorem fields_join : ∀ (ws : List Str), (∀ w ∈ ws, w ≠ [] ∧ ∀ c ∈ w, isSpace c = false) → fields (joinStr b!" " ws) = ws := by
  intro ws
  induction ws with
  | nil => intro _; rfl
  | cons w ws ih =>
    intro h
    obtain ⟨h1, h2⟩ := h w (by simp)
    cases ws with
    | nil =>
      simp only [joinStr, fields]
      have := fieldsLoop_word w h2 [] []
      simp only [List.append_nil] at this
      rw [this]
      simp [fieldsLoop, h1]
    | cons v vs =>
      have ih := ih (fun w hw => h w (by simp [hw]))
      simp only [joinStr, fields] at ih ⊢
      rw [List.append_assoc, fieldsLoop_word w h2]
      have hb : isSpace 32 = true := by decide
      show fieldsLoop (w.reverse ++ []) (32 :: joinStr b!" " (v :: vs)) = _
      simp only [List.append_nil, fieldsLoop, hb, if_true, List.reverse_eq_nil_iff, h1, if_false, List.reverse_reverse]
      rw [ih]

theorem listAppend_eq {α : Type} (parse : Str → Option α) (fmt : α → Str) (y : List α) (h : ∀ a ∈ y, parse (fmt a) = some a) :
    ∀ x, listAppend parse x (y.map fmt) = some (x ++ y) := by
  induction y with
  | nil => intro x; simp [listAppend]
  | cons a as ih =>
    intro x
    simp only [List.map_cons, listAppend, h a (by simp)]
    rw [ih (fun b hb => h b (by simp [hb]))]
    simp

/-- If every item is read back from its text, and the text is a word, so is the list. -/
theorem list_roundtrip {α : Type} (parse : Str → Option α) (fmt : α → Str) (x y : List α) (h : ∀ a ∈ y, parse (fmt a) = some a)
    (hw : ∀ a ∈ y, fmt a ≠ [] ∧ ∀ c ∈ fmt a, isSpace c = false) :
    listUnmarshal parse x (listMarshal fmt y) = some (x ++ y) := by
  unfold listUnmarshal listMarshal
  rw [fields_join _ (by
    intro w hw'
    obtain ⟨a, ha, rfl⟩ := List.mem_map.mp hw'
    exact hw a ha)]
  exact listAppend_eq parse fmt y h x

theorem digit_not_space (c : UInt8) (h : IsDigit c) : isSpace c = false := by
  have key : ∀ k ∈ List.range 256, (48 ≤ UInt8.ofNat k ∧ UInt8.ofNat k ≤ 57) → isSpace (UInt8.ofNat k) = false := by decide +kernel
  have := key c.toNat (by simp; exact UInt8.toNat_lt c)
  rw [UInt8.ofNat_toNat] at this
  exact this h

theorem natStr_word (n : Nat) : natStr n ≠ [] ∧ ∀ c ∈ natStr n, isSpace c = false :=
  ⟨natStr_ne_nil n, fun c hc => digit_not_space c (natStr_digits n c hc)⟩

theorem intStr_word (i : Int) : intStr i ≠ [] ∧ ∀ c ∈ intStr i, isSpace c = false := by
  unfold intStr
  split
  · refine ⟨by simp, ?_⟩
    intro c hc
    rcases List.mem_append.mp hc with hc | hc
    · simp at hc; subst hc; decide
    · exact (natStr_word _).2 c hc
  · exact natStr_word _

end GoXml.Xsdgen
