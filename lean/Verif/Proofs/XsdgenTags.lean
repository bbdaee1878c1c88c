import Verif.Spec.XsdgenValues
import Verif.Proofs.XsdgenDecls
set_option autoImplicit false

/-! Lemmas for the theorems about values of generated types: struct tags and layouts. -/

namespace GoXml.Values
open Xsd Xsdgen

theorem cutAt_here {c : UInt8} {a b : Str} (h : c ∉ a) : cutAt c (a ++ c :: b) = some (a, b) := by
  induction a with
  | nil => simp [cutAt]
  | cons x xs ih =>
    rw [List.mem_cons, not_or] at h
    simp only [List.cons_append, cutAt, if_neg (Ne.symm h.1), ih h.2]
    rfl

theorem cutAt_none {c : UInt8} {a : Str} (h : c ∉ a) : cutAt c a = none := by
  induction a with
  | nil => rfl
  | cons x xs ih =>
    rw [List.mem_cons, not_or] at h
    simp only [cutAt, if_neg (Ne.symm h.1), ih h.2]
    rfl

theorem splitComma_none {a : Str} (h : (44 : UInt8) ∉ a) : splitComma a = [a] := by
  induction a with
  | nil => rfl
  | cons x xs ih =>
    rw [List.mem_cons, not_or] at h
    simp only [splitComma, if_neg (Ne.symm h.1), ih h.2]

theorem splitComma_cons {a b : Str} (h : (44 : UInt8) ∉ a) : splitComma (a ++ 44 :: b) = a :: splitComma b := by
  induction a with
  | nil => simp [splitComma]
  | cons x xs ih =>
    rw [List.mem_cons, not_or] at h
    simp only [List.cons_append, splitComma, if_neg (Ne.symm h.1), ih h.2]

theorem tagValue_eq {v : Str} (h : (34 : UInt8) ∉ v) (h' : (92 : UInt8) ∉ v) : tagValue (b!"xml:\"" ++ v ++ b!"\"") = some v := by
  have h1 : (b!"xml:\"" ++ v ++ b!"\"").take 5 = b!"xml:\"" := by rw [List.append_assoc]; exact List.take_left' (by decide)
  have h2 : (b!"xml:\"" ++ v ++ b!"\"").drop 5 = v ++ [34] := by rw [List.append_assoc]; exact List.drop_left' (by decide)
  simp only [tagValue, h1, if_true, h2, cutAt_here h, if_neg h']

/-- The options of a tag. -/
def optText (o : Bool) : Str := if o then b!",omitempty" else []

theorem plain_not {s : Str} (h : PlainName s) {c : UInt8} (hc : c ∈ ([32, 34, 44, 62, 92] : List UInt8)) : c ∉ s := fun hm => h.2 c hm hc
theorem space_not {s : Str} (h : PlainSpace s) {c : UInt8} (hc : c ∈ ([32, 34, 92] : List UInt8)) : c ∉ s := fun hm => h c hm hc

theorem optText_not {o : Bool} {c : UInt8} (hc : c ∈ ([32, 34, 92] : List UInt8)) : c ∉ optText o := by
  cases o
  · exact List.not_mem_nil
  · intro h
    have : ∀ c ∈ ([32, 34, 92] : List UInt8), c ∉ optText true := by decide
    exact this c hc h

theorem elem_tag {field : Str} {n : XName} {o : Bool} (hl : PlainName n.loc) (hs : PlainSpace n.space) :
    tagInfo field (b!"xml:\"" ++ n.space ++ b!" " ++ n.loc ++ optText o ++ b!"\"") = some ⟨.element, n, o⟩ := by
  have hv : tagValue (b!"xml:\"" ++ n.space ++ b!" " ++ n.loc ++ optText o ++ b!"\"") = some (n.space ++ 32 :: (n.loc ++ optText o)) := by
    have : b!"xml:\"" ++ n.space ++ b!" " ++ n.loc ++ optText o ++ b!"\"" = b!"xml:\"" ++ (n.space ++ 32 :: (n.loc ++ optText o)) ++ b!"\"" := by
      simp
    rw [this]
    refine tagValue_eq ?_ ?_ <;> simp only [List.mem_append, List.mem_cons, not_or]
    · exact ⟨space_not hs (by decide), by decide, plain_not hl (by decide), optText_not (by decide)⟩
    · exact ⟨space_not hs (by decide), by decide, plain_not hl (by decide), optText_not (by decide)⟩
  unfold tagInfo
  rw [hv]
  simp only [cutAt_here (space_not hs (c := 32) (by decide)), Option.getD_some]
  cases o
  · have : splitComma (n.loc ++ optText false) = [n.loc] := by
      simp only [optText, List.append_nil, Bool.false_eq_true, if_false]
      exact splitComma_none (plain_not hl (by decide))
    rw [this]
    simp [modeOf, hl.1]
  · have : splitComma (n.loc ++ optText true) = [n.loc, b!"omitempty"] := by
      show splitComma (n.loc ++ 44 :: b!"omitempty") = _
      rw [splitComma_cons (plain_not hl (by decide))]
      rfl
    rw [this]
    have hm : modeOf [b!"omitempty"] = some .element := by decide
    simp [hm, hl.1]

theorem attr_flags (o : Bool) : splitComma (b!"attr" ++ optText o) = b!"attr" :: (if o then [b!"omitempty"] else []) := by
  cases o <;> decide

theorem attr_info {field : Str} {n : XName} {o : Bool} {v : Str} (hl : PlainName n.loc)
    (hc : (cutAt 32 v).getD ([], v) = (n.space, n.loc ++ 44 :: (b!"attr" ++ optText o))) (hv : tagValue (b!"xml:\"" ++ v ++ b!"\"") = some v) :
    tagInfo field (b!"xml:\"" ++ v ++ b!"\"") = some ⟨.attr, n, o⟩ := by
  unfold tagInfo
  rw [hv]
  simp only [hc, splitComma_cons (plain_not hl (c := 44) (by decide)), attr_flags]
  have hm : modeOf (b!"attr" :: (if o then [b!"omitempty"] else [])) = some .attr := by cases o <;> decide
  have ho : decide (b!"omitempty" ∈ b!"attr" :: (if o then [b!"omitempty"] else [])) = o := by cases o <;> decide
  simp only [hm, ho]
  simp [hl.1]

theorem attrText_not {o : Bool} {c : UInt8} (hc : c ∈ ([32, 34, 92] : List UInt8)) : c ∉ b!"attr" ++ optText o := by
  rw [List.mem_append, not_or]
  refine ⟨?_, optText_not hc⟩
  intro h
  have : ∀ c ∈ ([32, 34, 92] : List UInt8), c ∉ b!"attr" := by decide
  exact this c hc h

theorem attr_tag {field : Str} {n : XName} {o : Bool} (hl : PlainName n.loc) (hs : PlainSpace n.space) :
    tagInfo field (b!"xml:\"" ++ n.space ++ b!" " ++ n.loc ++ b!",attr" ++ optText o ++ b!"\"") = some ⟨.attr, n, o⟩ := by
  have : b!"xml:\"" ++ n.space ++ b!" " ++ n.loc ++ b!",attr" ++ optText o ++ b!"\"" =
      b!"xml:\"" ++ (n.space ++ 32 :: (n.loc ++ 44 :: (b!"attr" ++ optText o))) ++ b!"\"" := by simp
  rw [this]
  refine attr_info hl ?_ (tagValue_eq ?_ ?_)
  · rw [cutAt_here (space_not hs (by decide))]
    rfl
  all_goals
    rw [List.mem_append, List.mem_cons, List.mem_append, List.mem_cons, not_or, not_or, not_or, not_or]
    exact ⟨space_not hs (by decide), by decide, plain_not hl (by decide), by decide, attrText_not (by decide)⟩

theorem attr_tag_local {field : Str} {l : Str} {o : Bool} (hl : PlainName l) :
    tagInfo field (b!"xml:\"" ++ l ++ b!",attr" ++ optText o ++ b!"\"") = some ⟨.attr, ⟨[], l⟩, o⟩ := by
  have : b!"xml:\"" ++ l ++ b!",attr" ++ optText o ++ b!"\"" = b!"xml:\"" ++ (l ++ 44 :: (b!"attr" ++ optText o)) ++ b!"\"" := by simp
  rw [this]
  have h32 : (32 : UInt8) ∉ l ++ 44 :: (b!"attr" ++ optText o) := by
    rw [List.mem_append, List.mem_cons, not_or, not_or]
    exact ⟨plain_not hl (by decide), by decide, attrText_not (by decide)⟩
  refine attr_info (n := ⟨[], l⟩) hl ?_ (tagValue_eq ?_ ?_)
  · rw [cutAt_none h32]
    rfl
  all_goals
    rw [List.mem_append, List.mem_cons, not_or, not_or]
    exact ⟨plain_not hl (by decide), by decide, attrText_not (by decide)⟩

theorem data_tag (field : Str) : tagInfo field b!"xml:\",chardata\"" = some ⟨.chardata, ⟨[], field⟩, false⟩ := by
  have hv : tagValue b!"xml:\",chardata\"" = some b!",chardata" := by decide
  have hc : (cutAt 32 b!",chardata").getD ([], b!",chardata") = ([], b!",chardata") := by decide
  have hs : splitComma b!",chardata" = [[], b!"chardata"] := by decide
  have hm : modeOf [b!"chardata"] = some .chardata := by decide
  have ho : decide (b!"omitempty" ∈ [b!"chardata"]) = false := by decide
  unfold tagInfo
  rw [hv]
  simp [hc, hs, hm]

/-! ### Layouts -/

theorem conflicts_symm (a b : Entry) : a.conflicts b = b.conflicts a := by
  simp only [Entry.conflicts]
  congr 1
  simp only [eq_comm (a := a.info.mode), eq_comm (a := a.info.name)]

theorem addFields_apart : ∀ (es old : List Entry), (old ++ es).Pairwise (fun a b => a.conflicts b = false) → addFields old es = some (old ++ es) := by
  intro es
  induction es with
  | nil => intro old _; rw [List.append_nil]; rfl
  | cons e es ih =>
    intro old h
    have hc : old.filter e.conflicts = [] := by
      rw [List.filter_eq_nil_iff]
      intro a ha
      have := (List.pairwise_append.mp h).2.2 a ha e (List.mem_cons_self ..)
      rw [conflicts_symm, this]
      exact Bool.false_ne_true
    simp only [addFields, addField, hc, if_true, Option.bind_some]
    rw [ih (old ++ [e]) (by simpa using h)]
    simp

/-- Overriding fields take the place of those they conflict with. -/
theorem addFields_over : ∀ (ps A B : List Entry), (∀ a ∈ A, a.depth = 2) → (∀ p ∈ ps, p.depth = 1) →
    (B ++ ps).Pairwise (fun a b => a.conflicts b = false) →
    addFields (A ++ B) ps = some (A.filter (fun a => ps.all fun p => !p.conflicts a) ++ B ++ ps) := by
  intro ps
  induction ps with
  | nil => intro A B _ _ _; simp [addFields, List.filter_eq_self.mpr]
  | cons p ps ih =>
    intro A B hA hp hB
    have hb : ∀ b ∈ B, p.conflicts b = false := by
      intro b hb
      rw [conflicts_symm]
      exact (List.pairwise_append.mp hB).2.2 b hb p (List.mem_cons_self ..)
    have hstep : addField (A ++ B) p = some (A.filter (fun a => !p.conflicts a) ++ (B ++ [p])) := by
      have hfB : B.filter p.conflicts = [] := by
        rw [List.filter_eq_nil_iff]
        intro b hb'
        rw [hb b hb']
        exact Bool.false_ne_true
      have hfB' : B.filter (fun o => !p.conflicts o) = B := by
        rw [List.filter_eq_self]
        intro b hb'
        rw [hb b hb']
        rfl
      unfold addField
      simp only [List.filter_append, hfB, List.append_nil, hfB']
      split
      · rename_i h
        rw [List.filter_eq_nil_iff] at h
        have : A.filter (fun a => !p.conflicts a) = A := by
          rw [List.filter_eq_self]
          intro a ha
          have := h a ha
          simp [this]
        rw [this, List.append_assoc]
      · have hd : ∀ o ∈ A.filter p.conflicts, o.depth = 2 := fun o ho => hA o (List.mem_of_mem_filter ho)
        have hp1 := hp p (List.mem_cons_self ..)
        rw [if_neg, if_neg, List.append_assoc]
        · rw [List.any_eq_true]
          rintro ⟨o, ho, h⟩
          have := hd o ho
          simp only [decide_eq_true_eq] at h
          omega
        · rw [List.any_eq_true]
          rintro ⟨o, ho, h⟩
          have := hd o ho
          simp only [decide_eq_true_eq] at h
          omega
    simp only [addFields, hstep, Option.bind_some]
    rw [ih _ _ (fun a ha => hA a (List.mem_of_mem_filter ha)) (fun q hq => hp q (List.mem_cons_of_mem _ hq)) (by simpa using hB)]
    simp only [List.filter_filter, List.all_cons, List.append_assoc, List.cons_append, List.nil_append]
    congr 2
    refine List.filter_congr fun a _ => ?_
    rw [Bool.and_comm]

end GoXml.Values
