import Verif.Spec.WsdlGen
import Verif.Proofs.GoMap
set_option autoImplicit false

namespace GoXml.Wsdl

theorem shown_eq (t : Str) : exposeType t = shown t := by
  by_cases h : t ∈ hiddenTypes.map (·.1)
  · revert t; decide +kernel
  · have h1 : shown t = t := by
      unfold shown
      rw [List.find?_eq_none.mpr]
      · rfl
      · intro x hx
        simp only [decide_eq_true_eq]
        exact fun e => h (List.mem_map.mpr ⟨x, hx, e⟩)
    rw [h1]
    unfold exposeType
    have hl : hiddenTypes.map (·.1) =
      [b!"xsdDate", b!"xsdTime", b!"xsdDateTime", b!"gDay", b!"gMonth", b!"gMonthDay", b!"gYear", b!"gYearMonth"] ++
      ([b!"hexBinary", b!"base64Binary"] ++ [b!"idrefs", b!"nmtokens", b!"notation", b!"entities"]) := rfl
    rw [hl, List.mem_append, List.mem_append, not_or, not_or] at h
    rw [if_neg h.1, if_neg h.2.1, if_neg h.2.2]

theorem getPartType_iff (code : Code) (p : Part) (t : Str) : getPartType code p = some t ↔ HasType code p t := by
  unfold getPartType
  constructor
  · intro h
    split at h
    · rename_i h1; cases h; exact .type h1
    · rename_i h1
      simp only [ne_eq, Decidable.not_not] at h1
      split at h
      · rename_i h2
        split at h
        · cases h
        · rename_i els hd
          cases hf : els.find? fun el => decide (el.1 = p.element) with
          | none => rw [hf] at h; cases h
          | some e =>
            rw [hf] at h
            simp only [Option.map_some, Option.some.injEq] at h
            subst h
            obtain ⟨he, as, bs, hl, hn⟩ := List.find?_eq_some_iff_append.mp hf
            simp only [decide_eq_true_eq] at he
            refine .element as e.2 bs h1 h2 (by rw [hd, hl, ← he]) ?_
            intro x hx; simpa using hn x hx
      · cases h
  · intro h
    cases h with
    | type h1 => rw [if_pos h1]
    | element els t rest h1 h2 hd hn =>
      rw [if_neg (by simpa using h1), if_pos h2, hd]
      simp only
      rw [List.find?_append, List.find?_eq_none.mpr (by simpa using hn), List.find?_cons]
      simp

theorem partTypes_iff (code : Code) (ps : List Part) (r : List (Part × Str)) :
    partTypes code ps = some r ↔ ∃ ts, HaveTypes code ps ts ∧ r = ps.zip ts := by
  induction ps generalizing r with
  | nil =>
    simp only [partTypes, Option.some.injEq]
    constructor
    · rintro rfl; exact ⟨[], .nil, rfl⟩
    · rintro ⟨ts, h, rfl⟩; simp
  | cons p ps ih =>
    simp only [partTypes]
    constructor
    · intro h
      split at h
      · rename_i t r' h1 h2
        cases h
        obtain ⟨ts, h3, rfl⟩ := (ih r').mp h2
        exact ⟨t :: ts, .cons ((getPartType_iff code p t).mp h1) h3, rfl⟩
      · cases h
    · rintro ⟨ts, h, rfl⟩
      cases h with
      | cons h1 h2 =>
        rename_i t ts
        rw [(getPartType_iff code p t).mpr h1, (ih (ps.zip ts)).mpr ⟨ts, h2, rfl⟩]
        rfl

theorem haveTypes_length {code : Code} {ps : List Part} {ts : List Str} (h : HaveTypes code ps ts) :
    ps.length = ts.length := List.Forall₂.length_eq h

theorem zip_map_snd {ps : List Part} {ts : List Str} (h : ps.length = ts.length) (f : Str → Str) :
    (ps.zip ts).map (fun pt => f pt.2) = ts.map f := by
  induction ps generalizing ts with
  | nil => cases ts with
    | nil => rfl
    | cons t ts => cases h
  | cons p ps ih => cases ts with
    | nil => cases h
    | cons t ts => simp only [List.zip_cons_cons, List.map_cons, ih (by simpa using h)]

end GoXml.Wsdl
