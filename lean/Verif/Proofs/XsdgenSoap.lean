import Verif.Model.XsdgenSoap
import Verif.Spec.XsdgenSoap
import Verif.Props.XmlScope
set_option autoImplicit false

namespace GoXml.Xsdgen
open Xsd

theorem itemTypeName_eq (sc : Scope) {as bs : List Attr} {v : Str} (h : ∀ a ∈ as, a.name ≠ wsdlArrayType) :
    itemTypeName sc (as ++ ⟨wsdlArrayType, v⟩ :: bs) = resolve sc v := by
  induction as with
  | nil => simp only [List.nil_append, itemTypeName]; rw [if_neg (by simp [wsdlArrayType, wsdlNS])]
  | cons a as ih =>
    have : a.name ≠ ⟨wsdlNS, b!"arrayType"⟩ := h a (by simp)
    simp only [List.cons_append, itemTypeName, if_pos this]
    exact ih fun x hx => h x (by simp [hx])

theorem itemTypeName_none (sc : Scope) {as : List Attr} (h : ∀ a ∈ as, a.name ≠ wsdlArrayType) : itemTypeName sc as = ⟨[], []⟩ := by
  induction as with
  | nil => rfl
  | cons a as ih =>
    have : a.name ≠ ⟨wsdlNS, b!"arrayType"⟩ := h a (by simp)
    simp only [itemTypeName, if_pos this]
    exact ih fun x hx => h x (by simp [hx])

theorem arrayAttrs_eq {pre post : List XAttr} {v : XAttr} (hpre : ∀ a ∈ pre, a.name.loc ≠ b!"arrayType") (hv : v.name.loc = b!"arrayType") :
    arrayAttrs (pre ++ v :: post) = (pre, itemTypeName v.scope v.attr) := by
  induction pre with
  | nil => simp [arrayAttrs, hv]
  | cons a pre ih =>
    simp only [List.cons_append, arrayAttrs, if_pos (hpre a (by simp)), ih fun x hx => hpre x (by simp [hx])]

theorem arrayAttrs_none {as : List XAttr} (h : ∀ a ∈ as, ∀ x ∈ a.attr, x.name ≠ wsdlArrayType) : (arrayAttrs as).2 = ⟨[], []⟩ := by
  induction as with
  | nil => rfl
  | cons a as ih =>
    simp only [arrayAttrs]
    split
    · exact ih fun x hx => h x (by simp [hx])
    · exact itemTypeName_none _ (h a (by simp))

theorem trimLeft_none {s : Str} (h : ∀ c, s.head? = some c → isSpace c = false) : trimLeft s = s := by
  cases s with
  | nil => rfl
  | cons c s => simp [trimLeft, h c rfl]

theorem trim_item {l : Str} (hne : l ≠ []) (h : ∀ c ∈ l, isSpace c = false) : trimBrackets (trimSpace (l ++ b!"[]")) = l := by
  have h1 : trimLeft (l ++ b!"[]") = l ++ b!"[]" := by
    apply trimLeft_none
    intro c hc
    cases l with
    | nil => exact absurd rfl hne
    | cons x l => simp only [List.cons_append, List.head?_cons, Option.some.injEq] at hc; exact hc ▸ h x (by simp)
  have h2 : trimLeft (l ++ b!"[]").reverse = (l ++ b!"[]").reverse := by
    apply trimLeft_none
    intro c hc
    simp only [List.reverse_append] at hc
    have : c = 93 := by simpa using hc.symm
    rw [this]; decide
  unfold trimSpace trimBrackets
  rw [h1, h2]
  simp

/-- The item type that is looked up. -/
theorem resolve_items {v : XAttr} {item : XName} (h : DeclaresItems v item) :
    itemTypeName v.scope v.attr = ⟨item.space, item.loc ++ b!"[]"⟩ := by
  obtain ⟨-, as, bs, q, p, h1, h2, h3, h4, h5, h6, h7, h8⟩ := h
  rw [h1, itemTypeName_eq _ h2]
  have hq : QNameParts (q ++ b!"[]") p (item.loc ++ b!"[]") := by
    rcases h3 with ⟨rfl, hp⟩ | ⟨hc, rfl, rfl⟩
    · exact .inl ⟨by simp, hp⟩
    · exact .inr ⟨by simp [hc], rfl, rfl⟩
  obtain ⟨-, -, r, -, e⟩ := C03_resolveNS v.scope _ _ _ hq
  rw [e, r h4 h5 _ h6]

theorem findWildcard_eq {H : THeap} {k : Nat} {t : Ty} {e : XElem} (h : FirstWildcard H k t e) :
    ∀ n, k < n → findWildcard H n t = .ok (some e) := by
  induction h with
  | @here k id c b as bs e h1 h2 h3 h4 h5 =>
    intro n hn
    obtain ⟨n, rfl⟩ : ∃ j, n = j + 1 := ⟨n - 1, by omega⟩
    have hf : c.elements.find? (·.wildcard) = some e := by
      rw [h3, List.find?_append, List.find?_eq_none.mpr (by simpa using h4)]
      simp [h5]
    simp only [findWildcard, baseOf, h1, TObj.base, h2, hf]
  | @up k id c b e h1 h2 h3 _ ih =>
    intro n hn
    obtain ⟨n, rfl⟩ : ∃ j, n = j + 1 := ⟨n - 1, by omega⟩
    have hf : c.elements.find? (·.wildcard) = none := List.find?_eq_none.mpr (by simpa using h3)
    simp only [findWildcard, baseOf, h1, TObj.base, h2, hf]
    exact ih n (by omega)

theorem firstWildcard_wildcard {H : THeap} {k : Nat} {t : Ty} {e : XElem} (h : FirstWildcard H k t e) : e.wildcard = true := by
  induction h with
  | here _ _ _ _ h => exact h
  | up _ _ _ _ ih => exact ih

/-- The elements after the wildcard was overridden. -/
theorem override_elements {es : List XElem} {el : XElem} (hw : el.wildcard = true) :
    let es' := if es.any (·.wildcard) then es.map fun e => if e.wildcard then el else e else es ++ [el]
    (∀ e ∈ es', e.wildcard = true → e = el) ∧ (∃ e ∈ es', e.wildcard = true) ∧
      es'.filter (fun e => !e.wildcard) = es.filter (fun e => !e.wildcard) := by
  intro es'
  have hes : es' = if es.any (·.wildcard) then es.map fun e => if e.wildcard then el else e else es ++ [el] := rfl
  split at hes
  · next hany =>
    rw [hes]
    refine ⟨?_, ?_, ?_⟩
    · intro e he hwe
      obtain ⟨x, _, rfl⟩ := List.mem_map.mp he
      split
      · rfl
      · next hx => rw [if_neg hx] at hwe; exact absurd hwe hx
    · obtain ⟨x, hx, hxw⟩ := List.any_eq_true.mp hany
      exact ⟨el, List.mem_map.mpr ⟨x, hx, by simp [hxw]⟩, hw⟩
    · clear hes hany es'
      induction es with
      | nil => rfl
      | cons e es ih =>
        simp only [List.map_cons, List.filter_cons]
        by_cases he : e.wildcard = true
        · simp [he, hw, ih]
        · simp [he, ih]
  · next hany =>
    rw [hes]
    simp only [List.any_eq_true, not_exists, not_and, Bool.not_eq_true] at hany
    refine ⟨?_, ⟨el, by simp, hw⟩, by simp [hw]⟩
    intro e he hwe
    rcases List.mem_append.mp he with he | he
    · rw [hany e he] at hwe; cases hwe
    · simpa using he

end GoXml.Xsdgen
