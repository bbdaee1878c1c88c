import Verif.Proofs.XsdNamed
set_option autoImplicit false

/-! A decision procedure for the conditions of `parse_orderly` and `parse_regular`. -/

namespace GoXml.Xsd
open Wsdl (attrNamed allNamed below defines refersTo)

/-- The names of the top-level elements. -/
def aliasNames (r : Element) : List XName :=
  (r.children.filter fun el => decide (el.name = ⟨w3cSchemaNS, b!"element"⟩)).map (defines (target r))

def orderlyOk (roots : List Element) : Bool :=
  decide (roots.map target).Nodup &&
  roots.all fun r =>
    decide (typeNames r).Nodup &&
    (typeNames r ++ aliasNames r).all (fun n => decide (n.loc = [] ∧ n ∉ typeNames r) || decide (n.space = target r ∧ n.space ∉ [schemaNS, xmlXsdNS])) &&
    (decide (target r ≠ []) || decide (Wsdl.denoted r.scope b!"_self" = selfName r)) &&
    r.children.all fun el => decide (el.name ≠ ⟨w3cSchemaNS, b!"element"⟩) ||
      (decide ((defines (target r) el).loc ≠ b!"_self") && decide ((refersTo el b!"type").loc ≠ b!"_self"))

theorem orderly_of {roots : List Element} (h : orderlyOk roots = true) : Orderly roots := by
  simp only [orderlyOk, Bool.and_eq_true, List.all_eq_true, decide_eq_true_eq, Bool.or_eq_true] at h
  obtain ⟨h0, h⟩ := h
  have hn : ∀ r ∈ roots, ∀ n, n ∈ typeNames r ∨ Alias r n → n.space = target r ∧ n.space ∉ [schemaNS, xmlXsdNS] := by
    intro r hr n hn
    have := (h r hr).1.1.2 n (by
      rcases hn with hn | ⟨el, hel, he, rfl, -⟩
      · exact List.mem_append_left _ hn
      · exact List.mem_append_right _ (List.mem_map.mpr ⟨el, List.mem_filter.mpr ⟨hel, by simp [he]⟩, rfl⟩))
    rcases this with ⟨h1, h2⟩ | h
    · rcases hn with hn | ⟨el, hel, he, -, hl, -⟩
      · exact absurd hn h2
      · exact absurd h1 hl
    · exact h
  refine ⟨h0, fun r hr => (h r hr).1.1.1, fun r hr n hn' => (hn r hr n hn').1, ?_, ?_, ?_⟩
  · intro r hr ht
    rcases (h r hr).1.2 with h | h
    · exact absurd ht h
    · exact h
  · intro r hr n hn' b hb
    refine (hn r hr n hn').2 ?_
    rw [hb, builtinName]
    split
    · simp
    · split <;> simp
  · intro r hr el hel he
    rcases (h r hr).2 el hel with h | h
    · exact absurd he h
    · exact h

def givesBase (c : Element) : Bool :=
  decide (c.name = ⟨w3cSchemaNS, b!"restriction"⟩) || decide (c.name = ⟨w3cSchemaNS, b!"list"⟩) ||
  (decide (c.name = ⟨w3cSchemaNS, b!"union"⟩) && (attrNamed c b!"memberTypes").any fun x => decide (x ∉ ([9, 10, 11, 12, 13, 32] : Str)))

def regularOk (roots : List Element) : Bool :=
  roots.all fun r =>
    ((allNamed r w3cSchemaNS b!"simpleType").all fun d => d.children.any givesBase) &&
    ((below r).all fun d => decide ((refersTo d b!"type").loc ≠ b!"_self") && [b!"base", b!"itemType"].all fun a =>
      decide ((refersTo d a).loc ≠ b!"_self") && decide ((refersTo d a).space ≠ b!"http://www.w3.org/2009/01/xml.xsd")) &&
    r.children.all fun el => decide ((refersTo el b!"type").space ≠ b!"http://www.w3.org/2009/01/xml.xsd")

theorem regular_of {roots : List Element} (h : regularOk roots = true) : Regular roots := by
  simp only [regularOk, Bool.and_eq_true, List.all_eq_true, decide_eq_true_eq, List.any_eq_true] at h
  refine ⟨?_, ?_, ?_, ?_⟩
  · intro r hr d hd
    obtain ⟨c, hc, hg⟩ := (h r hr).1.1 d hd
    refine ⟨c, hc, ?_⟩
    simp only [givesBase, Bool.or_eq_true, Bool.and_eq_true, decide_eq_true_eq, List.any_eq_true] at hg
    rcases hg with (hg | hg) | ⟨hg, x, hx⟩
    · exact Or.inl hg
    · exact Or.inr (Or.inl hg)
    · exact Or.inr (Or.inr ⟨hg, x, hx⟩)
  · intro r hr d hd a ha
    have := (h r hr).1.2 d hd
    rcases List.mem_cons.mp ha with rfl | ha
    · exact this.1
    · exact (this.2 a ha).1
  · intro r hr d hd a ha
    exact ((h r hr).1.2 d hd).2 a ha |>.2
  · intro r hr el hel
    exact (h r hr).2 el hel

end GoXml.Xsd
