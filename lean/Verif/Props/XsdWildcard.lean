import Verif.Props.XsdParse
import Verif.Props.XsdDecls
set_option autoImplicit false

/-! Property C116: wildcards in content models. -/

namespace GoXml.Xsd
open Wsdl (attrNamed allNamed refersTo)

/-- C116, partial: a content model with one `xs:any` has one wildcard, which comes first. It is plural if more than one element
may stand there and has the type written, or that of any content. Without `xs:any` there is no wildcard. Missing: several
of them, the order, and `Optional`; see the refutation. -/
theorem C116_wildcard_partial (env : ParseEnv) (ns : Str) (root el : Element) (hc : ContentModel root el) (t : ComplexT)
    (h : parseComplexType env ns root = some t) :
    (allNamed el w3cSchemaNS b!"any" = [] → ∀ e ∈ t.elements, e.wildcard = false) ∧
    (∀ v, allNamed el w3cSchemaNS b!"any" = [v] → ∃ w es, t.elements = w :: es ∧ w.wildcard = true ∧ (∀ e ∈ es, e.wildcard = false) ∧
      (w.plural = true ↔ ∃ lo, Means (attrNamed v b!"minOccurs") lo ∧
        (1 < lo ∨ ∃ hi, Means (attrNamed v b!"maxOccurs") hi ∧ (hi < 0 ∨ 1 < hi))) ∧
      (attrNamed v b!"type" = [] → w.type = .builtin AnyType) ∧
      (attrNamed v b!"type" ≠ [] → Named (refersTo v b!"type") w.type)) := by
  obtain ⟨any, ds, ms, e1, h1, h2, h3, h4, -, -, h5, h6⟩ := C35_merged env ns root el hc t h
  have hds : ∀ d ∈ ds, d.wildcard = false := by
    clear h5
    revert h4
    generalize allNamed el w3cSchemaNS b!"element" = vs
    intro h4
    induction h4 with
    | nil => intro d hd; cases hd
    | cons hp _ ih =>
      intro d hd
      rcases List.mem_cons.mp hd with rfl | hd
      · unfold parseElement at hp
        split at hp
        · cases hp; rfl
        · cases hp
      · exact ih d hd
  have hms : ∀ m ∈ ms, m.wildcard = false := by
    intro m hm
    obtain ⟨d, hd, -, -, hw, -⟩ := (h5 m hm).first
    rw [hw]
    exact hds d (List.mem_of_mem_filter (List.mem_of_mem_head? hd))
  refine ⟨?_, ?_⟩
  · intro hn
    rw [e1, h3.mpr hn]
    exact hms
  · intro v hv
    cases any with
    | nil => rw [hv] at h3; cases h3.mp rfl
    | cons w rest =>
      have hr : rest = [] := List.length_eq_zero_iff.mp (Nat.le_zero.mp (Nat.le_of_succ_le_succ h2))
      subst hr
      obtain ⟨v', hv', hp⟩ := h6 w List.mem_cons_self
      rw [hv] at hv'
      cases hv'
      refine ⟨w, ms, e1, h1 w List.mem_cons_self, hms, ?_⟩
      unfold parseAnyElement at hp
      split at hp
      · cases hp
      · rename_i p hpl
        cases hp
        refine ⟨?_, ?_, ?_⟩
        · obtain ⟨lo, hl, hc⟩ := (C36_plural v p).mp hpl
          dsimp only
          have uniq : ∀ {s : Str} {a b : Int}, Means s a → Means s b → a = b := by
            intro s a b ha hb
            rw [← parseInt_iff] at ha hb
            rw [ha] at hb
            exact Option.some.inj hb
          rcases hc with ⟨hlo, rfl⟩ | ⟨hlo, hi, hhi, hiff⟩
          · exact ⟨fun _ => ⟨lo, hl, .inl hlo⟩, fun _ => rfl⟩
          · rw [hiff]
            constructor
            · exact fun hx => ⟨lo, hl, .inr ⟨hi, hhi, hx⟩⟩
            · rintro ⟨lo', hl', hx | ⟨hi', hhi', hx⟩⟩
              · rw [uniq hl' hl] at hx; omega
              · rw [uniq hhi' hhi] at hx; exact hx
        · intro ht
          dsimp only
          rw [Wsdl.attr_eq, if_neg (by simpa using ht)]
        · intro ht
          dsimp only
          rw [Wsdl.attr_eq, if_pos ht, ← Wsdl.attr_eq, ← Wsdl.refersTo_eq]
          exact parseType_named _

/-- A type whose content is an element with the given other elements around it. -/
def wildType (kids : List (Str × List (Str × Str))) : Element :=
  let q (l : Str) : XName := ⟨w3cSchemaNS, l⟩
  .mk (q b!"complexType") [⟨⟨[], b!"name"⟩, b!"t"⟩] [] [] [
    .mk (q b!"complexContent") [] [] [] [
      .mk (q b!"restriction") [] [] [] [
        .mk (q b!"sequence") [] [] [] (kids.map fun k => .mk (q k.1) (k.2.map fun a => ⟨⟨[], a.1⟩, a.2⟩) [⟨w3cSchemaNS, b!"xs"⟩] [] [])]]]

def wildElements (kids : List (Str × List (Str × Str))) : Option (List (Str × Bool × Bool × Bool)) :=
  (parseComplexType boundEnv b!"urn:x" (wildType kids)).map fun t => t.elements.map fun e => (e.name.loc, e.wildcard, e.plural, e.optional)

example : (∃ el, ContentModel (wildType [(b!"element", [(b!"name", b!"a")]), (b!"any", [(b!"maxOccurs", b!"unbounded")])]) el) ∧
    wildElements [(b!"element", [(b!"name", b!"a")]), (b!"any", [(b!"maxOccurs", b!"unbounded")])] =
      some [([], true, true, false), (b!"a", false, false, false)] :=
  ⟨⟨_, _, rfl, rfl, rfl, Or.inr rfl⟩, by decide +kernel⟩

/-- C116 is false of the code. Of two wildcards, each for one element, one remains and is not plural, and so it is if the second may stand for any
number of elements. A wildcard that may be absent is not optional. -/
theorem C116_wildcard_refuted :
    wildElements [(b!"any", []), (b!"element", [(b!"name", b!"a")]), (b!"any", [])] = some [([], true, false, false), (b!"a", false, false, false)] ∧
    wildElements [(b!"any", []), (b!"element", [(b!"name", b!"a")]), (b!"any", [(b!"maxOccurs", b!"unbounded")])] =
      some [([], true, false, false), (b!"a", false, false, false)] ∧
    wildElements [(b!"any", [(b!"minOccurs", b!"0")])] = some [([], true, false, false)] := by
  refine ⟨by decide +kernel, by decide +kernel, by decide +kernel⟩

end GoXml.Xsd
