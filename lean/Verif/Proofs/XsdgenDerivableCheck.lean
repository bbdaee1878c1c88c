import Verif.Proofs.XsdgenDerivable
set_option autoImplicit false

/-! A check for schemas whose types are derived as they should be. -/

namespace GoXml.Xsd
open Wsdl (attrNamed allNamed below defines refersTo)

/-- The extension or restriction of a complex type with simple content. -/
def simpleModelOf (e : Element) : Option Element :=
  match schemaKids e with
  | [cc] => if cc.name.loc = b!"simpleContent" then
      match schemaKids cc with
      | [el] => if el.name.loc = b!"extension" ∨ el.name.loc = b!"restriction" then some el else none
      | _ => none
    else none
  | _ => none

theorem simpleModelOf_model {e el : Element} (h : simpleModelOf e = some el) : SimpleModel e el := by
  unfold simpleModelOf at h
  split at h
  · rename_i cc h1
    split at h
    · rename_i h2
      split at h
      · rename_i el' h3
        split at h
        · rename_i h4
          cases h
          exact ⟨cc, h1, h2, h3, h4⟩
        · cases h
      · cases h
    · cases h
  · cases h

/-- The names that `DerivesFrom` is about. -/
def derivedNames (e : Element) : List XName :=
  e.children.flatMap fun c =>
    (if c.name = ⟨w3cSchemaNS, b!"complexContent"⟩ ∨ c.name = ⟨w3cSchemaNS, b!"simpleContent"⟩ then
      (c.children.filter fun d => decide (d.name = ⟨w3cSchemaNS, b!"extension"⟩ ∨ d.name = ⟨w3cSchemaNS, b!"restriction"⟩)).map fun d => refersTo d b!"base"
    else []) ++
    (if c.name = ⟨w3cSchemaNS, b!"restriction"⟩ then [refersTo c b!"base"] else []) ++
    (if c.name = ⟨w3cSchemaNS, b!"list"⟩ then [refersTo c b!"itemType"] else []) ++
    (if c.name = ⟨w3cSchemaNS, b!"union"⟩ then [⟨w3cSchemaNS, b!"anySimpleType"⟩] else [])

theorem mem_derivedNames {e : Element} {n : XName} (h : DerivesFrom e n) : n ∈ derivedNames e := by
  unfold derivedNames
  rw [List.mem_flatMap]
  cases h with
  | content c d hc hn hd hu =>
    refine ⟨c, hc, ?_⟩
    rw [if_pos hn, List.mem_append, List.mem_append, List.mem_append, List.mem_map]
    exact Or.inl (Or.inl (Or.inl ⟨d, List.mem_filter.mpr ⟨hd, decide_eq_true hu⟩, rfl⟩))
  | restriction c hc hn =>
    refine ⟨c, hc, ?_⟩
    rw [if_pos hn, List.mem_append, List.mem_append, List.mem_append]
    exact Or.inl (Or.inl (Or.inr List.mem_cons_self))
  | list c hc hn =>
    refine ⟨c, hc, ?_⟩
    rw [if_pos hn, List.mem_append, List.mem_append]
    exact Or.inl (Or.inr List.mem_cons_self)
  | union c hc hn =>
    refine ⟨c, hc, ?_⟩
    rw [if_pos hn, List.mem_append]
    exact Or.inr List.mem_cons_self

/-- `Derivable`, where `rank` is greater for derived types, and `from_` holds for the names of types that lists cannot be made of. -/
def derivableOk (rank : XName → Nat) (from_ : XName → Bool) (roots : List Element) : Bool :=
  roots.all fun r =>
    (allNamed r w3cSchemaNS b!"complexType").all (fun e => (modelOf e).isSome || (simpleModelOf e).isSome) &&
    (below r).all (fun d => decide ((refersTo d b!"type").space ≠ b!"http://www.w3.org/2009/01/xml.xsd")) &&
    (typeDecls r).all (fun e => (derivedNames e).all fun m => decide (rank m < rank (defines (target r) e)) && (!from_ m || from_ (defines (target r) e))) &&
    Xsdgen.unlisted.all (fun loc => from_ ⟨w3cSchemaNS, loc⟩) &&
    (allNamed r w3cSchemaNS b!"simpleType").all fun e => !(e.children.any fun c => decide (c.name = ⟨w3cSchemaNS, b!"list"⟩)) || !from_ (defines (target r) e)

theorem derivable_of {rank : XName → Nat} {from_ : XName → Bool} {roots : List Element} (h : derivableOk rank from_ roots = true) : Derivable roots := by
  simp only [derivableOk, Bool.and_eq_true, List.all_eq_true, decide_eq_true_eq, Bool.or_eq_true, Bool.not_eq_true'] at h
  have hrank : ∀ m n, ComesFrom roots m n → rank n ≤ rank m := by
    intro m n hmn
    induction hmn with
    | self => exact le_refl _
    | step hr he hd _ ih => exact le_of_lt (lt_of_le_of_lt ih ((h _ hr).1.1.2 _ he _ (mem_derivedNames hd)).1)
  have hfrom : ∀ m n, ComesFrom roots m n → from_ n = true → from_ m = true := by
    intro m n hmn hn
    induction hmn with
    | self => exact hn
    | step hr he hd _ ih =>
      rcases ((h _ hr).1.1.2 _ he _ (mem_derivedNames hd)).2 with h1 | h1
      · rw [ih hn] at h1
        cases h1
      · exact h1
  refine ⟨⟨?_, fun r hr => (h r hr).1.1.1.2, ?_⟩, ?_⟩
  · intro r hr e he
    rcases (h r hr).1.1.1.1 e he with h1 | h1
    · obtain ⟨el, hel⟩ := Option.isSome_iff_exists.mp h1
      exact ⟨el, Or.inl (modelOf_model hel)⟩
    · obtain ⟨el, hel⟩ := Option.isSome_iff_exists.mp h1
      exact ⟨el, Or.inr (simpleModelOf_model hel)⟩
  · intro r hr e he m hd hc
    exact absurd (hrank _ _ hc) (not_le_of_gt ((h r hr).1.1.2 e he m (mem_derivedNames hd)).1)
  · rintro r e ⟨hr, he, ⟨c, hc, hn⟩, loc, hloc, hfr⟩
    rcases (h r hr).2 e he with h1 | h1
    · rw [List.any_eq_false] at h1
      exact h1 c hc (by simpa using hn)
    · rw [hfrom _ _ hfr ((h r hr).1.2 loc hloc)] at h1
      cases h1

end GoXml.Xsd
