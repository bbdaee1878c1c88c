import Verif.Proofs.XsdCanonical
import Verif.Props.XsdContent
import Verif.Props.XsdHeapRef
import Verif.Props.XsdExpand
set_option autoImplicit false

/-! Properties C136 (groups) and C137: `Normalize` as a whole. -/

namespace GoXml.Xsd
open Wsdl

/-! ### C137 -/

/-- C137, partial: `Normalize` leaves documents that are in canonical form as they are. -/
theorem C137_canonical_partial (grow : Nat → Nat → Nat) (n : Nat) (docs : List Element) (hn : ∀ t ∈ docs, depth t ≤ n)
    (hc : ∀ t ∈ docs, Canonical t) : normalize grow n docs = some docs := by
  obtain ⟨_, _, h3⟩ := loadDocs_holds grow docs (h := []) (by intro p e hg; simp [EHeap.get] at hg)
  unfold normalize
  simp only [normalizeH_same h3 hn hc, Option.bind_some]
  generalize (loadDocs grow docs []).1 = h at h3
  generalize (loadDocs grow docs []).2 = ps at h3
  revert hn hc
  clear * - h3
  induction h3 with
  | nil => intro _ _; rfl
  | @cons p t ps ts h1 _ ih =>
    intro hn hc
    have ht : depth t ≤ n := hn t List.mem_cons_self
    simp only [readAll, readPtr_holds h1 (Nat.le_succ_of_le ht)]
    rw [ih (fun t ht => hn t (List.mem_cons_of_mem _ ht)) fun t ht => hc t (List.mem_cons_of_mem _ ht)]

/-- A schema with a group and a type. -/
def groupSchema (type : Element) : Element :=
  xs b!"schema" [(b!"targetNamespace", b!"urn:t")] [
    xs b!"group" [(b!"name", b!"g")] [xs b!"sequence" [] [xs b!"element" [(b!"name", b!"b"), (b!"type", b!"xs:string")] []]],
    type]

/-- A group that is referred to in a choice. -/
def groupDoc : Element :=
  groupSchema (xs b!"complexType" [(b!"name", b!"c")] [
      xs b!"choice" [] [xs b!"element" [(b!"name", b!"a"), (b!"type", b!"xs:string")] [], xs b!"group" [(b!"ref", b!"t:g")] []]])

def groupModel (attrs : List (Str × Str)) : Element :=
  xs b!"restriction" [(b!"base", b!"xs:anyType")] [
    xs b!"choice" [] [
      xs b!"element" [(b!"name", b!"a"), (b!"type", b!"xs:string"), (b!"minOccurs", b!"0")] [],
      xs b!"sequence" [] [xs b!"element" ([(b!"name", b!"b"), (b!"type", b!"xs:string")] ++ attrs) []]]]

/-- What becomes of it. -/
def groupNormal (attrs : List (Str × Str)) : Element :=
  groupSchema (xs b!"complexType" [(b!"name", b!"c")] [xs b!"complexContent" [] [groupModel attrs]])


theorem group_once : normalize doubling 20 [groupDoc] = some [groupNormal []] := rfl

theorem group_twice : normalize doubling 20 [groupNormal []] = some [groupNormal [(b!"minOccurs", b!"0")]] := rfl

/-- C137 is false in general: a sequence that takes the place of a reference to a group in a choice does so after
the alternatives of choices have been made optional; its elements become optional the second time. -/
theorem C137_idempotent_refuted : ∃ docs once twice : List Element, normalize doubling 20 docs = some once ∧
    normalize doubling 20 once = some twice ∧ once ≠ twice := by
  refine ⟨_, _, _, group_once, group_twice, fun h => ?_⟩
  have := congrArg (fun ts => (ts[0]?.bind (·.at? [1, 0, 0, 0, 1, 0])).map (attrNamed · b!"minOccurs")) h
  revert this
  decide

/-- The second result is in canonical form. -/
example : Canonical (groupNormal [(b!"minOccurs", b!"0")]) :=
  ⟨by decide +kernel, by decide +kernel, by decide +kernel, by decide +kernel, by decide +kernel, by decide +kernel, by decide +kernel⟩

/-! ### C136 -/

/-- C136 is false for groups that are referred to in choices: the content model allows `a` alone, but `b` is not
optional. -/
theorem C136_group_refuted : ∃ root ct t, normalize doubling 20 [groupDoc] = some [root] ∧ root.at? [1] = some ct ∧
    ContentModel ct (groupModel []) ∧ parseComplexType boundEnv b!"urn:t" ct = some t ∧ ¬ Covers (groupModel []) t := by
  have hp : (parseComplexType boundEnv b!"urn:t" (xs b!"complexType" [(b!"name", b!"c")] [xs b!"complexContent" [] [groupModel []]])).map
      (fun t => t.elements.map fun e => (e.name.loc, e.wildcard, e.optional)) =
      some [(b!"a", false, true), (b!"b", false, false)] := by decide +kernel
  rw [Option.map_eq_some_iff] at hp
  obtain ⟨t, ht, hf⟩ := hp
  refine ⟨_, _, t, group_once, rfl, ⟨xs b!"complexContent" [] [groupModel []], rfl, rfl, rfl, Or.inr rfl⟩, ht, fun hc => ?_⟩
  have hb : (b!"b", false, false) ∈ t.elements.map fun e => (e.name.loc, e.wildcard, e.optional) := by rw [hf]; decide
  obtain ⟨e, he, hbe⟩ := List.mem_map.mp hb
  simp only [Prod.mk.injEq] at hbe
  obtain ⟨e1, e2, e3⟩ := hbe
  have hw : Content (groupModel []) [b!"a"] := by
    refine inTurn_one ?_
    unfold xs
    rw [Allows]
    refine Or.inr (Or.inr (Or.inr (Or.inl ⟨rfl, [[b!"a"]], occurs_default rfl rfl, ?_, rfl⟩)))
    intro v hv
    have : v = [b!"a"] := by simpa using hv
    subst this
    simp only [OneOf]
    refine Or.inl ⟨Or.inl (Or.inl rfl), ?_⟩
    rw [Allows]
    exact Or.inl ⟨rfl, 1, ⟨Or.inr ⟨b!"0", 0, trimmed_zero, ⟨b!"0", ⟨by decide, by decide⟩, by decide⟩, Nat.zero_le _⟩, Or.inl ⟨rfl, Nat.le_refl _⟩⟩, rfl⟩
  have := (hc _ hw e he e2).2 (by rw [e1]; decide)
  rw [e3] at this
  cases this

end GoXml.Xsd
