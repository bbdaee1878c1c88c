import Verif.Proofs.XsdAnon
import Verif.Props.XsdNormal
import Verif.Props.XsdMissing
set_option autoImplicit false

/-! Property C150: what has an anonymous type keeps it. -/

namespace GoXml.Xsd
open Wsdl

/-- Every declaration of `t` has something at the same place in `m` that stands for it, and the types of `m` have different
names. -/
def Represented (t m : Element) : Prop :=
  (∀ (i : Nat) k, t.children[i]? = some k → ∃ k', m.children[i]? = some k' ∧ Stands (attrNamed t b!"targetNamespace") (typesOf m) (fun _ => False) k k') ∧
  ((typesOf m).map (attrNamed · b!"name")).Nodup

theorem kin_types {t t' : Element} (h : List.Forall₂ Kin t.children t'.children) :
    (typesOf t').map (attrNamed · b!"name") = (typesOf t).map (attrNamed · b!"name") := types_kin h

theorem Alike.wellNamed {l : Str} {t t' : Element} (ha : Alike l t t') (hl : l ≠ b!"name") (h : WellNamed t) : WellNamed t' := by
  have hk : List.Forall₂ Kin t.children t'.children := ha.kids.imp fun _ _ h => ⟨h.root.1, h.root.2.2.2 _ hl.symm⟩
  have hn := kin_types hk
  refine ⟨by rw [hn]; exact h.distinct, ?_, ?_⟩
  · intro k hm
    have : attrNamed k b!"name" ∈ (typesOf t').map (attrNamed · b!"name") := List.mem_map_of_mem (f := (attrNamed · b!"name")) hm
    rw [hn] at this
    obtain ⟨j, h1, h2⟩ := List.mem_map.mp this
    rw [← h2]
    exact h.plain j h1
  · intro x hx
    obtain ⟨p, x0, _, _, _, h3, h4⟩ := ha.below hx
    rw [h4.root.2.2.2 _ hl.symm]
    exact h.others x0 h3

theorem represented {t t' : Element} (hn : Neat t) (hc : ∀ x ∈ below t, Clear x.scope (attrNamed t b!"targetNamespace"))
    (hns : attrNamed t b!"targetNamespace" ≠ []) (hw : WellNamed t) (hf : FirstLoop t t') (k : Nat) :
    Represented (elementDefaultType (attributeDefaultType t)) (hoistRoot (numbered (t'.attr [] b!"targetNamespace")) t' k).1 := by
  have a1 : Alike b!"type" t (attributeDefaultType t) := alike_setAttrs _ _ _ _
  have a2 : Alike b!"type" (attributeDefaultType t) (elementDefaultType (attributeDefaultType t)) := alike_setAttrs _ _ _ _
  obtain ⟨n1, n2, _, _⟩ := neat_defaults hn
  have htns : attrNamed (elementDefaultType (attributeDefaultType t)) b!"targetNamespace" = attrNamed t b!"targetNamespace" :=
    (a2.root.2.2.2 _ (by decide)).trans (a1.root.2.2.2 _ (by decide))
  have hw2 := a2.wellNamed (by decide) (a1.wellNamed (by decide) hw)
  have hc2 : ∀ x ∈ below (elementDefaultType (attributeDefaultType t)), Clear x.scope (attrNamed (elementDefaultType (attributeDefaultType t)) b!"targetNamespace") := by
    intro x hx
    obtain ⟨_, x1, _, _, _, g3, g4⟩ := a2.below hx
    obtain ⟨_, x0, _, _, _, h3, h4⟩ := a1.below g3
    rw [g4.root.2.1, h4.root.2.1, htns]
    exact hc x0 h3
  obtain ⟨used, hu, rfl⟩ := hf
  generalize elementDefaultType (attributeDefaultType t) = u at *
  have ht' : (hoistRoot (byElement (u.attr [] b!"targetNamespace")) u used).1.attr [] b!"targetNamespace" = attrNamed u b!"targetNamespace" := by
    rw [← Wsdl.attr_eq]
    cases u
    rfl
  rw [ht']
  rw [Wsdl.attr_eq] at hu ⊢
  exact ⟨fun i c hi => stands_both ⟨n1, n2⟩ hc2 used k i c hi, distinct_both ⟨n1, n2⟩ (by rw [htns]; exact hns) hw2 used hu k⟩

/-- C150, partial: `Normalize` replaces anonymous types by references to definitions that stand for them, whatever is
nested inside them; before, it sets default types; afterwards, alternatives become optional and complex types get explicit content, which C30 and
C31 describe, and references are replaced. The types have different names, so there is one definition that is meant. Missing for C150: what it is false for,
and anonymous types of global declarations. -/
theorem C150_moved_partial (grow : Nat → Nat → Nat) (n : Nat) (docs : List Element) (hn : ∀ t ∈ docs, depth t ≤ n)
    (hap : ∀ t ∈ docs, SchemasApart t) (hd : ∀ t ∈ docs.flatMap schemasIn, Neat t ∧ 3 * depth t ≤ n) (hl : Linked (docs.flatMap schemasIn))
    (hc : ∀ t ∈ docs.flatMap schemasIn, attrNamed t b!"targetNamespace" ≠ [] ∧ WellNamed t ∧ ∀ x ∈ below t, Clear x.scope (attrNamed t b!"targetNamespace")) :
    ∃ mid out, normalize grow n docs = some out ∧ (let full := mid.map fun m => expandBelow (setChoicesOptional m); List.Forall₂ (DocRelinked (Target full)) full out) ∧
      List.Forall₂ (fun t m => Represented (elementDefaultType (attributeDefaultType t)) m) (docs.flatMap schemasIn) mid := by
  obtain ⟨docs', out, h1, h2, h3, h4, h5, h6⟩ := normalize_linked grow n docs hn hap hd hl
  suffices h : ∀ k, ∃ mid, finished docs' k = mid.map (fun m => expandBelow (setChoicesOptional m)) ∧
      List.Forall₂ (fun t m => Represented (elementDefaultType (attributeDefaultType t)) m) (docs.flatMap schemasIn) mid by
    obtain ⟨mid, e1, e2⟩ := h 0
    exact ⟨mid, out, h2, by rw [e1] at h4; exact h4, e2⟩
  generalize docs.flatMap schemasIn = S at *
  clear h2 h3 h4 h5 h6 hl hn hap
  induction h1 with
  | nil => intro k; exact ⟨[], rfl, .nil⟩
  | @cons t t' ts ts' hf _ ih =>
    intro k
    obtain ⟨mid, e1, e2⟩ := ih (fun t ht => hd t (by simp [ht])) (fun t ht => hc t (by simp [ht])) (hoistRoot (numbered (t'.attr [] b!"targetNamespace")) t' k).2
    obtain ⟨c1, c2, c3⟩ := hc t (by simp)
    refine ⟨(hoistRoot (numbered (t'.attr [] b!"targetNamespace")) t' k).1 :: mid, by rw [finished, e1]; rfl, .cons ?_ e2⟩
    exact represented (hd t (by simp)).1 c3 c1 c2 hf k

theorem not_numbered {name : Str} (h : ¬ b!"_anon" <+: name) : ¬ Numbered name := by
  rintro ⟨j, rfl⟩
  exact h (List.prefix_append _ _)

example : (∀ t ∈ [neatDoc].flatMap schemasIn, attrNamed t b!"targetNamespace" ≠ [] ∧ WellNamed t ∧ ∀ x ∈ below t, Clear x.scope (attrNamed t b!"targetNamespace")) := by
  intro t ht
  have h0 : schemasIn neatDoc = [neatDoc] := if_pos (by decide)
  simp only [List.flatMap_cons, List.flatMap_nil, List.append_nil, h0, List.mem_singleton] at ht
  subst ht
  refine ⟨by decide, ⟨by decide +kernel, by decide +kernel, fun x hx => not_numbered ?_⟩, by decide +kernel⟩
  revert x
  decide +kernel

/-! ### After Parse -/

/-- The elements of a complex type after `Parse`, with their types. -/
def parsedElements (doc : Element) (name : XName) : Option (List (Str × Ty)) :=
  match parse doubling 20 boundEnv firstToLast [doc] with
  | .ok (ss, H) => ss.head?.bind fun s => (s.types.get name).bind fun
    | .obj id => H[id]?.bind fun
      | .complex c => some (c.elements.map fun e => (e.name.loc, e.type))
      | _ => none
    | _ => none
  | _ => none

/-- The base of a simple type after `Parse`. -/
def parsedBase (doc : Element) (name : XName) : Option (Option Ty) :=
  match parse doubling 20 boundEnv firstToLast [doc] with
  | .ok (ss, H) => ss.head?.bind fun s => (s.types.get name).bind fun
    | .obj id => H[id]?.bind fun
      | .simple t => some t.base
      | _ => none
    | _ => none
  | _ => none

/-- C150 is false if the target namespace has no prefix: the element has any type (0), not the one that has been
declared for it, of which there is a definition based on strings (38). -/
theorem C150_prefix_refuted : parsedElements muteDoc ⟨b!"urn:t", b!"a"⟩ = some [(b!"b", .builtin 0)] ∧
    parsedBase muteDoc ⟨b!"urn:t", b!"b"⟩ = some (some (.builtin 38)) := by
  constructor <;> decide +kernel

/-- A schema without target namespace, in which the default namespace is that of XML Schema, with an element that
has a type of integers. -/
def bareDoc (name : Str) : Element :=
  let e := fun (loc : Str) (attrs : List (Str × Str)) (kids : List Element) =>
    Element.mk ⟨schemaNS, loc⟩ (attrs.map fun (k, v) => ⟨⟨[], k⟩, v⟩) [⟨schemaNS, []⟩] [] kids
  e b!"schema" [] [e b!"complexType" [(b!"name", b!"a")] [e b!"sequence" [] [
    e b!"element" [(b!"name", name)] [e b!"simpleType" [] [e b!"restriction" [(b!"base", b!"int")] []]]]]]

/-- C150 is false without a target namespace, too: the type of an element called `string` is taken for the built-in type of
this name. -/
theorem C150_default_refuted : parsedElements (bareDoc b!"string") ⟨schemaNS, b!"a"⟩ = some [(b!"string", .builtin 38)] ∧
    parsedBase (bareDoc b!"string") ⟨schemaNS, b!"string"⟩ = some (some (.builtin 28)) := by
  constructor <;> decide +kernel

end GoXml.Xsd
