import Verif.Proofs.XsdContent
import Verif.Props.XsdSchema
import Verif.Props.XsdDecls
set_option autoImplicit false

/-! Property C136: flags of elements and the content models they come from. -/

namespace GoXml.Xsd
open Wsdl

/-! ### C136 -/

/-- C136, partial: in a content model without repeated groups, groups that may be left out, names declared twice
and sequences in sequences of choices, elements that may be repeated are plural and those that may be left out are
optional. `p` is the position of a complexType in a schema. -/
theorem C136_flags_partial (env : ParseEnv) (ns : Str) (root ct ct' el : Element) (p : List Nat) (t : ComplexT) (h1 : root.at? p = some ct)
    (h2 : (setChoicesOptional root).at? p = some ct') (hm : ContentModel ct el) (ho : Ordinary el)
    (h : parseComplexType env ns ct' = some t) : Covers el t := by
  obtain ⟨hshape, hattr⟩ := C30_choices root
  obtain ⟨cc, k1, k2, k3, k4⟩ := hm
  have s1 := hshape.below h1 h2
  obtain ⟨i, cc', a1, a2, a3⟩ := s1.kid k1
  have s2 := s1.below a1 a2
  obtain ⟨j, el', b1, b2, b3⟩ := s2.kid k3
  have s3 := s2.below b1 b2
  have hr : root.at? (p ++ [i] ++ [j]) = some el := by rw [at?_append, at?_append, h1]; simp only [Option.bind_some]; rw [a1]; exact b1
  have hr' : (setChoicesOptional root).at? (p ++ [i] ++ [j]) = some el' := by rw [at?_append, at?_append, h2]; simp only [Option.bind_some]; rw [a2]; exact b2
  have n1 : cc'.name = cc.name := by
    obtain ⟨x, hx, hn⟩ := s1.at_some a2
    rw [a1] at hx; cases hx; exact hn.symm
  have n2 : el'.name = el.name := by
    obtain ⟨x, hx, hn⟩ := s2.at_some b2
    rw [b1] at hx; cases hx; exact hn.symm
  have hm' : ContentModel ct' el' := ⟨cc', a3, by rw [n1]; exact k2, b3, by rw [n2]; exact k4⟩
  obtain ⟨any, ds, ms, hel, hany, _, _, hds, _, _, hmerge, _⟩ := C35_merged env ns ct' el' hm' t h
  intro w hw e he hwild
  rw [hel] at he
  have hems : e ∈ ms := by
    rcases List.mem_append.mp he with he | he
    · have := hany e he
      rw [this] at hwild
      cases hwild
    · exact he
  have hmg := hmerge e hems
  obtain ⟨d0, hd0, _⟩ := hmg.first
  have hd0m := List.mem_of_mem_head? (Option.mem_def.mpr hd0)
  obtain ⟨hd0s, hd0n⟩ := List.mem_filter.mp hd0m
  have hd0n : d0.name = e.name := by simpa using hd0n
  obtain ⟨v', hv'm, hparse⟩ : ∃ v', v' ∈ allNamed el' w3cSchemaNS b!"element" ∧ parseElement env ns v' = some d0 := by
    clear hmg hmerge hd0m hd0
    revert hd0s
    clear * - hds
    generalize allNamed el' w3cSchemaNS b!"element" = vs at hds
    induction hds with
    | nil => intro h; cases h
    | cons hp _ ih =>
      intro hd0s
      rcases List.mem_cons.mp hd0s with rfl | hd
      · exact ⟨_, List.mem_cons_self, hp⟩
      · obtain ⟨v, hv, hp⟩ := ih hd
        exact ⟨v, List.mem_cons_of_mem _ hv, hp⟩
  obtain ⟨hv'b, hv'n⟩ := List.mem_filter.mp hv'm
  have hv'n : IsXs b!"element" v' := of_decide_eq_true hv'n
  obtain ⟨q, hq, hq'⟩ := (mem_below_iff _ _).mp hv'b
  obtain ⟨v, hv, hvn⟩ := s3.at_some hq'
  have hvx : IsXs b!"element" v := by unfold IsXs at *; rw [hvn]; exact hv'n
  have hvb := (mem_below_iff el v).mpr ⟨q, hq, hv⟩
  have hva : v ∈ allNamed el w3cSchemaNS b!"element" := List.mem_filter.mpr ⟨hvb, decide_eq_true hvx⟩
  have lv : root.at? (p ++ [i] ++ [j] ++ q) = some v := by rw [at?_append, hr]; exact hv
  have lv' : (setChoicesOptional root).at? (p ++ [i] ++ [j] ++ q) = some v' := by rw [at?_append, hr']; exact hq'
  have hother : ∀ l, l ≠ b!"minOccurs" → attrNamed v' l = attrNamed v l := by
    intro l hl
    by_cases hc : InChoice root (p ++ [i] ++ [j] ++ q)
    · exact attrNamed_set_other ((hattr _).1 hc) lv lv' hl
    · have := (hattr _).2 hc
      unfold SameAttrsAt at this
      rw [lv, lv'] at this
      simp only [Option.map_some, Option.some.injEq] at this
      unfold attrNamed
      rw [this]
  have hname : e.name.loc = attrNamed v b!"name" := by
    rw [← hd0n, ← hother _ (by decide)]
    refine parseElement_loc hparse ?_
    rw [hother _ (by decide)]
    exact ho.plain v hva
  have once : ∀ g ∈ below el, IsGroup g → ∀ k, Occurs g k → k = 1 := by
    intro g hg hgg k hk
    obtain ⟨g1, g2⟩ := ho.once g hg hgg
    obtain ⟨o1, o2⟩ := hk
    rw [g1] at o1
    rw [g2] at o2
    have hnil : ∀ t n, Gen.TrimmedTo [] t → ¬ IntText t n := by
      intro t n ht hn
      have : parseInt [] = some n := (parseInt_iff _ _).mpr ⟨t, ht, Or.inr (Or.inr hn)⟩
      obtain ⟨a, b, hab, _⟩ := ht
      have ht : t = [] := by
        have := congrArg List.length hab
        simp at this
        exact List.eq_nil_of_length_eq_zero (by omega)
      subst ht
      obtain ⟨ds, hd, h1, _⟩ := hn
      rcases h1 with ⟨h1 | h1, _⟩ | ⟨h1, _⟩
      · exact hd.1 h1.symm
      · simp at h1
      · simp at h1
    have hun : ¬ Gen.TrimmedTo [] b!"unbounded" := by
      rintro ⟨a, b, hab, _⟩
      simp at hab
    rcases o1 with ⟨_, o1⟩ | ⟨t, n, ht, hn, _⟩
    · rcases o2 with ⟨_, o2⟩ | o2 | ⟨t, n, ht, hn, _⟩
      · omega
      · exact absurd o2 hun
      · exact absurd hn (hnil _ _ ht)
    · exact absurd hn (hnil _ _ ht)
  rw [hname]
  refine ⟨fun hcount => ?_, fun hcount => ?_⟩
  · obtain ⟨k, hk, h2⟩ : ∃ k, Occurs v k ∧ 2 ≤ k := by
      refine Classical.byContradiction fun hno => ?_
      have hsingle : Single (attrNamed v b!"name") (belows el.children) := by
        rw [← below_children]
        refine ⟨fun g hg hgg k hk => by rw [once g hg hgg k hk], fun d hd hdx hdn k hk => ?_, ho.distinct⟩
        have : d = v := nodup_map_inj ho.distinct d (List.mem_filter.mpr ⟨hd, decide_eq_true hdx⟩) v hva hdn
        subst this
        refine Nat.le_of_not_lt fun hlt => hno ⟨k, hk, hlt⟩
      have := inTurn_single _ _ _ hw hsingle
      omega
    exact hmg.plural.mpr ⟨d0, hd0m, plural_of_occurs hparse (hother _ (by decide)) hk h2⟩
  · refine hmg.optional.mpr ⟨d0, hd0m, ?_⟩
    by_cases hc : InChoice root (p ++ [i] ++ [j] ++ q)
    · refine optional_of_mayLack hparse ?_
      have := attrNamed_set ((hattr _).1 hc) lv'
      unfold MayLack
      rw [this]
      exact ⟨by decide, means_zero⟩
    · have hsame := (hattr _).2 hc
      unfold SameAttrsAt at hsame
      rw [lv, lv'] at hsame
      simp only [Option.map_some, Option.some.injEq] at hsame
      by_cases h0 : Occurs v 0
      · refine optional_of_mayLack hparse ?_
        have := mayLack_of_occurs h0
        unfold MayLack attrNamed at *
        rw [← hsame]
        exact this
      · refine absurd ?_ hcount
        rcases q with _ | ⟨i', q'⟩
        · exact absurd rfl hq
        have hv2 := hv
        simp only [Element.at?] at hv2
        cases hci : el.children[i']? with
        | none => rw [hci] at hv2; cases hv2
        | some c =>
          rw [hci] at hv2
          simp only at hv2
          obtain ⟨u, hu, hsub⟩ := inTurn_part hw hci
          have hce : ∀ a x, c.at? a = some x → el.at? (i' :: a) = some x := by
            intro a x hx
            simp only [Element.at?, hci]
            exact hx
          refine hsub _ (allows_required v hvx (fun k hk => Nat.pos_of_ne_zero fun e => h0 (e ▸ hk)) q' c u hv2 ?_ hu)
          intro a b x hab hb hx
          have hx' := hce _ _ hx
          have hvv : el.at? ((i' :: a) ++ b) = some v := by rw [List.cons_append, ← hab]; exact hv
          have hg := (ancestors ho hvx b (i' :: a) x (by simp) hvv hx').2 hb
          have hxb := (mem_below_iff el x).mpr ⟨_, by simp, hx'⟩
          refine ⟨?_, fun k hk => by rw [once x hxb hg k hk]⟩
          rcases hg with hg | hg | hg
          · exact Or.inl hg
          · exact Or.inr hg
          · refine absurd ?_ hc
            have := below_choice hr ho hvx b.length b (i' :: a) x (Nat.le_refl _) (by simp) hvv hx' hg
            rw [List.cons_append, ← hab] at this
            exact this

/-! #### Cases -/

def part (n : Str) (attrs : List (Str × Str)) (kids : List Element) : Element :=
  .mk ⟨w3cSchemaNS, n⟩ (attrs.map fun a => ⟨⟨[], a.1⟩, a.2⟩) xsScope [] kids

def decl (n : Str) (attrs : List (Str × Str)) : Element := part b!"element" ((b!"name", n) :: (b!"type", b!"string") :: attrs) []

def restricted (kids : List Element) : Element := part b!"restriction" [(b!"base", b!"anyType")] kids

/-- A complexType with the content model. -/
def typeWith (kids : List Element) : Element :=
  part b!"complexType" [(b!"name", b!"t")] [part b!"complexContent" [] [restricted kids]]

/-- The type as parsed from a schema with this type. -/
def parsedModel (kids : List Element) : Option ComplexT :=
  ((setChoicesOptional (part b!"schema" [] [typeWith kids])).at? [0]).bind (parseComplexType boundEnv b!"urn:x")

/-- Names of the elements, whether they are plural and whether they are optional. -/
def flagsOf (kids : List Element) : Option (List (Str × Bool × Bool)) :=
  (parsedModel kids).map fun t => t.elements.map fun e => (e.name.loc, e.plural, e.optional)

/-- Every letter followed by whether it may be repeated, and whether it may be left out. -/
def sampleModel : List Element :=
  [part b!"sequence" [] [decl b!"a" [], decl b!"b" [(b!"maxOccurs", b!"unbounded")],
    part b!"choice" [] [decl b!"c" [], part b!"sequence" [] [decl b!"d" [(b!"maxOccurs", b!"2")], part b!"choice" [] [decl b!"e" [], decl b!"f" []]]],
    part b!"any" [] [], decl b!"g" [(b!"minOccurs", b!"0")]]]

theorem sample_ordinary : Ordinary (restricted sampleModel) :=
  ⟨by decide +kernel, by decide +kernel, by decide +kernel, by decide +kernel, by decide +kernel⟩

theorem contentModel_typeWith (kids : List Element) : ContentModel (typeWith kids) (restricted kids) :=
  ⟨part b!"complexContent" [] [restricted kids], rfl, rfl, rfl, Or.inr rfl⟩

example : (∃ t, parsedModel sampleModel = some t ∧ Covers (restricted sampleModel) t) ∧
    flagsOf sampleModel = some [([], false, false), (b!"a", false, false), (b!"b", true, false), (b!"c", false, true), (b!"d", true, true),
      (b!"e", false, true), (b!"f", false, true), (b!"g", false, true)] := by
  refine ⟨?_, by decide +kernel⟩
  have hs : (parsedModel sampleModel).isSome = true := by decide +kernel
  obtain ⟨t, ht⟩ := Option.isSome_iff_exists.mp hs
  refine ⟨t, ht, ?_⟩
  unfold parsedModel at ht
  rw [Option.bind_eq_some_iff] at ht
  obtain ⟨ct', h1, h2⟩ := ht
  exact C136_flags_partial boundEnv b!"urn:x" (part b!"schema" [] [typeWith sampleModel]) (typeWith sampleModel) ct' (restricted sampleModel) [0] t rfl h1
    (contentModel_typeWith _) sample_ordinary h2

/-- Flags that do not fit the word. -/
theorem not_covers {kids : List Element} {w : List Str} {flags : List (Str × Bool × Bool)} (hw : Content (restricted kids) w)
    (hf : flagsOf kids = some flags) (hwild : ∀ t, parsedModel kids = some t → ∀ e ∈ t.elements, e.wildcard = false)
    (hbad : ∃ f ∈ flags, (2 ≤ w.count f.1 ∧ f.2.1 = false) ∨ (f.1 ∉ w ∧ f.2.2 = false)) :
    ∃ t, parsedModel kids = some t ∧ ¬ Covers (restricted kids) t := by
  unfold flagsOf at hf
  rw [Option.map_eq_some_iff] at hf
  obtain ⟨t, ht, rfl⟩ := hf
  refine ⟨t, ht, fun hc => ?_⟩
  obtain ⟨f, hf, hb⟩ := hbad
  obtain ⟨e, he, rfl⟩ := List.mem_map.mp hf
  obtain ⟨h1, h2⟩ := hc w hw e he (hwild t ht e he)
  rcases hb with ⟨a, b⟩ | ⟨a, b⟩
  · rw [h1 a] at b; cases b
  · rw [h2 a] at b; cases b

theorem occurs_default {e : Element} (h1 : attrNamed e b!"minOccurs" = []) (h2 : attrNamed e b!"maxOccurs" = []) : Occurs e 1 :=
  ⟨Or.inl ⟨h1, Nat.le_refl _⟩, Or.inl ⟨h2, Nat.le_refl _⟩⟩

theorem allows_decl (n : Str) : Allows (decl n []) [n] := by
  unfold decl part
  rw [Allows]
  exact Or.inl ⟨rfl, 1, occurs_default rfl rfl, rfl⟩

theorem inTurn_one {c : Element} {w : List Str} (h : Allows c w) : InTurn [c] w := by
  simp only [InTurn]
  exact ⟨w, [], h, rfl, by simp⟩

theorem trimmed_unbounded : Gen.TrimmedTo b!"unbounded" b!"unbounded" :=
  ⟨[], [], rfl, by simp, by simp, by decide, by decide⟩

theorem trimmed_zero : Gen.TrimmedTo b!"0" b!"0" := ⟨[], [], rfl, by simp, by simp, by decide, by decide⟩

/-- C136 is false for repeated groups: in `<sequence maxOccurs="unbounded">` an element may be repeated with the
sequence, but it is not plural. -/
theorem C136_repeated_refuted :
    let kids := [part b!"sequence" [(b!"maxOccurs", b!"unbounded")] [decl b!"a" []]]
    ∃ t, parsedModel kids = some t ∧ ¬ Covers (restricted kids) t := by
  refine not_covers (w := [b!"a", b!"a"]) (flags := [(b!"a", false, false)])
    (inTurn_one ?_) (by decide +kernel) ?_ (by decide)
  · unfold part
    rw [Allows]
    refine Or.inr (Or.inl ⟨rfl, [[b!"a"], [b!"a"]], ⟨Or.inl ⟨rfl, by decide⟩, Or.inr (Or.inl trimmed_unbounded)⟩, ?_, rfl⟩)
    intro v hv
    have : v = [b!"a"] := by simpa using hv
    subst this
    exact inTurn_one (allows_decl _)
  · intro t ht
    cases ht
    decide

/-- It is false for groups that may be left out: in `<sequence minOccurs="0">` an element may be missing, but it is
not optional. -/
theorem C136_left_out_refuted :
    let kids := [part b!"sequence" [(b!"minOccurs", b!"0")] [decl b!"a" []]]
    ∃ t, parsedModel kids = some t ∧ ¬ Covers (restricted kids) t := by
  refine not_covers (w := []) (flags := [(b!"a", false, false)])
    (inTurn_one ?_) (by decide +kernel) ?_ (by decide)
  · unfold part
    rw [Allows]
    refine Or.inr (Or.inl ⟨rfl, [], ⟨Or.inr ⟨b!"0", 0, trimmed_zero, ⟨b!"0", ⟨by decide, by decide⟩, by decide⟩, Nat.le_refl _⟩, Or.inl ⟨rfl, by decide⟩⟩, ?_, rfl⟩)
    intro v hv
    cases hv
  · intro t ht
    cases ht
    decide

/-- It is false for names declared twice: after `a`, `b` and `a` the element `a` has occurred twice, but it is not
plural. -/
theorem C136_twice_refuted :
    let kids := [part b!"sequence" [] [decl b!"a" [], decl b!"b" [], decl b!"a" []]]
    ∃ t, parsedModel kids = some t ∧ ¬ Covers (restricted kids) t := by
  refine not_covers (w := [b!"a", b!"b", b!"a"])
    (flags := [(b!"a", false, false), (b!"b", false, false)]) (inTurn_one ?_) (by decide +kernel) ?_ (by decide)
  · unfold part
    rw [Allows]
    refine Or.inr (Or.inl ⟨rfl, [[b!"a", b!"b", b!"a"]], occurs_default rfl rfl, ?_, rfl⟩)
    intro v hv
    have : v = [b!"a", b!"b", b!"a"] := by simpa using hv
    subst this
    simp only [InTurn]
    exact ⟨[b!"a"], [b!"b", b!"a"], allows_decl _, ⟨[b!"b"], [b!"a"], allows_decl _, ⟨[b!"a"], [], allows_decl _, rfl, rfl⟩, rfl⟩, rfl⟩
  · intro t ht
    cases ht
    decide

/-- It is false for sequences in sequences of choices: where `a` is chosen the element `b` is missing, but it is not
optional. -/
theorem C136_deep_refuted :
    let kids := [part b!"choice" [] [decl b!"a" [], part b!"sequence" [] [part b!"sequence" [] [decl b!"b" []]]]]
    ∃ t, parsedModel kids = some t ∧ ¬ Covers (restricted kids) t := by
  refine not_covers (w := [b!"a"])
    (flags := [(b!"a", false, true), (b!"b", false, false)]) (inTurn_one ?_) (by decide +kernel) ?_ (by decide)
  · unfold part
    rw [Allows]
    refine Or.inr (Or.inr (Or.inr (Or.inl ⟨rfl, [[b!"a"]], occurs_default rfl rfl, ?_, rfl⟩)))
    intro v hv
    have : v = [b!"a"] := by simpa using hv
    subst this
    simp only [OneOf]
    exact Or.inl ⟨Or.inl (Or.inl rfl), allows_decl _⟩
  · intro t ht
    cases ht
    decide

end GoXml.Xsd
