import Verif.Props.XsdNormalize
set_option autoImplicit false

/-! Property C33: replacing a reference by its target. -/

namespace GoXml.Xsd

/-! ### C33 -/

theorem attr_attrSet_other (as : List Attr) (space loc v space' loc' : Str) (h : loc' ≠ loc) :
    attrGet space' loc' (attrSet space loc v as) = attrGet space' loc' as :=
  C02_attr_setAttr_other (.mk ⟨[], []⟩ as [] [] []) space loc v space' loc' (Or.inl h)

theorem attr_attrSet_same (as : List Attr) (space loc v : Str) :
    attrGet space loc (attrSet space loc v as) = v :=
  C02_attr_setAttr (.mk ⟨[], []⟩ as [] [] []) space loc v

theorem overrideAttrs_other (space loc : Str) (rs : List Attr) : ∀ as,
    (∀ r ∈ rs, r.name ≠ ⟨[], b!"ref"⟩ → r.name.loc ≠ loc) →
    attrGet space loc (overrideAttrs as rs) = attrGet space loc as := by
  induction rs with
  | nil => intro as _; rfl
  | cons r rs ih =>
    intro as h
    rw [overrideAttrs, ih _ (fun r hr => h r (by simp [hr]))]
    split
    · rename_i hr
      exact attr_attrSet_other _ _ _ _ _ _ (Ne.symm (h r (by simp) hr))
    · rfl

theorem attrSet_names (space loc v : Str) (as : List Attr) (n : XName) :
    (∃ a ∈ attrSet space loc v as, a.name = n) → (∃ a ∈ as, a.name = n) ∨ n = ⟨space, loc⟩ := by
  rintro ⟨a, ha, rfl⟩
  rcases (C02_setAttr_effect (.mk ⟨[], []⟩ as [] [] []) space loc v).2.2.2.2 with
    ⟨bf, t, af, e1, _, _, e2⟩ | ⟨_, e2⟩
  · have : a ∈ bf ++ ⟨t.name, v⟩ :: af := by rw [← e2]; exact ha
    have hm : as = bf ++ t :: af := e1
    left
    rcases List.mem_append.mp this with h | h
    · exact ⟨a, by rw [hm]; simp [h], rfl⟩
    · rcases List.mem_cons.mp h with rfl | h
      · exact ⟨t, by rw [hm]; simp, rfl⟩
      · exact ⟨a, by rw [hm]; simp [h], rfl⟩
  · have : a ∈ as ++ [⟨⟨space, loc⟩, v⟩] := by
      have e2' : attrSet space loc v as = as ++ [⟨⟨space, loc⟩, v⟩] := e2
      rw [← e2']; exact ha
    rcases List.mem_append.mp this with h | h
    · exact Or.inl ⟨a, h, rfl⟩
    · simp only [List.mem_singleton] at h; rw [h]; exact Or.inr rfl

theorem overrideAttrs_names (rs : List Attr) (n : XName) : ∀ as,
    (∃ a ∈ overrideAttrs as rs, a.name = n) →
    (∃ a ∈ as, a.name = n) ∨ ((∃ r ∈ rs, r.name = n) ∧ n ≠ ⟨[], b!"ref"⟩) := by
  induction rs with
  | nil => intro as h; exact Or.inl h
  | cons r rs ih =>
    intro as h
    rw [overrideAttrs] at h
    rcases ih _ h with h | ⟨⟨r', hr', h⟩, hne⟩
    · split at h
      · rename_i hr
        rcases attrSet_names _ _ _ _ _ h with h | h
        · exact Or.inl h
        · exact Or.inr ⟨⟨r, by simp, h.symm⟩, h ▸ hr⟩
      · exact Or.inl h
    · exact Or.inr ⟨⟨r', by simp [hr'], h⟩, hne⟩

theorem derefAttr_name (s1 s2 : Scope) (a : Attr) : (derefAttr s1 s2 a).name = a.name := by
  unfold derefAttr; split <;> rfl

theorem attrGet_derefAttr (s1 s2 : Scope) (space loc : Str) (as : List Attr)
    (h : loc ≠ b!"type" ∨ space ≠ []) :
    attrGet space loc (as.map (derefAttr s1 s2)) = attrGet space loc as := by
  induction as with
  | nil => rfl
  | cons a as ih =>
    rw [List.map_cons, attrGet, attrGet, derefAttr_name, ih]
    by_cases hn : a.name = ⟨[], b!"type"⟩
    · rcases h with h | h
      · have : a.name.loc ≠ loc := by rw [hn]; exact Ne.symm h
        rw [if_pos this, if_pos this]
      · have h2 : ¬ (space = [] ∨ space = a.name.space) := by rw [hn]; simp [h]
        rw [if_neg h2, if_neg h2]
    · have : derefAttr s1 s2 a = a := by unfold derefAttr; rw [if_neg hn]
      rw [this]

/-- C33, children, attributes and overriding, for every reference and target:
* name, content and children are the target's;
* every attribute whose local name the reference does not use (and that is not a `type`) has the
  target's value;
* where the local names of the reference's attributes differ, each of them has the reference's value
  (`ref` excepted);
* attributes only come from the target or the reference, and `ref` does not come from the
  reference. -/
theorem C33_deref (ref real : Element) :
    (deref ref real).name = real.name ∧ (deref ref real).content = real.content ∧
    (deref ref real).children = real.children ∧
    (∀ space loc, (∀ r ∈ ref.attrs, r.name ≠ ⟨[], b!"ref"⟩ → r.name.loc ≠ loc) → loc ≠ b!"type" ∨ space ≠ [] →
      (deref ref real).attr space loc = real.attr space loc) ∧
    (∀ before a after, ref.attrs = before ++ a :: after → a.name ≠ ⟨[], b!"ref"⟩ →
      (∀ r ∈ after, r.name.loc ≠ a.name.loc) →
      (deref ref real).attr a.name.space a.name.loc = a.value) ∧
    (∀ n, (∃ a ∈ (deref ref real).attrs, a.name = n) →
      (∃ a ∈ real.attrs, a.name = n) ∨ ((∃ r ∈ ref.attrs, r.name = n) ∧ n ≠ ⟨[], b!"ref"⟩)) := by
  refine ⟨rfl, rfl, rfl, ?_, ?_, ?_⟩
  · intro space loc h ht
    show attrGet space loc (derefAttrs _ _ _ _) = attrGet space loc real.attrs
    rw [derefAttrs, overrideAttrs_other space loc _ _ h, attrGet_derefAttr _ _ _ _ _ ht]
  · intro bf a af e hne haf
    show attrGet _ _ (derefAttrs _ _ ref.attrs _) = _
    rw [derefAttrs, e]
    generalize real.attrs.map _ = as
    have : ∀ (bf : List Attr) as, attrGet a.name.space a.name.loc (overrideAttrs as (bf ++ a :: af)) = a.value := by
      intro bf
      induction bf with
      | nil =>
        intro as
        rw [List.nil_append, overrideAttrs, if_pos hne, overrideAttrs_other _ _ _ _ (fun r hr _ => haf r hr)]
        exact attr_attrSet_same _ _ _ _
      | cons b bf ih => intro as; rw [List.cons_append, overrideAttrs]; exact ih _
    exact this bf as
  · intro n h
    rcases overrideAttrs_names ref.attrs n _ h with ⟨a, ha, hn⟩ | h
    · obtain ⟨a', ha', rfl⟩ := List.mem_map.mp ha
      rw [derefAttr_name] at hn
      exact Or.inl ⟨a', ha', hn⟩
    · exact Or.inr h

/-- C33 for the `ref` attribute: it is gone if the target has none. -/
theorem C33_ref_removed (ref real : Element) (h : ∀ a ∈ real.attrs, a.name ≠ ⟨[], b!"ref"⟩) :
    ∀ a ∈ (deref ref real).attrs, a.name ≠ ⟨[], b!"ref"⟩ := by
  intro a ha hn
  rcases (C33_deref ref real).2.2.2.2.2 _ ⟨a, ha, hn⟩ with ⟨a', ha', h'⟩ | h'
  · exact h a' ha' h'
  · exact h'.2 rfl

/-- C33 is false as stated: if the reference is in a scope that does not declare the namespace of
the target's type, the type is lost. -/
theorem C33_type_refuted :
    let real := Element.mk ⟨schemaNS, b!"attribute"⟩ [⟨⟨[], b!"name"⟩, b!"a"⟩, ⟨⟨[], b!"type"⟩, b!"p:T"⟩]
      [⟨schemaNS, b!"xs"⟩, ⟨b!"urn:p", b!"p"⟩] [] []
    let ref := Element.mk ⟨schemaNS, b!"attribute"⟩ [⟨⟨[], b!"ref"⟩, b!"q:a"⟩]
      [⟨schemaNS, b!"xs"⟩, ⟨b!"urn:q", b!"q"⟩] [] []
    resolve real.scope (real.attr [] b!"type") = ⟨b!"urn:p", b!"T"⟩ ∧
    (deref ref real).attr [] b!"type" = [] := by
  decide +kernel

/-- C33 is also false for a reference with two attributes of the same local name: the unqualified
one overwrites the other, and is itself missing. -/
theorem C33_override_refuted :
    let real := Element.mk ⟨schemaNS, b!"attribute"⟩ [] [] [] []
    let ref := Element.mk ⟨schemaNS, b!"attribute"⟩ [⟨⟨b!"v", b!"id"⟩, b!"1"⟩, ⟨⟨[], b!"id"⟩, b!"2"⟩] [] [] []
    (deref ref real).attrs = [⟨⟨b!"v", b!"id"⟩, b!"2"⟩] := by
  decide +kernel

theorem innermost_joinScope {outer inner : Scope} {p ns : Str} (h : Innermost inner p ns) :
    Innermost (joinScope outer inner) p ns := by
  obtain ⟨o, i, e, hn⟩ := h
  exact ⟨outer ++ o, i, by rw [joinScope, e]; simp, hn⟩

/-- C33 for the type: if the reference does not set a type, and in its scope the namespace of the
target's type is declared under a prefix that has not been redeclared further in, the result has
the type of the target. Missing for C33: other scopes and repeated local names, for which it is
false. -/
theorem C33_type_partial (ref real : Element) (before after : List Attr) (q pre : Str)
    (hreal : real.attrs = before ++ ⟨⟨[], b!"type"⟩, q⟩ :: after)
    (hbefore : ∀ a ∈ before, a.name.loc ≠ b!"type")
    (href : ∀ r ∈ ref.attrs, r.name.loc ≠ b!"type")
    (hns : (resolve real.scope q).space ≠ [] ∧ (resolve real.scope q).space ≠ xmlLangURI ∧
      (resolve real.scope q).space ≠ xmlNamespaceURI)
    (hloc : (resolve real.scope q).loc ≠ [] ∧ (58 : UInt8) ∉ (resolve real.scope q).loc)
    (hsc : ∀ d ∈ ref.scope, (58 : UInt8) ∉ d.loc ∧ d.loc ≠ b!"xml" ∧ d.loc ≠ b!"xmlns")
    (hf : Favoured ref.scope (resolve real.scope q).space pre)
    (hi : Innermost ref.scope pre (resolve real.scope q).space) :
    real.attr [] b!"type" = q ∧
    resolve (deref ref real).scope ((deref ref real).attr [] b!"type") = resolve real.scope q := by
  have hskip : ∀ (bf : List Attr) (a : Attr) (af : List Attr), (∀ x ∈ bf, x.name.loc ≠ b!"type") → a.name = ⟨[], b!"type"⟩ →
      attrGet [] b!"type" (bf ++ a :: af) = a.value := by
    intro bf a af h ha
    induction bf with
    | nil => rw [List.nil_append, attrGet, if_neg (by rw [ha]; simp), if_pos (Or.inl rfl)]
    | cons b bf ih =>
      rw [List.cons_append, attrGet, if_pos (h b (by simp)), ih (fun x hx => h x (by simp [hx]))]
  refine ⟨by show attrGet _ _ real.attrs = _; rw [hreal]; exact hskip _ _ _ hbefore rfl, ?_⟩
  generalize hn : resolve real.scope q = n at *
  have hattr : (deref ref real).attr [] b!"type" = prefixOf ref.scope n := by
    show attrGet [] b!"type" (derefAttrs _ _ _ _) = _
    rw [derefAttrs, overrideAttrs_other _ _ _ _ (fun r hr _ => href r hr), hreal, List.map_append, List.map_cons]
    rw [hskip]
    · simp [derefAttr, hn]
    · intro x hx
      obtain ⟨a, ha, rfl⟩ := List.mem_map.mp hx
      rw [derefAttr_name]; exact hbefore a ha
    · rw [derefAttr_name]
  rw [hattr]
  have hpre := C06_prefix_favoured ref.scope n.space n.loc pre hns hloc.1 hf
  have hmem : (⟨n.space, pre⟩ : XName) ∈ ref.scope := by
    obtain ⟨o, i, e, _⟩ := hi
    rw [e]; simp
  obtain ⟨hc, hx, hxn⟩ := hsc _ hmem
  have hqn : QNameParts (prefixOf ref.scope n) pre n.loc := by
    rw [show n = ⟨n.space, n.loc⟩ from rfl, hpre]
    split
    · rename_i h; right; exact ⟨hloc.2, h, rfl⟩
    · left; exact ⟨rfl, hc⟩
  have hsco : Innermost (deref ref real).scope pre n.space := by
    show Innermost (if _ then _ else _) _ _
    split
    · exact innermost_joinScope hi
    · exact hi
  obtain ⟨_, _, h3, _, h5⟩ := C03_resolveNS (deref ref real).scope _ _ _ hqn
  rw [h5, h3 hx hxn _ hsco]

/-- A reference with another prefix for the type's namespace. -/
example :
    let real := Element.mk ⟨schemaNS, b!"element"⟩ [⟨⟨[], b!"name"⟩, b!"a"⟩, ⟨⟨[], b!"type"⟩, b!"p:T"⟩]
      [⟨b!"urn:p", b!"p"⟩] [] [Element.mk ⟨schemaNS, b!"annotation"⟩ [] [] [] []]
    let ref := Element.mk ⟨schemaNS, b!"element"⟩ [⟨⟨[], b!"ref"⟩, b!"q:a"⟩, ⟨⟨[], b!"minOccurs"⟩, b!"0"⟩]
      [⟨b!"urn:p", b!"q"⟩] [] []
    (deref ref real).attrs =
      [⟨⟨[], b!"name"⟩, b!"a"⟩, ⟨⟨[], b!"type"⟩, b!"q:T"⟩, ⟨⟨[], b!"minOccurs"⟩, b!"0"⟩] ∧
    Favoured ref.scope (resolve real.scope b!"p:T").space b!"q" ∧
    Innermost ref.scope b!"q" (resolve real.scope b!"p:T").space := by
  refine ⟨by decide +kernel, Or.inr ⟨by decide, [], [], by decide, by simp⟩, [], [], by decide, by simp⟩

end GoXml.Xsd
