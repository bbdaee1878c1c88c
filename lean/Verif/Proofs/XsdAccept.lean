import Verif.Spec.XsdAccept
import Verif.Proofs.XsdAnon
import Verif.Proofs.XsdNamed
import Verif.Proofs.XsdErrors
import Verif.Proofs.XsdDecls
import Verif.Props.XsdPanic
import Verif.Props.XsdMissing
set_option autoImplicit false

/-! Lemmas: sound schemas are accepted. -/

namespace GoXml.Xsd
open Wsdl

variable {env : ParseEnv} {ee : ErrEnv} {known before : XName → Prop}

/-- What is left to ask of an element of a normalized schema. -/
structure RipeAt (env : ParseEnv) (known before : XName → Prop) (x : Element) : Prop where
  sound : SoundAt env known before x
  named : ¬ HasAnon x
  full : ¬ Shorthand x
  typed : TypedAt x

theorem w3c_eq : w3cSchemaNS = schemaNS := by decide

/-! ### There are no errors in types -/

theorem bool_fine {s : Str} (h : ∃ b, BoolText s b) : boolFault s = none := by
  by_contra hc
  obtain ⟨b, hb⟩ := h
  exact (parseBool_none s).mp ((boolFault_iff s).mpr hc) b hb

theorem int_fine {s : Str} (h : ∃ n, Means s n) : intFault ee s = none := by
  by_contra hc
  obtain ⟨n, hn⟩ := h
  exact (parseInt_none s).mp ((intFault_iff s).mpr hc) n hn

theorem decimal_fine {s : Str} (h : Numeric env s) : decimalFault env ee s = none := by
  by_contra hc
  exact (parseDecimal_none env s).mp ((decimalFault_iff s).mpr hc) h

theorem annotation_fine (hd : ReadsNotes env) {e : Element} (hs : e.name.space = schemaNS) (hl : e.name.loc = b!"annotation") : annotationFault env ee e = none := by
  have := hd (xname_of (s := w3cSchemaNS) hs hl)
  unfold annotationFault
  split
  · rename_i h; rw [h] at this; cases this
  · rfl

theorem plural_fine {x : Element} (h : SoundAt env known before x) : pluralFault ee x = none := by
  have h1 := h.counts b!"minOccurs" (by simp)
  have h2 := h.counts b!"maxOccurs" (by simp)
  rw [← Wsdl.attr_eq] at h1 h2
  unfold pluralFault
  split
  · exact int_fine h1
  · split
    · rfl
    · exact int_fine h2

theorem docs_fine (hd : ReadsNotes env) (x : Element) : docsFault env ee x = none := by
  unfold docsFault
  rw [walkFault_none]
  intro e _ hs
  split
  · rename_i hl; exact annotation_fine hd hs hl
  · rfl

theorem element_fine (hd : ReadsNotes env) {x : Element} (h : SoundAt env known before x) : elementFault env ee x = none := by
  unfold elementFault
  rw [or_none, or_none, or_none, or_none]
  simp only [Wsdl.attr_eq]
  refine ⟨bool_fine (h.flags _ (by simp)), bool_fine (h.flags _ (by simp)), plural_fine h, ?_, docs_fine hd x⟩
  split
  · exact int_fine (h.counts _ (by simp))
  · rfl

theorem derivation_fine (hd : ReadsNotes env) {x : Element} (h : ∀ d ∈ below x, SoundAt env known before d) : derivationFault env ee x = none := by
  unfold derivationFault
  rw [or_none, or_none, firstFault_none, firstFault_none, firstFault_none]
  exact ⟨fun d hm => plural_fine (h d (uses_search (List.mem_of_mem_take hm)).1), fun d hm => element_fine hd (h d (uses_search hm).1), fun d _ => docs_fine hd d⟩

theorem complexContent_fine (hd : ReadsNotes env) {x : Element} (hx : ∃ b, BoolText (attrNamed x b!"mixed") b)
    (hk : ∀ k ∈ x.children, k.name.space = w3cSchemaNS → k.name.loc ∈ [b!"annotation", b!"restriction", b!"extension"])
    (h : ∀ k ∈ x.children, ∀ d ∈ below k, SoundAt env known before d) : complexContentFault env ee x = none := by
  unfold complexContentFault
  rw [or_none, walkFault_none]
  refine ⟨?_, fun e he hs => ?_⟩
  · split
    · rw [Wsdl.attr_eq]; exact bool_fine hx
    · rfl
  · have hl := hk e he hs
    split
    · exact derivation_fine hd (h e he)
    · split
      · exact derivation_fine hd (h e he)
      · split
        · rename_i hl; exact annotation_fine hd hs hl
        · rename_i h1 h2 h3
          simp only [List.mem_cons, List.not_mem_nil, or_false] at hl
          rcases hl with hl | hl | hl
          · exact absurd hl h3
          · exact absurd hl h2
          · exact absurd hl h1

theorem simpleContent_fine (hd : ReadsNotes env) (x : Element) : simpleContentFault env ee x = none := by
  unfold simpleContentFault
  rw [walkFault_none]
  intro e _ hs
  split
  · rename_i hl; exact annotation_fine hd hs hl
  · split
    · rfl
    · split
      · rw [firstFault_none]; exact fun d _ => docs_fine hd d
      · rfl

theorem complexType_fine (hd : ReadsNotes env) {x : Element} (hx : ∀ a ∈ [b!"abstract", b!"mixed"], ∃ b, BoolText (attrNamed x a) b)
    (hk : ∀ k ∈ x.children, k.name.space = w3cSchemaNS → k.name.loc ∈ [b!"annotation", b!"simpleContent", b!"complexContent"])
    (h : ∀ k ∈ x.children, IsXs b!"complexContent" k → (∃ b, BoolText (attrNamed k b!"mixed") b) ∧
      (∀ j ∈ k.children, j.name.space = w3cSchemaNS → j.name.loc ∈ [b!"annotation", b!"restriction", b!"extension"]) ∧
      ∀ j ∈ k.children, ∀ d ∈ below j, SoundAt env known before d) : complexTypeFault env ee x = none := by
  unfold complexTypeFault
  rw [or_none, or_none, walkFault_none]
  simp only [Wsdl.attr_eq]
  refine ⟨bool_fine (hx _ (by simp)), bool_fine (hx _ (by simp)), fun e he hs => ?_⟩
  have hl := hk e he hs
  split
  · rename_i hl; exact annotation_fine hd hs hl
  · split
    · exact simpleContent_fine hd e
    · split
      · rename_i hl
        obtain ⟨h1, h2, h3⟩ := h e he (xname_of (s := w3cSchemaNS) hs hl)
        exact complexContent_fine hd h1 h2 h3
      · rename_i h1 h2 h3
        simp only [List.mem_cons, List.not_mem_nil, or_false] at hl
        rcases hl with hl | hl | hl
        · exact absurd hl h1
        · exact absurd hl h2
        · exact absurd hl h3

theorem parseType_builtin {n : XName} {b : Builtin} (h : parseType n = .builtin b) : 0 ≤ b ∧ b < 50 ∧ n = builtinName b := by
  unfold parseType at h
  split at h
  · rename_i b' hb
    cases h
    obtain ⟨h1, h2, h3⟩ := (C26_parse_only _ _).mp hb
    exact ⟨h1, h2, h3.symm⟩
  · cases h

theorem parseType_links {n m : XName} (h : parseType n = .link m) : m = n ∧ ¬ BuiltIn n := by
  unfold parseType at h
  split at h
  · cases h
  · rename_i hb
    cases h
    refine ⟨rfl, ?_⟩
    rintro ⟨b, h1, h2, h3⟩
    rw [(C26_parse_only _ _).mpr ⟨h1, h2, h3⟩] at hb
    cases hb

theorem minMax_fine {base : XName} {k : Element} (h : Readable env base (attrNamed k b!"value")) : minMaxFault env ee (parseType base) k = none := by
  unfold minMaxFault
  rw [Wsdl.attr_eq]
  dsimp only
  unfold Readable at h
  have n16 : builtinName 16 = ⟨w3cSchemaNS, b!"date"⟩ := by decide +kernel
  have n17 : builtinName 17 = ⟨w3cSchemaNS, b!"dateTime"⟩ := by decide +kernel
  split
  · rename_i b hb
    obtain ⟨b1, b2, rfl⟩ := parseType_builtin hb
    have hbi : BuiltIn (builtinName b) := ⟨b, b1, b2, rfl⟩
    by_cases h16 : b = 16
    · subst h16
      rw [if_pos n16] at h
      rw [if_pos rfl, if_pos h]
    · have e16 : builtinName b ≠ ⟨w3cSchemaNS, b!"date"⟩ := by
        intro e
        exact h16 (C26_names_distinct b 16 ⟨b1, b2⟩ (by decide) (e.trans n16.symm))
      rw [if_neg e16] at h
      rw [if_neg h16]
      by_cases h17 : b = 17
      · subst h17
        rw [if_pos n17] at h
        rw [if_pos rfl, if_pos h]
      · have e17 : builtinName b ≠ ⟨w3cSchemaNS, b!"dateTime"⟩ := by
          intro e
          exact h17 (C26_names_distinct b 17 ⟨b1, b2⟩ (by decide) (e.trans n17.symm))
        rw [if_neg e17] at h
        rw [if_neg h17]
        exact decimal_fine (h.resolve_right fun hh => hh.1 hbi)
  · rename_i m hm
    obtain ⟨rfl, hnb⟩ := parseType_links hm
    rw [if_neg (fun e => hnb ⟨16, by decide, by decide, n16.trans (Eq.symm e)⟩), if_neg (fun e => hnb ⟨17, by decide, by decide, n17.trans (Eq.symm e)⟩)] at h
    split
    · rfl
    · split
      · rfl
      · rename_i h1 h2
        exact decimal_fine (h.resolve_right fun hh => hh.2.elim h1 h2)
  · rename_i id hid
    unfold parseType at hid
    split at hid <;> cases hid

theorem ite_fine {α : Type} {c : Prop} [Decidable c] {a b : Option α} (h1 : c → a = none) (h2 : ¬ c → b = none) : (if c then a else b) = none := by
  split
  · rename_i h; exact h1 h
  · rename_i h; exact h2 h

theorem facet_fine (hd : ReadsNotes env) {base : XName} {k : Element} (hs : k.name.space = schemaNS) (hk : SoundAt env known before k)
    (hl : Limit k → Readable env base (attrNamed k b!"value")) : facetFault env ee (parseType base) k = none := by
  have hlim : ∀ loc ∈ [b!"minInclusive", b!"minExclusive", b!"maxInclusive", b!"maxExclusive"], k.name.loc = loc → minMaxFault env ee (parseType base) k = none := by
    intro loc h1 h2
    exact minMax_fine (hl ⟨loc, h1, xname_of (s := w3cSchemaNS) hs h2⟩)
  have hsize : ∀ loc ∈ [b!"length", b!"minLength", b!"maxLength", b!"totalDigits", b!"fractionDigits"], k.name.loc = loc → intFault ee (attrNamed k b!"value") = none := by
    intro loc h1 h2
    obtain ⟨n, _, h3⟩ := hk.sizes loc h1 (xname_of (s := w3cSchemaNS) hs h2)
    exact int_fine ⟨n, h3⟩
  unfold facetFault
  rw [Wsdl.attr_eq]
  dsimp only
  refine ite_fine (fun _ => rfl) fun _ => ite_fine (fun h => ?_) fun _ => ite_fine (fun h => ?_) fun _ => ite_fine (fun h => ?_) fun _ => ite_fine (fun h => ?_) fun _ =>
    ite_fine (fun h => ?_) fun _ => ite_fine (fun _ => rfl) fun _ => ite_fine (fun h => ?_) fun _ => ite_fine (fun h => ?_) fun _ => ite_fine (fun h => ?_) fun _ => rfl
  · rcases h with h | h
    · exact hlim _ (by simp) h
    · exact hlim _ (by simp) h
  · rcases h with h | h
    · exact hlim _ (by simp) h
    · exact hlim _ (by simp) h
  · exact hsize _ (by simp) h
  · exact hsize _ (by simp) h
  · exact hsize _ (by simp) h
  · obtain ⟨n, h1, h3⟩ := hk.sizes _ (by simp) (xname_of (s := w3cSchemaNS) hs h)
    rw [(parseInt_iff _ _).mpr h3]
    dsimp only
    rw [if_neg (by omega)]
  · exact annotation_fine hd hs h
  · exact hsize _ (by simp) h

theorem simpleType_fine (hd : ReadsNotes env) {x : Element} (h : ∀ d ∈ below x, SoundAt env known before d) : simpleTypeFault env ee x = none := by
  unfold simpleTypeFault
  rw [walkFault_none]
  intro e he hs
  split
  · rename_i hl
    rw [walkFault_none]
    intro k hk hks
    rw [refers_eq]
    exact facet_fine hd hks (h k (inside_trans (child_below he) (child_below hk)))
      ((h e (child_below he)).limits (xname_of (s := w3cSchemaNS) hs hl) k hk)
  split
  · rfl
  split
  · rfl
  split
  · rename_i hl; exact annotation_fine hd hs hl
  · rfl

theorem mem_belows_filter {p : Element → Bool} {d : Element} : ∀ {cs : List Element}, d ∈ belows (cs.filter p) → d ∈ belows cs := by
  intro cs
  induction cs with
  | nil => exact id
  | cons c cs ih =>
    intro hd
    rw [List.filter_cons] at hd
    rw [belows, List.mem_cons, List.mem_append]
    split at hd
    · rw [belows, List.mem_cons, List.mem_append] at hd
      rcases hd with hd | hd | hd
      · exact Or.inl hd
      · exact Or.inr (Or.inl hd)
      · exact Or.inr (Or.inr (ih hd))
    · exact Or.inr (Or.inr (ih hd))

theorem types_fine (hd : ReadsNotes env) {r : Element} (hr : ∀ a ∈ [b!"abstract", b!"mixed"], ∃ b, BoolText (attrNamed r a) b)
    (h : ∀ x ∈ below r, RipeAt env known before x) : typesFault env ee r = none := by
  have hin : ∀ x ∈ below r, ∀ d ∈ below x, SoundAt env known before d := fun x hx d hdm => (h d (inside_trans hx hdm)).sound
  unfold typesFault
  rw [or_none, or_none, firstFault_none, firstFault_none]
  refine ⟨fun x hx => ?_, fun x hx => simpleType_fine hd (hin x (uses_search hx).1), ?_⟩
  · obtain ⟨h1, h2⟩ := uses_search hx
    have hx1 := h x h1
    refine complexType_fine (known := known) (before := before) hd (fun a ha => hx1.sound.flags a ?_) ?_ ?_
    · simp only [List.mem_cons, List.not_mem_nil, or_false] at ha ⊢
      rcases ha with ha | ha <;> simp [ha]
    · intro k hk
      exact (hx1.sound.content h2 k hk).2.resolve_left hx1.full
    · intro k hk hc
      have hk1 := h k (inside_trans h1 (child_below hk))
      exact ⟨hk1.sound.flags _ (by simp), hk1.sound.derivation hc, fun j hj => hin j (inside_trans h1 (inside_trans (child_below hk) (child_below hj)))⟩
  · refine complexType_fine (known := known) (before := before) hd ?_ ?_ ?_
    · intro a ha
      have : attrNamed (selfTree r) a = attrNamed r a := by
        unfold selfTree
        rw [← Wsdl.attr_eq, ← Wsdl.attr_eq]
        refine attr_attrSet_other _ _ _ _ _ _ ?_
        rintro rfl
        simp at ha
      rw [this]
      exact hr a ha
    · intro k hk _
      simp only [selfTree, Element.children, List.mem_singleton] at hk
      subst hk
      simp [Element.name]
    · intro k hk _
      simp only [selfTree, Element.children, List.mem_singleton] at hk
      subst hk
      refine ⟨⟨false, .inr ⟨rfl, .inr (.inr rfl)⟩⟩, ?_, ?_⟩
      · intro j hj _
        simp only [Element.children, List.mem_singleton] at hj
        subst hj
        simp [Element.name]
      · intro j hj d hdm
        simp only [Element.children, List.mem_singleton] at hj
        subst hj
        refine (h d ?_).sound
        rw [below] at hdm
        rw [below_eq]
        exact mem_belows_filter hdm

/-! ### There are no missing types -/

/-- Built in or defined by one of the schemas. -/
def KnownIn (roots : List Element) (n : XName) : Prop := BuiltIn n ∨ ∃ r ∈ roots, ∃ k ∈ typeDecls r, n = defines (target r) k

theorem nodup_target {roots : List Element} (hd : (roots.map target).Nodup) {r r' : Element} (h : r ∈ roots) (h' : r' ∈ roots) (e : target r = target r') : r = r' :=
  List.inj_on_of_nodup_map hd h h' e

theorem known_defined {roots : List Element} (hd : (roots.map target).Nodup) (ht : ∀ r ∈ roots, target r ≠ []) {p0 : GoMap Str Schema} {H0 : THeap}
    (h : parseRoots env [] [] roots = some (p0, H0)) {n : XName} (hn : KnownIn roots n) : ¬ Undefined p0 H0 n := by
  rintro ⟨u1, u2⟩
  rcases hn with ⟨b, b1, b2, b3⟩ | ⟨r, hr, k, hk, rfl⟩
  · exact u1 b b1 b2 b3
  · obtain ⟨_, _, _, hin⟩ := parsed_roots roots parsed_nil h
    obtain ⟨r', hr', he, s, Hr, Hr', hs, hp, hpre⟩ := hin _ (List.mem_map.mpr ⟨r, hr, rfl⟩)
    obtain rfl := nodup_target hd hr hr' he
    obtain ⟨os, self, ho1, ho2, rfl, hs4, hs5⟩ := parseTypes_eq hp
    obtain ⟨hlen, hget⟩ := List.forall₂_iff_get.mp ((mapOpt_some_iff _ _ _).mp ho1)
    obtain ⟨j, hj, rfl⟩ := List.getElem_of_mem hk
    have hname : (os.map (·.name) ++ [⟨attrNamed r b!"targetNamespace", b!"_self"⟩])[j]? = some (defines (target r) (typeDecls r)[j]) := by
      have hj' : j < os.length := by omega
      rw [List.getElem?_append_left (by simpa using hj'), List.getElem?_map, List.getElem?_eq_getElem hj']
      exact congrArg some (parseDecl_header (hget j hj hj')).1
    generalize defines (target r) (typeDecls r)[j] = n at hname u1 u2
    -- The last declaration of this name counts.
    have hlast : ∀ (ks : List XName), n ∈ ks → ∃ i : Nat, ks[i]? = some n ∧ ∀ j : Nat, i < j → ks[j]? ≠ some n := by
      intro ks
      induction ks using List.reverseRecOn with
      | nil => intro h; cases h
      | append_singleton ks k ih =>
        intro hm
        by_cases hk : k = n
        · refine ⟨ks.length, by rw [List.getElem?_append_right (by omega)]; simp [hk], fun j hj => ?_⟩
          rw [List.getElem?_eq_none (by simp; omega)]
          simp
        · obtain ⟨i, h1, h2⟩ := ih ((List.mem_append.mp hm).resolve_right (by simpa using Ne.symm hk))
          refine ⟨i, List.getElem?_append_left (List.getElem?_eq_some_iff.mp h1).1 ▸ h1, fun j hj => ?_⟩
          by_cases hjl : j < ks.length
          · rw [List.getElem?_append_left hjl]; exact h2 j hj
          · rw [List.getElem?_append_right (by omega)]
            intro hc
            have := List.mem_of_getElem? hc
            simp only [List.mem_singleton] at this
            exact hk this.symm
    obtain ⟨i, i1, i2⟩ := hlast _ (List.mem_of_getElem? hname)
    have hobj : s.types.get n = some (.obj (Hr.length + i)) := by
      rw [hs5, get_enter]
      exact ⟨i, i1, i2, rfl⟩
    obtain ⟨rest, rfl⟩ := hpre
    refine u2 _ s n _ hs hobj ?_
    have hil := (List.getElem?_eq_some_iff.mp i1).1
    simp only [List.length_append, List.length_map, List.length_singleton] at hil
    have hval : ∃ o : TObj, (Hr ++ os ++ [.complex self] ++ rest)[Hr.length + i]? = some o ∧ o.name = n := by
      by_cases hi : i < os.length
      · refine ⟨os[i], ?_, ?_⟩
        · rw [List.append_assoc, List.append_assoc, List.getElem?_append_right (by omega), Nat.add_sub_cancel_left, List.getElem?_append_left hi, List.getElem?_eq_getElem hi]
        · rw [List.getElem?_append_left (by simpa using hi), List.getElem?_map, List.getElem?_eq_getElem hi] at i1
          exact Option.some.inj i1
      · have : i = os.length := by omega
        subst this
        refine ⟨.complex self, ?_, ?_⟩
        · rw [List.append_assoc, List.append_assoc, List.getElem?_append_right (by omega), Nat.add_sub_cancel_left, List.getElem?_append_right (by omega), Nat.sub_self]
          rfl
        · rw [List.getElem?_append_right (by simp)] at i1
          simp only [List.length_map, Nat.sub_self, List.getElem?_cons_zero, Option.some.injEq] at i1
          rw [← i1]
          have := (selfTree_header ho2).1
          rw [if_pos (ht r hr)] at this
          exact this
    obtain ⟨o, o1, o2⟩ := hval
    show (match (Hr ++ os ++ [TObj.complex self] ++ rest)[Hr.length + i]? with
      | some o => o.name
      | none => ⟨[], []⟩) = n
    rw [o1]
    exact o2

theorem fine_union {P : Ty → Prop} {ns : Str} {t : SimpleT} {el : Element}
    (h1 : ∀ c ∈ el.children, c.name = ⟨schemaNS, b!"union"⟩ → ∀ q ∈ fields (attrNamed c b!"memberTypes"), P (parseType (denoted c.scope q)))
    (h : parseSimpleType env ns el = some t) : ∀ u ∈ t.union, P u := by
  unfold parseSimpleType at h
  rw [Option.map_eq_some_iff] at h
  obtain ⟨r, h, rfl⟩ := h
  exact walkFold_inv_ns (fun s : SimpleT × Str => ∀ u ∈ s.1.union, P u) _ _ _ r (by
    intro s e s' he hns hs hf
    unfold simpleStep at hf
    split at hf
    · rw [Option.map_eq_some_iff] at hf
      obtain ⟨t1, h3, rfl⟩ := hf
      exact hs
    · split at hf
      · cases hf; exact hs
      · split at hf
        · rename_i hl
          cases hf
          intro u hu
          simp only [List.mem_append, List.mem_map] at hu
          rcases hu with hu | ⟨q, hq, rfl⟩
          · exact hs u hu
          · rw [Wsdl.attr_eq] at hq
            rw [Wsdl.resolve_eq]
            exact h1 e he (xname_of hns hl) q hq
        · split at hf
          · rw [Option.map_eq_some_iff] at hf
            obtain ⟨t1, h3, rfl⟩ := hf
            exact hs
          · cases hf; exact hs) (by simp) h

/-- A link leads to a known type. -/
def Leads (K : XName → Prop) (t : Ty) : Prop := ∀ m, t = .link m → K m

theorem leads_parse {K : XName → Prop} {n : XName} (h : K n) : Leads K (parseType n) := by
  intro m hm
  obtain ⟨rfl, _⟩ := parseType_links hm
  exact h

theorem leads_builtin {K : XName → Prop} (b : Builtin) : Leads K (.builtin b) := by
  intro m hm; cases hm

theorem tells_known {quote : Str → Str} {K : XName → Prop} {o : TObj} {m : XName} {text : Str} (h : TellsUse quote o m text)
    (hc : ∀ c, o = .complex c → FineName (Leads K) (Leads K) c) (hs : ∀ s, o = .simple s → (∀ b, s.base = some b → Leads K b) ∧ ∀ u ∈ s.union, Leads K u) : K m := by
  cases h with
  | base h => exact (hc _ rfl).base _ h m rfl
  | element h1 h2 => exact (hc _ rfl).elements _ h1 m h2
  | attr h1 h2 => exact (hc _ rfl).attributes _ h1 m h2
  | simpleBase h => exact (hs _ rfl).1 _ h m rfl
  | member h => exact (hs _ rfl).2 _ h m rfl

section
variable {r : Element} (hk : ∀ n, before n → known n) (h : ∀ x ∈ below r, RipeAt env known before x)
include h

theorem ripe_type {d : Element} (hd : d ∈ below r) (hu : UsesType d) : Leads known (parseType (refersTo d b!"type")) := by
  refine leads_parse ?_
  have hx := h d hd
  rcases hu with hu | ⟨hu | hu, ht⟩
  · exact hx.sound.type (.inr (.inl hu)) (hx.typed (.inl hu))
  · exact hx.sound.type (.inl hu) ht
  · exact hx.sound.type (.inr (.inr hu)) ht

include hk

theorem ripe_base {d : Element} (hd : d ∈ below r) (hu : UsesBase d) : Leads known (parseType (refersTo d b!"base")) := by
  refine leads_parse (hk _ ((h d hd).sound.base fun he => (h d hd).named ((h d hd).sound.based ?_ he)))
  exact hu.symm

theorem ripe_complex {ns : Str} {x : Element} {c : ComplexT} (hx : x ∈ below r) (hp : parseComplexType env ns x = some c) : FineName (Leads known) (Leads known) c :=
  fine_complexType (leads_builtin _) (fun _ hd hu => ripe_type h (inside_trans hx hd) hu)
    (fun _ hc _ _ hd hu => ripe_base hk h (inside_trans hx (inside_trans (child_below hc) (child_below hd))) hu) hp

theorem ripe_simple {ns : Str} {x : Element} {s : SimpleT} (hx : x ∈ below r) (hp : parseSimpleType env ns x = some s) :
    (∀ b, s.base = some b → Leads known b) ∧ ∀ u ∈ s.union, Leads known u := by
  refine ⟨fine_simpleType (leads_builtin _) (fun c hc => ⟨fun hn => ripe_base hk h (inside_trans hx (child_below hc)) (.inr hn), fun hn => ?_⟩) hp,
    fine_union (fun c hc hn q hq => ?_) hp⟩
  · have hcx := h c (inside_trans hx (child_below hc))
    exact leads_parse (hk _ (hcx.sound.item fun he => hcx.named (hcx.sound.listed hn he)))
  · exact leads_parse ((h c (inside_trans hx (child_below hc))).sound.members hn _ (fields_words _) q hq)

theorem ripe_self (hcl : Clear r.scope w3cSchemaNS) (hb : ∀ n, BuiltIn n → known n) {ns : Str} {c : ComplexT} (hp : parseComplexType env ns (selfTree r) = some c) :
    FineName (Leads known) (Leads known) c := by
  refine fine_complexType (leads_builtin _) ?_ ?_ hp
  · intro d hd hu
    simp only [selfTree, below, belows, List.append_nil, List.mem_cons] at hd
    rcases hd with rfl | rfl | hd
    · unfold UsesType at hu; simp [Element.name] at hu
    · unfold UsesType at hu; simp [Element.name] at hu
    · refine ripe_type h ?_ hu
      rw [below_eq]
      exact mem_belows_filter hd
  · intro c hc _ d hd _
    simp only [selfTree, Element.children, List.mem_singleton] at hc
    subst hc
    simp only [Element.children, List.mem_singleton] at hd
    subst hd
    refine leads_parse (hb _ ⟨AnyType, by decide, by decide, ?_⟩)
    show builtinName AnyType = denoted r.scope (prefixOf r.scope (builtinName AnyType))
    rw [← Wsdl.resolve_eq]
    exact (C06_prefix_inverse_unique_partial r.scope w3cSchemaNS b!"anyType" hcl.ns ⟨by decide, by decide⟩ hcl.pre hcl.one hcl.decl).symm

end

/-- Schemas that are sound and normalized. -/
structure RipeSet (env : ParseEnv) (roots : List Element) : Prop where
  apart : (roots.map target).Nodup
  order : InOrder roots
  tns : ∀ r ∈ roots, target r ≠ []
  flags : ∀ r ∈ roots, ∀ a ∈ [b!"abstract", b!"mixed"], ∃ b, BoolText (attrNamed r a) b
  clear : ∀ r ∈ roots, Clear r.scope w3cSchemaNS
  each : ∀ r ∈ roots, ∀ x ∈ below r, RipeAt env (KnownIn roots) (KnownIn roots) x

theorem accept_roots {grow : Nat → Nat → Nat} {n : Nat} {ord : MapOrder} {docs roots : List Element} (hd : ReadsNotes env) (h : RipeSet env roots)
    (hn : normalize grow n docs = some roots) : ∃ q, parse grow n env ord docs = .ok q := by
  have ee : ErrEnv := ⟨fun _ => [], fun _ => [], fun _ => [], fun _ _ => []⟩
  have hf : firstFault (typesFault env ee) roots = none := by
    rw [firstFault_none]
    exact fun r hr => types_fine hd (h.flags r hr) (h.each r hr)
  cases hp : parseRoots env [] [] roots with
  | none => exact absurd hf ((rootsFault_iff (env := env) (ee := ee) roots [] []).mp hp)
  | some q =>
    obtain ⟨p0, H0⟩ := q
    have hpanic := C72_no_panic_partial env ord roots h.apart h.order
    obtain ⟨e1, e2⟩ := C147_named_partial (fun s => s) grow n env ee ord docs roots p0 H0 hn hp
    have herr : parse grow n env ord docs ≠ .error := by
      intro he
      cases ht : parseErrorText (fun s => s) grow n env ee ord docs with
      | none => exact e1.mp he ht
      | some text =>
        obtain ⟨m, hm, hu⟩ := e2 text ht
        refine known_defined h.apart h.tns hp ?_ hm
        rcases hu with ⟨k, s, key, id, o, g1, g2, g3, g4⟩ | ⟨r, hr, el, hel, hne, rfl, _⟩
        · obtain ⟨_, _, hout, hin⟩ := parsed_roots roots parsed_nil hp
          have hkm : k ∈ roots.map target := by
            by_contra hc
            rw [hout k hc, GoMap.get_nil] at g1
            cases g1
          obtain ⟨r, hr, rfl, s', Hr, Hr', hs, hpt, hpre⟩ := hin k hkm
          rw [g1] at hs
          cases hs
          obtain ⟨os, self, ho1, ho2, rfl, hs4, hs5⟩ := parseTypes_eq hpt
          obtain ⟨hlen, hget⟩ := List.forall₂_iff_get.mp ((mapOpt_some_iff _ _ _).mp ho1)
          rw [hs5, get_enter] at g2
          obtain ⟨j, hj1, _, hid⟩ := g2
          cases hid
          have hlt := (List.getElem?_eq_some_iff.mp hj1).1
          simp only [List.length_append, List.length_map, List.length_singleton] at hlt
          obtain ⟨rest, rfl⟩ := hpre
          rw [List.append_assoc, List.append_assoc, List.getElem?_append_right (by omega), Nat.add_sub_cancel_left] at g3
          by_cases hj : j < os.length
          · rw [List.getElem?_append_left hj, List.getElem?_eq_getElem hj] at g3
            have hdecl := hget j (by omega) hj
            simp only [List.get_eq_getElem] at hdecl
            rw [Option.some.inj g3] at hdecl
            have hbel : (typeDecls r)[j]'(by omega) ∈ below r := typeDecls_below (List.getElem_mem _)
            unfold parseDecl at hdecl
            split at hdecl
            · rw [Option.map_eq_some_iff] at hdecl
              obtain ⟨c, hc, rfl⟩ := hdecl
              exact tells_known g4 (fun c' e => by cases e; exact ripe_complex (fun _ => id) (h.each r hr) hbel hc) (fun s e => by cases e)
            · rw [Option.map_eq_some_iff] at hdecl
              obtain ⟨c, hc, rfl⟩ := hdecl
              exact tells_known g4 (fun c' e => by cases e) (fun s e => by cases e; exact ripe_simple (fun _ => id) (h.each r hr) hbel hc)
          · have : j = os.length := by omega
            subst this
            rw [List.getElem?_append_right (by omega), Nat.sub_self] at g3
            cases g3
            exact tells_known g4 (fun c' e => by cases e; exact ripe_self (fun _ => id) (h.each r hr) (h.clear r hr) (fun _ => .inl) ho2) (fun s e => by cases e)
        · have hx := h.each r hr el (child_below hel)
          exact hx.sound.type (.inl hne) (hx.typed (.inr hne))
    unfold parse at herr ⊢
    rw [hn] at herr ⊢
    dsimp only at herr ⊢
    cases hq : parseSchemas env ord roots with
    | ok q => exact ⟨q, rfl⟩
    | error => rw [hq] at herr; exact absurd rfl herr
    | panic => exact absurd hq hpanic

end GoXml.Xsd
