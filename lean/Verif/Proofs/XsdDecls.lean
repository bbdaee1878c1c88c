import Verif.Spec.XsdDecls
import Verif.Proofs.XsdParse
import Verif.Props.XsdBuiltin
set_option autoImplicit false

/-! Helper lemmas for C81 to C86. -/

namespace GoXml.Xsd
open Wsdl (attrNamed allNamed denoted refersTo searchEl)

theorem parseType_named (n : XName) : Named n (parseType n) := by
  unfold Named parseType
  cases h : parseBuiltin n with
  | some b =>
    obtain ⟨h0, h1, h2⟩ := (C26_parse_only n b).mp h
    exact Or.inl ⟨b, h0, h1, h2, rfl⟩
  | none =>
    refine Or.inr ⟨fun b h0 h1 h2 => ?_, rfl⟩
    rw [(C26_parse_only n b).mpr ⟨h0, h1, h2⟩] at h
    cases h

theorem named_unique {n : XName} {t u : Ty} (h1 : Named n t) (h2 : Named n u) : t = u := by
  rcases h1 with ⟨b, h0, h1, hb, rfl⟩ | ⟨hn, rfl⟩
  · rcases h2 with ⟨c, h0', h1', hc, rfl⟩ | ⟨hn', rfl⟩
    · rw [C26_names_distinct b c ⟨h0, h1⟩ ⟨h0', h1'⟩ (hb.trans hc.symm)]
    · exact absurd hb (hn' b h0 h1)
  · rcases h2 with ⟨c, h0', h1', hc, rfl⟩ | ⟨hn', rfl⟩
    · exact absurd hc (hn c h0' h1')
    · rfl

/-- What a walk does to part of its state. -/
theorem walkFold_proj {σ τ : Type} (f : σ → Element → Option σ) (p : σ → τ) (g : τ → Element → τ)
    (hf : ∀ s e s', e.name.space = schemaNS → f s e = some s' → p s' = g (p s) e) (es : List Element) : ∀ s r,
      walkFold f s es = some r → p r = (es.filter fun c => decide (c.name.space = w3cSchemaNS)).foldl g (p s) := by
  induction es with
  | nil => intro s r h; cases h; rfl
  | cons e es ih =>
    intro s r h
    rw [walkFold] at h
    split at h
    · rename_i hns
      rw [List.filter_cons, if_neg (by simp [← schemaNS_eq, hns])]
      exact ih s r h
    · rename_i hns
      have hns : e.name.space = schemaNS := by simpa using hns
      split at h
      · cases h
      · rename_i s' hs'
        rw [List.filter_cons, if_pos (by simp [← schemaNS_eq, hns]), List.foldl_cons, ih s' r h, hf s e s' hns hs']

/-- A walk succeeded, so its body succeeded on every element. -/
theorem walkFold_each {σ : Type} (f : σ → Element → Option σ) (es : List Element) : ∀ s r,
    walkFold f s es = some r → ∀ e ∈ es, e.name.space = schemaNS → ∃ s1 s2, f s1 e = some s2 := by
  induction es with
  | nil => intro s r _ e he; cases he
  | cons a es ih =>
    intro s r h e he hns
    rw [walkFold] at h
    split at h
    · rename_i hna
      rcases List.mem_cons.mp he with rfl | he
      · exact absurd hns hna
      · exact ih s r h e he hns
    · split at h
      · cases h
      · rename_i s' hs'
        rcases List.mem_cons.mp he with rfl | he
        · exact ⟨s, s', hs'⟩
        · exact ih s' r h e he hns

theorem walkFold_keeps {σ : Type} (f : σ → Element → Option σ) (P : σ → Prop)
    (hf : ∀ s e s', P s → f s e = some s' → P s') (es : List Element) : ∀ s r, P s → walkFold f s es = some r → P r := by
  induction es with
  | nil => intro s r h0 h; cases h; exact h0
  | cons e es ih =>
    intro s r h0 h
    rw [walkFold] at h
    split at h
    · exact ih s r h0 h
    · split at h
      · cases h
      · rename_i s' hs'
        exact ih s' r (hf s e s' h0 hs') h

/-- Only the elements with certain names matter. -/
theorem foldl_kids {τ : Type} (ks : List Str) (v : τ → Element → τ) (es : List Element) : ∀ t : τ,
    (es.filter fun c => decide (c.name.space = w3cSchemaNS)).foldl (fun t e => if e.name.loc ∈ ks then v t e else t) t =
      (es.filter fun c => decide (c.name.space = w3cSchemaNS ∧ c.name.loc ∈ ks)).foldl v t := by
  induction es with
  | nil => intro t; simp
  | cons e es ih =>
    intro t
    by_cases h1 : e.name.space = w3cSchemaNS
    · rw [List.filter_cons, if_pos (by simpa using h1), List.foldl_cons, ih]
      by_cases h2 : e.name.loc ∈ ks
      · rw [if_pos h2, List.filter_cons, if_pos (by simp [h1, h2]), List.foldl_cons]
      · rw [if_neg h2, List.filter_cons, if_neg (by simp [h2])]
    · rw [List.filter_cons, if_neg (by simpa using h1), List.filter_cons, if_neg (by simp [h1]), ih]

/-- Collecting from the elements with certain names. -/
theorem foldl_collect {α : Type} (ks : List Str) (v : Element → List α) (es : List Element) : ∀ t : List α,
    (es.filter fun c => decide (c.name.space = w3cSchemaNS)).foldl (fun t e => if e.name.loc ∈ ks then t ++ v e else t) t =
      t ++ (es.filter fun c => decide (c.name.space = w3cSchemaNS ∧ c.name.loc ∈ ks)).flatMap v := by
  induction es with
  | nil => intro t; simp
  | cons e es ih =>
    intro t
    by_cases h1 : e.name.space = w3cSchemaNS
    · rw [List.filter_cons, if_pos (by simpa using h1), List.foldl_cons, ih]
      by_cases h2 : e.name.loc ∈ ks
      · rw [if_pos h2, List.filter_cons, if_pos (by simp [h1, h2]), List.flatMap_cons, List.append_assoc]
      · rw [if_neg h2, List.filter_cons, if_neg (by simp [h2])]
    · rw [List.filter_cons, if_neg (by simpa using h1), List.filter_cons, if_neg (by simp [h1]), ih]

/-- Overwriting by the elements with certain names. -/
theorem foldl_last {τ : Type} (ks : List Str) (v : Element → τ) (es : List Element) : ∀ t : τ,
    (es.filter fun c => decide (c.name.space = w3cSchemaNS)).foldl (fun t e => if e.name.loc ∈ ks then v e else t) t =
      ((es.filter fun c => decide (c.name.space = w3cSchemaNS ∧ c.name.loc ∈ ks)).getLast?.map v).getD t := by
  induction es with
  | nil => intro t; simp
  | cons e es ih =>
    intro t
    by_cases h1 : e.name.space = w3cSchemaNS
    · rw [List.filter_cons, if_pos (by simpa using h1), List.foldl_cons, ih]
      by_cases h2 : e.name.loc ∈ ks
      · rw [if_pos h2, List.filter_cons, if_pos (by simp [h1, h2]), List.getLast?_cons]
        cases (es.filter fun c => decide (c.name.space = w3cSchemaNS ∧ c.name.loc ∈ ks)).getLast? <;> rfl
      · rw [if_neg h2, List.filter_cons, if_neg (by simp [h2])]
    · rw [List.filter_cons, if_neg (by simpa using h1), List.filter_cons, if_neg (by simp [h1]), ih]

/-! ### Bounds -/

theorem parseDecimal_some {env : ParseEnv} {v d : Str} (h : parseDecimal env v = some d) : Gen.TrimmedTo v d := by
  have ht := Gen.trimSpace_spec v
  unfold parseDecimal at h
  split at h
  · rename_i he
    cases h
    rw [he] at ht
    exact ht
  · split at h
    · cases h; exact ht
    · cases h

theorem parseDecimal_none (env : ParseEnv) (v : Str) :
    parseDecimal env v = none ↔ ¬ ∃ t, Gen.TrimmedTo v t ∧ (t = [] ∨ env.isFloat t = true) := by
  have ht := Gen.trimSpace_spec v
  unfold parseDecimal
  constructor
  · intro h
    rintro ⟨t, h1, h2⟩
    obtain rfl := Gen.trimmedTo_unique ht h1
    rcases h2 with h2 | h2
    · rw [if_pos h2] at h; cases h
    · rw [if_pos h2] at h
      split at h <;> cases h
  · intro h
    rw [if_neg fun he => h ⟨_, ht, Or.inl he⟩, if_neg fun he => h ⟨_, ht, Or.inr he⟩]

theorem parseMinMax_none (env : ParseEnv) (base : Ty) (e : Element) :
    parseMinMax env base e = none ↔ ¬ GoodBound env base (attrNamed e b!"value") := by
  unfold parseMinMax GoodBound
  rw [Wsdl.attr_eq]
  dsimp only
  cases base with
  | builtin b =>
    by_cases h16 : b = 16
    · simp only [h16, if_true]
      cases env.isDate (attrNamed e b!"value") <;> simp
    · by_cases h17 : b = 17
      · simp only [h16, h17, if_true, if_false]
        cases env.isDateTime (attrNamed e b!"value") <;> simp
      · simp only [h16, h17, if_false, Option.map_eq_none_iff]
        exact parseDecimal_none env _
  | link n =>
    cases h1 : env.isDate (attrNamed e b!"value") with
    | true => simp
    | false =>
      cases h2 : env.isDateTime (attrNamed e b!"value") with
      | true => simp
      | false =>
        simp only [Bool.false_eq_true, if_false, false_or, Option.map_eq_none_iff]
        exact parseDecimal_none env _
  | obj id =>
    simp only [Option.map_eq_none_iff]
    exact parseDecimal_none env _

/-- What a bound gives, except for the time of an unknown type. -/
theorem parseMinMax_some {env : ParseEnv} {base : Ty} {e : Element} {d : Str × Str} (h : parseMinMax env base e = some d)
    (hl : ∀ n, base = .link n → env.isDate (attrNamed e b!"value") = true ∨ env.isDateTime (attrNamed e b!"value") = false) :
    (AsDate env base (attrNamed e b!"value") → d.1 = attrNamed e b!"value" ∧ d.2 = []) ∧
    (¬ AsDate env base (attrNamed e b!"value") → d.1 = [] ∧ Gen.TrimmedTo (attrNamed e b!"value") d.2) := by
  unfold parseMinMax at h
  rw [Wsdl.attr_eq] at h
  dsimp only at h
  unfold AsDate
  cases base with
  | builtin b =>
    dsimp only at h ⊢
    by_cases h16 : b = 16
    · rw [if_pos h16] at h
      by_cases h1 : env.isDate (attrNamed e b!"value") = true
      · rw [if_pos h1] at h; cases h; simp [h16]
      · rw [if_neg h1] at h; cases h
    · rw [if_neg h16] at h
      by_cases h17 : b = 17
      · rw [if_pos h17] at h
        by_cases h1 : env.isDateTime (attrNamed e b!"value") = true
        · rw [if_pos h1] at h; cases h; simp [h17]
        · rw [if_neg h1] at h; cases h
      · rw [if_neg h17, Option.map_eq_some_iff] at h
        obtain ⟨n, hn, rfl⟩ := h
        simp [h16, h17, parseDecimal_some hn]
  | link n =>
    rcases hl n rfl with h1 | h2
    · simp only [h1, if_true] at h
      cases h
      simp [h1]
    · cases h1 : env.isDate (attrNamed e b!"value") with
      | true =>
        simp only [h1, if_true] at h
        cases h
        simp
      | false =>
        simp only [h1, h2, Bool.false_eq_true, if_false, Option.map_eq_some_iff] at h
        obtain ⟨m, hm, rfl⟩ := h
        simp [h2, parseDecimal_some hm]
  | obj id =>
    simp only [Option.map_eq_some_iff] at h
    obtain ⟨m, hm, rfl⟩ := h
    simp [parseDecimal_some hm]

/-! ### Words -/

theorem words_space {a s : Str} {ws : List Str} (ha : ∀ c ∈ a, isSpace c = true) (h : Words s ws) : Words (a ++ s) ws := by
  cases h with
  | none hs => exact .none fun c hc => (List.mem_append.mp hc).elim (ha c) (hs c)
  | @one b w s ws hb h1 h2 h3 h4 =>
    rw [show a ++ (b ++ w ++ s) = (a ++ b) ++ w ++ s by simp]
    exact .one (fun c hc => (List.mem_append.mp hc).elim (ha c) (hb c)) h1 h2 h3 h4

theorem fieldsLoop_words : ∀ (s cur : Str), (∀ c ∈ cur, isSpace c = false) →
    Words (cur.reverse ++ s) (fieldsLoop cur s) := by
  intro s
  induction s with
  | nil =>
    intro cur hc
    rw [fieldsLoop]
    split
    · rename_i h; subst h; exact .none (by simp)
    · rename_i h
      have := Words.one (a := []) (w := cur.reverse) (s := []) (ws := []) (by simp) (by simpa using h) (by simpa using hc) (by simp) (.none (by simp))
      simpa using this
  | cons c s ih =>
    intro cur hc
    rw [fieldsLoop]
    split
    · rename_i hsp
      have hrest : Words (c :: s) (fieldsLoop [] s) := by
        have := words_space (a := [c]) (by simpa using hsp) (ih [] (by simp))
        simpa using this
      split
      · rename_i h; subst h; simpa using hrest
      · rename_i h
        have := Words.one (a := []) (w := cur.reverse) (s := c :: s) (by simp) (by simpa using h) (by simpa using hc) (by simpa using hsp) hrest
        simpa using this
    · rename_i hsp
      have := ih (c :: cur) (by simpa using ⟨by simpa using hsp, hc⟩)
      simpa using this

theorem fields_words (s : Str) : Words s (fields s) := fieldsLoop_words s [] (by simp)

/-! ### Facets -/

theorem restriction_proj {τ : Type} (env : ParseEnv) (base : Ty) (root : Element) (r : Restriction) (p : Restriction → τ)
    (g : τ → Element → τ) (hd : ∀ r d, p { r with doc := d } = p r)
    (hf : ∀ s e s', restrictionStep env base s e = some s' → p s'.1 = g (p s.1) e)
    (h : parseSimpleRestriction env base root = some r) :
    p r = (root.children.filter fun c => decide (c.name.space = w3cSchemaNS)).foldl g (p {}) := by
  unfold parseSimpleRestriction at h
  rw [Option.map_eq_some_iff] at h
  obtain ⟨s, h, rfl⟩ := h
  rw [hd]
  exact walkFold_proj _ (fun s : Restriction × Str => p s.1) g (fun s e s' _ hs => hf s e s' hs) _ _ _ h

theorem number_facet (env : ParseEnv) (base : Ty) (root : Element) (r : Restriction) (k : Str) (p : Restriction → Int)
    (hd : ∀ r d, p { r with doc := d } = p r) (h0 : p {} = 0)
    (hf : ∀ s e s', restrictionStep env base s e = some s' →
      p s'.1 = if e.name.loc ∈ [k] then (parseInt (attrNamed e b!"value")).getD 0 else p s.1)
    (hk : ∀ s e s', e.name.loc = k → restrictionStep env base s e = some s' → ∃ n, parseInt (attrNamed e b!"value") = some n)
    (h : parseSimpleRestriction env base root = some r) : NumberFacet (facetValues root [k]) (p r) := by
  have hp := restriction_proj env base root r p (fun t e => if e.name.loc ∈ [k] then (parseInt (attrNamed e b!"value")).getD 0 else t) hd hf h
  rw [foldl_last [k] (fun e => (parseInt (attrNamed e b!"value")).getD 0)] at hp
  unfold NumberFacet facetValues
  rw [List.getLast?_map]
  unfold kidsNamed
  cases hl : (root.children.filter fun c => decide (c.name.space = w3cSchemaNS ∧ c.name.loc ∈ [k])).getLast? with
  | none => rw [hl] at hp; simpa [h0] using hp
  | some c =>
    rw [hl] at hp
    have hm := List.mem_of_getLast? hl
    rw [List.mem_filter] at hm
    unfold parseSimpleRestriction at h
    rw [Option.map_eq_some_iff] at h
    obtain ⟨s, h, _⟩ := h
    have hn : c.name.space = w3cSchemaNS ∧ c.name.loc = k := by simpa using hm.2
    obtain ⟨s1, s2, hs⟩ := walkFold_each _ _ _ _ h c hm.1 hn.1
    obtain ⟨n, hn⟩ := hk _ _ _ hn.2 hs
    simp only [Option.map_some, Option.getD_some, hn] at hp
    simp only [Option.map_some]
    rw [hp]
    exact (parseInt_iff _ _).mp hn

/-- The facets that matter, and annotations. -/
def facetNames : List Str :=
  [b!"enumeration", b!"minExclusive", b!"minInclusive", b!"maxExclusive", b!"maxInclusive", b!"length", b!"maxLength", b!"minLength",
   b!"pattern", b!"fractionDigits", b!"annotation", b!"totalDigits"]

theorem step_cases {env : ParseEnv} {base : Ty} {s s' : Restriction × Str} {e : Element} (h : restrictionStep env base s e = some s') :
    (e.name.loc = b!"enumeration" ∧ s' = ({ s.1 with enum := s.1.enum ++ [attrNamed e b!"value"] }, s.2)) ∨
    ((e.name.loc = b!"minExclusive" ∨ e.name.loc = b!"minInclusive") ∧
      ∃ d, parseMinMax env base e = some d ∧ s' = ({ s.1 with minDate := d.1, min := d.2 }, s.2)) ∨
    ((e.name.loc = b!"maxExclusive" ∨ e.name.loc = b!"maxInclusive") ∧
      ∃ d, parseMinMax env base e = some d ∧ s' = ({ s.1 with maxDate := d.1, max := d.2 }, s.2)) ∨
    (e.name.loc = b!"length" ∧ ∃ n, parseInt (attrNamed e b!"value") = some n ∧ s' = ({ s.1 with length := n }, s.2)) ∨
    (e.name.loc = b!"maxLength" ∧ ∃ n, parseInt (attrNamed e b!"value") = some n ∧ s' = ({ s.1 with maxLength := n }, s.2)) ∨
    (e.name.loc = b!"minLength" ∧ ∃ n, parseInt (attrNamed e b!"value") = some n ∧ s' = ({ s.1 with minLength := n }, s.2)) ∨
    (e.name.loc = b!"pattern" ∧
      s' = ({ s.1 with pattern := (parsePatternFacet env s.1.pattern s.2 (attrNamed e b!"value")).1 },
        (parsePatternFacet env s.1.pattern s.2 (attrNamed e b!"value")).2)) ∨
    (e.name.loc = b!"fractionDigits" ∧ ∃ n, parseInt (attrNamed e b!"value") = some n ∧ 0 ≤ n ∧ s' = ({ s.1 with precision := n }, s.2)) ∨
    (e.name.loc = b!"annotation" ∧ ∃ d, env.annotation e = some d ∧ s' = (s.1, docAppend s.2 d)) ∨
    (e.name.loc = b!"totalDigits" ∧ ∃ n, parseInt (attrNamed e b!"value") = some n ∧ s' = ({ s.1 with totalDigits := n }, s.2)) ∨
    (e.name.loc ∉ facetNames ∧ s' = s) := by
  unfold restrictionStep at h
  dsimp only at h
  rw [Wsdl.attr_eq] at h
  by_cases k1 : e.name.loc = b!"enumeration"
  · rw [if_pos k1] at h; cases h; exact Or.inl ⟨k1, rfl⟩
  rw [if_neg k1] at h
  refine Or.inr ?_
  by_cases k2 : e.name.loc = b!"minExclusive" ∨ e.name.loc = b!"minInclusive"
  · rw [if_pos k2] at h
    rw [Option.map_eq_some_iff] at h; obtain ⟨x, hx, rfl⟩ := h; exact Or.inl ⟨k2, x, hx, rfl⟩
  rw [if_neg k2] at h
  refine Or.inr ?_
  by_cases k3 : e.name.loc = b!"maxExclusive" ∨ e.name.loc = b!"maxInclusive"
  · rw [if_pos k3] at h
    rw [Option.map_eq_some_iff] at h; obtain ⟨x, hx, rfl⟩ := h; exact Or.inl ⟨k3, x, hx, rfl⟩
  rw [if_neg k3] at h
  refine Or.inr ?_
  by_cases k4 : e.name.loc = b!"length"
  · rw [if_pos k4] at h
    rw [Option.map_eq_some_iff] at h; obtain ⟨x, hx, rfl⟩ := h; exact Or.inl ⟨k4, x, hx, rfl⟩
  rw [if_neg k4] at h
  refine Or.inr ?_
  by_cases k5 : e.name.loc = b!"maxLength"
  · rw [if_pos k5] at h
    rw [Option.map_eq_some_iff] at h; obtain ⟨x, hx, rfl⟩ := h; exact Or.inl ⟨k5, x, hx, rfl⟩
  rw [if_neg k5] at h
  refine Or.inr ?_
  by_cases k6 : e.name.loc = b!"minLength"
  · rw [if_pos k6] at h
    rw [Option.map_eq_some_iff] at h; obtain ⟨x, hx, rfl⟩ := h; exact Or.inl ⟨k6, x, hx, rfl⟩
  rw [if_neg k6] at h
  refine Or.inr ?_
  by_cases k7 : e.name.loc = b!"pattern"
  · rw [if_pos k7] at h
    cases h; exact Or.inl ⟨k7, rfl⟩
  rw [if_neg k7] at h
  refine Or.inr ?_
  by_cases k8 : e.name.loc = b!"fractionDigits"
  · rw [if_pos k8] at h
    cases hn : parseInt (attrNamed e b!"value") with
    | none => rw [hn] at h; cases h
    | some n =>
      rw [hn] at h
      dsimp only at h
      by_cases h0 : n < 0
      · rw [if_pos h0] at h; cases h
      · rw [if_neg h0] at h; cases h; exact Or.inl ⟨k8, n, rfl, by omega, rfl⟩
  rw [if_neg k8] at h
  refine Or.inr ?_
  by_cases k9 : e.name.loc = b!"annotation"
  · rw [if_pos k9] at h
    rw [Option.map_eq_some_iff] at h; obtain ⟨x, hx, rfl⟩ := h; exact Or.inl ⟨k9, x, hx, rfl⟩
  rw [if_neg k9] at h
  refine Or.inr ?_
  by_cases k10 : e.name.loc = b!"totalDigits"
  · rw [if_pos k10] at h
    rw [Option.map_eq_some_iff] at h; obtain ⟨x, hx, rfl⟩ := h; exact Or.inl ⟨k10, x, hx, rfl⟩
  rw [if_neg k10] at h
  refine Or.inr ?_
  cases h
  refine ⟨?_, rfl⟩
  unfold facetNames
  simp only [List.mem_cons, List.not_mem_nil, or_false]
  tauto

/-- Goes through the facets that an element can be. -/
macro "facets" : tactic => `(tactic| (
  intro s e s' h
  rcases step_cases h with ⟨hk, hs⟩ | ⟨hk | hk, d, hd, hs⟩ | ⟨hk | hk, d, hd, hs⟩ | ⟨hk, n, hn, hs⟩ | ⟨hk, n, hn, hs⟩ |
    ⟨hk, n, hn, hs⟩ | ⟨hk, hs⟩ | ⟨hk, n, hn, _, hs⟩ | ⟨hk, d, hd, hs⟩ | ⟨hk, n, hn, hs⟩ | ⟨hk, hs⟩
  all_goals subst hs
  all_goals first
    | (rw [hk, if_neg (by decide)]; done)
    | (rw [hk, if_pos (by decide), hn]; rfl)
    | (rw [hk, if_pos (by decide)]; done)
    | (rw [if_neg]
       intro hm
       apply hk
       first
         | (rw [List.mem_singleton.mp hm]; decide)
         | (rcases List.mem_pair.mp hm with hm | hm <;> (rw [hm]; decide)))))

/-- Reads off what was parsed for a facet. -/
macro "facetInt" : tactic => `(tactic| (
  intro s e s' hloc h
  rcases step_cases h with ⟨hk, hs⟩ | ⟨hk | hk, d, hd, hs⟩ | ⟨hk | hk, d, hd, hs⟩ | ⟨hk, n, hn, hs⟩ | ⟨hk, n, hn, hs⟩ |
    ⟨hk, n, hn, hs⟩ | ⟨hk, hs⟩ | ⟨hk, n, hn, _, hs⟩ | ⟨hk, d, hd, hs⟩ | ⟨hk, n, hn, hs⟩ | ⟨hk, hs⟩
  all_goals subst hs
  all_goals first
    | exact ⟨_, hn⟩
    | (rw [hloc] at hk; exact absurd hk (by decide))))

theorem bound_facet (env : ParseEnv) (base : Ty) (root : Element) (r : Restriction) (k1 k2 : Str) (p : Restriction → Str × Str)
    (hd : ∀ r d, p { r with doc := d } = p r) (h0 : p {} = ([], []))
    (hf : ∀ s e s', restrictionStep env base s e = some s' →
      p s'.1 = if e.name.loc ∈ [k1, k2] then (parseMinMax env base e).getD ([], []) else p s.1)
    (hk : ∀ s e s', e.name.loc ∈ [k1, k2] → restrictionStep env base s e = some s' → ∃ d, parseMinMax env base e = some d)
    (hl : ∀ v ∈ facetValues root [k1, k2], ∀ n, base = .link n → env.isDate v = true ∨ env.isDateTime v = false)
    (h : parseSimpleRestriction env base root = some r) : Bound env base (facetValues root [k1, k2]) (p r).1 (p r).2 := by
  have hp := restriction_proj env base root r p
    (fun t e => if e.name.loc ∈ [k1, k2] then (parseMinMax env base e).getD ([], []) else t) hd hf h
  rw [foldl_last [k1, k2] (fun e => (parseMinMax env base e).getD ([], []))] at hp
  unfold Bound
  have hv : facetValues root [k1, k2] = (kidsNamed root [k1, k2]).map fun c => attrNamed c b!"value" := rfl
  rw [hv] at hl ⊢
  rw [List.getLast?_map]
  unfold kidsNamed at hl ⊢
  cases hg : (root.children.filter fun c => decide (c.name.space = w3cSchemaNS ∧ c.name.loc ∈ [k1, k2])).getLast? with
  | none =>
    rw [hg] at hp
    simp only [Option.map_none, Option.getD_none] at hp ⊢
    rw [hp, h0]
    exact ⟨rfl, rfl⟩
  | some c =>
    rw [hg] at hp
    have hm := List.mem_of_getLast? hg
    have hm' := List.mem_filter.mp hm
    unfold parseSimpleRestriction at h
    rw [Option.map_eq_some_iff] at h
    obtain ⟨s, h, _⟩ := h
    have hn : c.name.space = w3cSchemaNS ∧ c.name.loc ∈ [k1, k2] := by simpa using hm'.2
    obtain ⟨s1, s2, hs⟩ := walkFold_each _ _ _ _ h c hm'.1 hn.1
    obtain ⟨d, hn⟩ := hk _ _ _ hn.2 hs
    simp only [Option.map_some, Option.getD_some, hn] at hp
    simp only [Option.map_some]
    rw [hp]
    exact parseMinMax_some hn (hl _ (List.mem_map_of_mem hm))

theorem pattern_fst (env : ParseEnv) (old : Option Str) (d d' v : Str) :
    (parsePatternFacet env old d v).1 = (parsePatternFacet env old d' v).1 := by
  unfold parsePatternFacet
  dsimp only
  cases env.compileError _ <;> rfl

theorem step_none (env : ParseEnv) (base : Ty) (s : Restriction × Str) (e : Element) :
    restrictionStep env base s e = none ↔ BadFacet env base e := by
  unfold restrictionStep BadFacet
  dsimp only
  rw [Wsdl.attr_eq, ← parseInt_none]
  simp only [← parseMinMax_none, ← parseInt_iff]
  by_cases k1 : e.name.loc = b!"enumeration"
  · rw [if_pos k1]
    constructor
    · intro h; cases h
    · rintro (⟨h, _⟩ | ⟨h, _⟩ | ⟨h, _⟩ | ⟨h, _⟩) <;> (rw [k1] at h; exact absurd h (by decide))
  rw [if_neg k1]
  by_cases k2 : e.name.loc = b!"minExclusive" ∨ e.name.loc = b!"minInclusive"
  · rw [if_pos k2]
    rw [Option.map_eq_none_iff]
    constructor
    · intro h; exact Or.inr (Or.inr (Or.inl ⟨by rcases k2 with k | k <;> (rw [k]; decide), h⟩))
    · rintro (⟨h, _⟩ | ⟨h, _⟩ | ⟨_, h⟩ | ⟨h, _⟩)
      · rcases k2 with k | k <;> (rw [k] at h; exact absurd h (by decide))
      · rcases k2 with k | k <;> (rw [k] at h; exact absurd h (by decide))
      · exact h
      · rcases k2 with k | k <;> (rw [k] at h; exact absurd h (by decide))
  rw [if_neg k2]
  by_cases k3 : e.name.loc = b!"maxExclusive" ∨ e.name.loc = b!"maxInclusive"
  · rw [if_pos k3]
    rw [Option.map_eq_none_iff]
    constructor
    · intro h; exact Or.inr (Or.inr (Or.inl ⟨by rcases k3 with k | k <;> (rw [k]; decide), h⟩))
    · rintro (⟨h, _⟩ | ⟨h, _⟩ | ⟨_, h⟩ | ⟨h, _⟩)
      · rcases k3 with k | k <;> (rw [k] at h; exact absurd h (by decide))
      · rcases k3 with k | k <;> (rw [k] at h; exact absurd h (by decide))
      · exact h
      · rcases k3 with k | k <;> (rw [k] at h; exact absurd h (by decide))
  rw [if_neg k3]
  by_cases k4 : e.name.loc = b!"length"
  · rw [if_pos k4]
    rw [Option.map_eq_none_iff]
    constructor
    · intro h; exact Or.inl ⟨by rw [k4]; decide, h⟩
    · rintro (⟨_, h⟩ | ⟨h, _⟩ | ⟨h, _⟩ | ⟨h, _⟩)
      · exact h
      all_goals (rw [k4] at h; exact absurd h (by decide))
  rw [if_neg k4]
  by_cases k5 : e.name.loc = b!"maxLength"
  · rw [if_pos k5]
    rw [Option.map_eq_none_iff]
    constructor
    · intro h; exact Or.inl ⟨by rw [k5]; decide, h⟩
    · rintro (⟨_, h⟩ | ⟨h, _⟩ | ⟨h, _⟩ | ⟨h, _⟩)
      · exact h
      all_goals (rw [k5] at h; exact absurd h (by decide))
  rw [if_neg k5]
  by_cases k6 : e.name.loc = b!"minLength"
  · rw [if_pos k6]
    rw [Option.map_eq_none_iff]
    constructor
    · intro h; exact Or.inl ⟨by rw [k6]; decide, h⟩
    · rintro (⟨_, h⟩ | ⟨h, _⟩ | ⟨h, _⟩ | ⟨h, _⟩)
      · exact h
      all_goals (rw [k6] at h; exact absurd h (by decide))
  rw [if_neg k6]
  by_cases k7 : e.name.loc = b!"pattern"
  · rw [if_pos k7]
    constructor
    · intro h; cases h
    · rintro (⟨h, _⟩ | ⟨h, _⟩ | ⟨h, _⟩ | ⟨h, _⟩) <;> (rw [k7] at h; exact absurd h (by decide))
  rw [if_neg k7]
  by_cases k8 : e.name.loc = b!"fractionDigits"
  · rw [if_pos k8]
    constructor
    · intro h
      cases hn : parseInt (attrNamed e b!"value") with
      | none => exact Or.inl ⟨by rw [k8]; decide, rfl⟩
      | some n =>
        rw [hn] at h
        dsimp only at h
        by_cases h0 : n < 0
        · exact Or.inr (Or.inl ⟨k8, n, h0, rfl⟩)
        · rw [if_neg h0] at h; cases h
    · rintro (⟨_, h⟩ | ⟨_, n, h0, h⟩ | ⟨h, _⟩ | ⟨h, _⟩)
      · rw [h]
      · rw [h]; dsimp only; rw [if_pos h0]
      · rw [k8] at h; exact absurd h (by decide)
      · rw [k8] at h; exact absurd h (by decide)
  rw [if_neg k8]
  by_cases k9 : e.name.loc = b!"annotation"
  · rw [if_pos k9]
    rw [Option.map_eq_none_iff]
    constructor
    · intro h; exact Or.inr (Or.inr (Or.inr ⟨k9, h⟩))
    · rintro (⟨h, _⟩ | ⟨h, _⟩ | ⟨h, _⟩ | ⟨_, h⟩)
      · rw [k9] at h; exact absurd h (by decide)
      · rw [k9] at h; exact absurd h (by decide)
      · rw [k9] at h; exact absurd h (by decide)
      · exact h
  rw [if_neg k9]
  by_cases k10 : e.name.loc = b!"totalDigits"
  · rw [if_pos k10]
    rw [Option.map_eq_none_iff]
    constructor
    · intro h; exact Or.inl ⟨by rw [k10]; decide, h⟩
    · rintro (⟨_, h⟩ | ⟨h, _⟩ | ⟨h, _⟩ | ⟨h, _⟩)
      · exact h
      all_goals (rw [k10] at h; exact absurd h (by decide))
  rw [if_neg k10]
  constructor
  · intro h; cases h
  · simp only [List.mem_cons, List.not_mem_nil, or_false]
    tauto

/-! ### Simple types -/

theorem simple_cases {env : ParseEnv} {s s' : SimpleT × Str} {el : Element} (h : simpleStep env s el = some s') :
    (el.name.loc = b!"restriction" ∧ ∃ r, parseSimpleRestriction env (parseType (refersTo el b!"base")) el = some r ∧
      s' = ({ s.1 with base := some (parseType (refersTo el b!"base")), restriction := r }, s.2)) ∨
    (el.name.loc = b!"list" ∧ s' = ({ s.1 with base := some (parseType (refersTo el b!"itemType")), list := true }, s.2)) ∨
    (el.name.loc = b!"union" ∧
      s' = ({ s.1 with
        union := s.1.union ++ (fields (attrNamed el b!"memberTypes")).map fun n => parseType (denoted el.scope n)
        base := if ((fields (attrNamed el b!"memberTypes")).map fun n => parseType (denoted el.scope n)) = [] then s.1.base
          else some (.builtin AnySimpleType) }, s.2)) ∨
    (el.name.loc = b!"annotation" ∧ ∃ d, s' = (s.1, docAppend s.2 d)) ∨
    (el.name.loc ∉ [b!"restriction", b!"list", b!"union", b!"annotation"] ∧ s' = s) := by
  unfold simpleStep at h
  simp only [Wsdl.refersTo_eq, Wsdl.attr_eq, Wsdl.resolve_eq] at h
  by_cases k1 : el.name.loc = b!"restriction"
  · rw [if_pos k1, Option.map_eq_some_iff] at h
    obtain ⟨r, hr, rfl⟩ := h
    exact Or.inl ⟨k1, r, hr, rfl⟩
  rw [if_neg k1] at h
  refine Or.inr ?_
  by_cases k2 : el.name.loc = b!"list"
  · rw [if_pos k2] at h
    cases h
    exact Or.inl ⟨k2, rfl⟩
  rw [if_neg k2] at h
  refine Or.inr ?_
  by_cases k3 : el.name.loc = b!"union"
  · rw [if_pos k3] at h
    cases h
    exact Or.inl ⟨k3, rfl⟩
  rw [if_neg k3] at h
  refine Or.inr ?_
  by_cases k4 : el.name.loc = b!"annotation"
  · rw [if_pos k4, Option.map_eq_some_iff] at h
    obtain ⟨d, hd, rfl⟩ := h
    exact Or.inl ⟨k4, d, rfl⟩
  rw [if_neg k4] at h
  cases h
  refine Or.inr ⟨?_, rfl⟩
  simp only [List.mem_cons, List.not_mem_nil, or_false]
  tauto

theorem memberTypes_fields (u : Element) :
    MemberTypes u ((fields (attrNamed u b!"memberTypes")).map fun n => parseType (denoted u.scope n)) := by
  refine ⟨_, fields_words _, ?_⟩
  rw [List.forall₂_map_right_iff, List.forall₂_same]
  intro n _
  exact parseType_named _

end GoXml.Xsd
