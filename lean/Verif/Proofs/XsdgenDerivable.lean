import Verif.Spec.XsdgenDerivable
import Verif.Proofs.XsdLinked
import Verif.Proofs.XsdgenAccepted
import Verif.Props.XsdLinked
set_option autoImplicit false

/-! The types that `Parse` makes of schemas are derived like the schemas say. -/

namespace GoXml.Xsd
open Wsdl (attrNamed allNamed below defines refersTo denoted)

/-- Every type of the result is one that a schema defines, or that of a document. -/
theorem parse_source {env : ParseEnv} {ord : MapOrder} {roots : List Element} {ss : List Schema} {H : THeap} (ho : Orderly roots)
    (h : parseSchemas env ord roots = .ok (ss, H)) (id : Nat) (o : TObj) (hid : H[id]? = some o) :
    ∃ r ∈ roots, o.name ∈ typeNames r := by
  obtain ⟨p0, H0, parsed, h0, h1, rfl⟩ := parseSchemas_run h
  have hc : Cov roots p0 H0 := parseRoots_cov roots [] p0 [] H0 (fun r hr => ⟨hr, rfl, ho.types r hr, ho.unnamed r hr⟩) ho.targets
    ⟨by simp, by simp [GoMap.get_nil], by simp [GoMap.get_nil]⟩ h0
  obtain ⟨hp, _, hout, hin⟩ := parsed_roots roots parsed_nil h0
  have hsome : ∀ r ∈ roots, p0.get (target r) ≠ none := by
    intro r hr
    obtain ⟨_, _, _, s, _, _, hs, _⟩ := hin _ (List.mem_map.mpr ⟨r, hr, rfl⟩)
    rw [hs]; simp
  obtain ⟨done, hi, -, hdone⟩ := finishRoots_inv hp roots [] p0 H0 0 parsed H (fun r hr => ⟨hr, hsome r hr⟩) (inv_start hp roots) h1
  obtain ⟨o0, hid0, hev⟩ := hi.evo _ _ hid
  obtain ⟨k, s, hk, hs⟩ := hc.held id o0 hid0
  obtain ⟨r, hr, rfl, hn⟩ := hc.from_ k s hk
  exact ⟨r, hr, by rw [evolved_name hev]; exact hn _ _ hs⟩

/-- Every type of the result is made of a definition or of a document. -/
theorem parse_objects {env : ParseEnv} {ord : MapOrder} {roots : List Element} {ss : List Schema} {H : THeap} (ho : Orderly roots)
    (h : parseSchemas env ord roots = .ok (ss, H)) (id : Nat) (o : TObj) (hid : H[id]? = some o) :
    ∃ r ∈ roots, ∃ o0, Joined ss H o0 o ∧ ((∃ e ∈ typeDecls r, o.name = defines (target r) e ∧ parseDecl env (target r) e = some o0) ∨
      (o.name = selfName r ∧ ∃ self, parseComplexType env (target r) (selfTree r) = some self ∧ o0 = .complex self)) := by
  obtain ⟨r, hr, hn⟩ := parse_source ho h id o hid
  obtain ⟨s, hs, hm, -⟩ := parse_covers ho h id o hid
  obtain ⟨-, -, -, hone, -⟩ := parse_orderly ho h
  obtain ⟨s', hs', -, h1, id', self, o', g1, g2, g3, g4⟩ := parse_linked ho.targets ho.types ho.unnamed h r hr
  refine ⟨r, hr, ?_⟩
  rcases List.mem_append.mp hn with hn | hn
  · obtain ⟨e, he, hen⟩ := List.mem_map.mp hn
    obtain ⟨id1, o0, o1, k1, k2, k3, k4⟩ := h1 e he
    rw [hen] at k1
    have := hone s hs s' hs' _ _ _ hm (GoMap.get_some_mem k1)
    cases this
    rw [hid] at k2
    cases k2
    exact ⟨o0, k4, Or.inl ⟨e, he, hen.symm, k3⟩⟩
  · have hn := List.mem_singleton.mp hn
    rw [← hn] at g1
    have := hone s hs s' hs' _ _ _ hm (GoMap.get_some_mem g1)
    cases this
    rw [hid] at g2
    cases g2
    exact ⟨_, g4, Or.inr ⟨hn, self, g3, rfl⟩⟩

theorem named_parseType (n : XName) : Named n (parseType n) := by
  unfold parseType
  split
  · rename_i b hb
    obtain ⟨h1, h2, h3⟩ := (C26_parse_only n b).mp hb
    exact Or.inl ⟨b, h1, h2, h3, rfl⟩
  · rename_i hb
    refine Or.inr ⟨fun b h1 h2 h3 => ?_, rfl⟩
    have := (C26_parse_only n b).mpr ⟨h1, h2, h3⟩
    rw [hb] at this
    cases this

theorem denotes_name {ss : List Schema} {H : THeap} {n : XName} {t : Ty} (h : Denotes ss H n t) : xmlName H t = n := by
  rcases h with ⟨b, -, -, h, rfl⟩ | ⟨-, s, -, id, o, -, h1, h2, rfl⟩
  · exact h
  · simp only [xmlName, h1, h2]

/-- A type that a declaration mentions, as `P` has it. -/
def Uttered (P : XName → Prop) (t : Ty) : Prop := ∃ n, P n ∧ Named n t

theorem mentions_denotes {ss : List Schema} {H : THeap} {f : Ty → Ty} {o0 : TObj} (hf : ∀ t ∈ o0.tys, ∀ n, Named n t → Denotes ss H n (f t))
    {P : XName → Prop} {t : Ty} (ht : t ∈ o0.tys) (h : Uttered P t) : ∃ n, P n ∧ Denotes ss H n (f t) := by
  obtain ⟨n, h1, h2⟩ := h
  exact ⟨n, h1, hf t ht n h2⟩

theorem anySimple_named : Named ⟨w3cSchemaNS, b!"anySimpleType"⟩ (.builtin AnySimpleType) :=
  Or.inl ⟨AnySimpleType, by decide, by decide, by decide +kernel, rfl⟩

theorem anyType_named : Named ⟨w3cSchemaNS, b!"anyType"⟩ (.builtin AnyType) :=
  Or.inl ⟨AnyType, by decide, by decide, by decide +kernel, rfl⟩

/-- The base of a simple type. -/
theorem simpleType_base {B : Ty → Prop} {env : ParseEnv} {ns : Str} {t : SimpleT} {el : Element}
    (h1 : ∀ c ∈ el.children, (c.name = ⟨schemaNS, b!"restriction"⟩ → B (parseType (refersTo c b!"base"))) ∧
      (c.name = ⟨schemaNS, b!"list"⟩ → B (parseType (refersTo c b!"itemType"))) ∧ (c.name = ⟨schemaNS, b!"union"⟩ → B (.builtin AnySimpleType)))
    (h : parseSimpleType env ns el = some t) : ∀ b, t.base = some b → B b := by
  unfold parseSimpleType at h
  rw [Option.map_eq_some_iff] at h
  obtain ⟨r, h, rfl⟩ := h
  exact walkFold_inv_ns (fun s : SimpleT × Str => ∀ b, s.1.base = some b → B b) _ _ _ r (by
    intro s e s' he hns hs hf
    unfold simpleStep at hf
    split at hf
    · rename_i hl
      rw [Option.map_eq_some_iff] at hf
      obtain ⟨t1, h3, rfl⟩ := hf
      intro b hb
      cases hb
      rw [refers_eq]
      exact (h1 e he).1 (xname_of hns hl)
    · split at hf
      · rename_i hl
        cases hf
        intro b hb
        cases hb
        rw [refers_eq]
        exact (h1 e he).2.1 (xname_of hns hl)
      · split at hf
        · rename_i hl
          cases hf
          intro b hb
          simp only at hb
          split at hb
          · exact hs b hb
          · cases hb
            exact (h1 e he).2.2 (xname_of hns hl)
        · split at hf
          · rw [Option.map_eq_some_iff] at hf
            obtain ⟨t1, h3, rfl⟩ := hf
            exact hs
          · cases hf; exact hs) (by simp) h

/-- The types that a definition mentions. -/
theorem parseDecl_mentions {env : ParseEnv} {ns : Str} {r e : Element} {o : TObj} (he : e ∈ below r) (h : parseDecl env ns e = some o) :
    (∀ b, o.base = some b → Uttered (DerivesFrom e) b) ∧
    ∀ c, o = .complex c → (∀ x ∈ c.elements, Uttered (fun n => (∃ d ∈ below r, n = refersTo d b!"type") ∨ n = ⟨w3cSchemaNS, b!"anyType"⟩) x.type) ∧
      ∀ x ∈ c.attributes, Uttered (fun n => (∃ d ∈ below r, n = refersTo d b!"type") ∨ n = ⟨w3cSchemaNS, b!"anyType"⟩) x.type := by
  unfold parseDecl at h
  split at h
  · rw [Option.map_eq_some_iff] at h
    obtain ⟨c, h, rfl⟩ := h
    have := fine_complexType (P := Uttered (fun n => (∃ d ∈ below r, n = refersTo d b!"type") ∨ n = ⟨w3cSchemaNS, b!"anyType"⟩))
      (B := Uttered (DerivesFrom e)) ⟨_, Or.inr rfl, anyType_named⟩
      (fun d hd _ => ⟨_, Or.inl ⟨d, below_below _ _ _ he hd, rfl⟩, named_parseType _⟩)
      (fun c hc hn d hd hu => ⟨_, .content c d hc hn.symm hd hu, named_parseType _⟩) h
    refine ⟨this.base, ?_⟩
    rintro c' e1
    cases e1
    exact ⟨this.elements, this.attributes⟩
  · rw [Option.map_eq_some_iff] at h
    obtain ⟨c, h, rfl⟩ := h
    refine ⟨simpleType_base (B := Uttered (DerivesFrom e)) (fun c hc => ⟨fun hn => ⟨_, .restriction c hc hn, named_parseType _⟩,
      fun hn => ⟨_, .list c hc hn, named_parseType _⟩, fun hn => ⟨_, .union c hc hn, anySimple_named⟩⟩) h, ?_⟩
    rintro c' e1
    cases e1

/-- The types that the type of a document mentions. -/
theorem selfTree_mentions {env : ParseEnv} {ns : Str} {r : Element} {c : ComplexT} (h : parseComplexType env ns (selfTree r) = some c) :
    (∀ b, c.base = some b → Uttered (fun n => n.loc ≠ b!"_self") b) ∧
    (∀ x ∈ c.elements, Uttered (fun n => (∃ d ∈ below r, n = refersTo d b!"type") ∨ n = ⟨w3cSchemaNS, b!"anyType"⟩) x.type) ∧
    ∀ x ∈ c.attributes, Uttered (fun n => (∃ d ∈ below r, n = refersTo d b!"type") ∨ n = ⟨w3cSchemaNS, b!"anyType"⟩) x.type := by
  have := fine_complexType (P := Uttered (fun n => (∃ d ∈ below r, n = refersTo d b!"type") ∨ n = ⟨w3cSchemaNS, b!"anyType"⟩))
      (B := Uttered (fun n => n.loc ≠ b!"_self")) ⟨_, Or.inr rfl, anyType_named⟩ ?_ ?_ h
  · exact ⟨this.base, this.elements, this.attributes⟩
  · intro d hd hu
    refine ⟨_, Or.inl ⟨d, ?_, rfl⟩, named_parseType _⟩
    simp only [selfTree, Wsdl.below, Wsdl.belows, List.append_nil, List.mem_cons] at hd
    rcases hd with rfl | rfl | hd
    · exact absurd hu (by unfold UsesType; rintro (h | ⟨h | h, -⟩) <;> simp [Element.name] at h)
    · exact absurd hu (by unfold UsesType; rintro (h | ⟨h | h, -⟩) <;> simp [Element.name] at h)
    · rw [below_children]
      obtain ⟨t, ht, hd⟩ := mem_belows_iff.mp hd
      exact mem_belows_iff.mpr ⟨t, (List.mem_filter.mp ht).1, hd⟩
  · intro c hc _ d hd _
    simp only [selfTree, Element.children, List.mem_singleton] at hc
    subst hc
    simp only [Element.children, List.mem_singleton] at hd
    subst hd
    refine ⟨_, ?_, named_parseType _⟩
    intro e
    have h := denoted_ends (sc := r.scope) (q := prefixOf r.scope ⟨w3cSchemaNS, b!"anyType"⟩) (loc := b!"anyType") (by decide)
      (prefixLoop_ends r.scope.reverse [] (Or.inl rfl))
    have e' : (denoted r.scope (prefixOf r.scope ⟨w3cSchemaNS, b!"anyType"⟩)).loc = b!"_self" := e
    rw [e'] at h
    rcases h with h | h
    · cases h
    · exact absurd h (by decide)

theorem derives_below {r e : Element} (he : e ∈ below r) {n : XName} (h : DerivesFrom e n) :
    (∃ d ∈ below r, ∃ a ∈ [b!"base", b!"itemType"], n = refersTo d a) ∨ n = ⟨w3cSchemaNS, b!"anySimpleType"⟩ := by
  cases h with
  | content c d hc _ hd _ => exact Or.inl ⟨d, below_below _ _ _ he (mem_below_trans hc (mem_below_child hd)), _, by simp, rfl⟩
  | restriction c hc _ => exact Or.inl ⟨c, below_below _ _ _ he (mem_below_child hc), _, by simp, rfl⟩
  | list c hc _ => exact Or.inl ⟨c, below_below _ _ _ he (mem_below_child hc), _, by simp, rfl⟩
  | union => exact Or.inr rfl

/-- What a type of the result is derived from, and what its fields are. -/
theorem parse_derived {env : ParseEnv} {ord : MapOrder} {roots : List Element} {ss : List Schema} {H : THeap} (ho : Orderly roots)
    (hr : Regular roots) (hd : Grounded roots) (h : parseSchemas env ord roots = .ok (ss, H)) (id : Nat) (o : TObj) (hid : H[id]? = some o) :
    (∃ b, o.base = some b ∧ (xmlName H b).loc ≠ b!"_self" ∧ ∃ r ∈ roots,
      ((∃ e ∈ typeDecls r, o.name = defines (target r) e ∧ DerivesFrom e (xmlName H b) ∧
        ∀ s, o = .simple s → s.list = true → e ∈ allNamed r w3cSchemaNS b!"simpleType" ∧ ∃ c ∈ e.children, c.name = ⟨w3cSchemaNS, b!"list"⟩) ∨
        o.name = selfName r ∧ ∃ c, o = .complex c)) ∧
    ∀ c, o = .complex c → (∀ x ∈ c.elements, ∀ b, x.type = .builtin b → Xsdgen.InSchema b) ∧
      ∀ x ∈ c.attributes, ∀ b, x.type = .builtin b → Xsdgen.InSchema b := by
  obtain ⟨r, hrr, o0, ⟨f, m, rfl, hfb, hf⟩, ho0⟩ := parse_objects ho h id o hid
  -- the fields
  have field : ∀ t ∈ o0.tys, Uttered (fun n => (∃ d ∈ below r, n = refersTo d b!"type") ∨ n = ⟨w3cSchemaNS, b!"anyType"⟩) t →
      ∀ b, f t = .builtin b → Xsdgen.InSchema b := by
    intro t ht hs b hb
    obtain ⟨n, hn, hden⟩ := mentions_denotes hf ht hs
    rw [hb] at hden
    rcases hden with ⟨b', b1, b2, b3, e⟩ | ⟨-, s, -, j, o', -, -, -, e⟩
    · cases e
      refine ⟨b1, b2, ?_⟩
      have key : ∀ i : Fin 50, (builtinName (i.1 : Int)).space = schemaNS ∨ (builtinName (i.1 : Int)).space = b!"http://www.w3.org/2009/01/xml.xsd" := by
        decide +kernel
      obtain ⟨i, rfl⟩ := Int.eq_ofNat_of_zero_le b1
      rcases key ⟨i, by exact_mod_cast b2⟩ with hk | hk
      · exact hk
      · exfalso
        rcases hn with ⟨d, hd1, rfl⟩ | rfl
        · exact hd.typed r hrr d hd1 (by rw [← b3]; exact hk)
        · have := congrArg XName.space b3
          rw [hk] at this
          exact absurd this (by decide +kernel)
    · cases e
  have fields : ∀ c0, o0 = .complex c0 →
      (∀ x ∈ c0.elements, Uttered (fun n => (∃ d ∈ below r, n = refersTo d b!"type") ∨ n = ⟨w3cSchemaNS, b!"anyType"⟩) x.type) →
      (∀ x ∈ c0.attributes, Uttered (fun n => (∃ d ∈ below r, n = refersTo d b!"type") ∨ n = ⟨w3cSchemaNS, b!"anyType"⟩) x.type) →
      ∀ c, (o0.mapTy f).withMixed m = .complex c → (∀ x ∈ c.elements, ∀ b, x.type = .builtin b → Xsdgen.InSchema b) ∧
      ∀ x ∈ c.attributes, ∀ b, x.type = .builtin b → Xsdgen.InSchema b := by
    rintro c0 rfl he ha c e
    cases e
    constructor
    · intro x hx b hb
      obtain ⟨y, hy, rfl⟩ := List.mem_map.mp hx
      exact field y.type (by simp only [TObj.tys, List.mem_append, List.mem_map]; exact Or.inl (Or.inr ⟨y, hy, rfl⟩)) (he y hy) b hb
    · intro x hx b hb
      obtain ⟨y, hy, rfl⟩ := List.mem_map.mp hx
      exact field y.type (by simp only [TObj.tys, List.mem_append, List.mem_map]; exact Or.inr ⟨y, hy, rfl⟩) (ha y hy) b hb
  have base : ∀ b0, o0.base = some b0 → b0 ∈ o0.tys ∧ ((o0.mapTy f).withMixed m).base = some (f b0) := by
    intro b0 hb0
    cases o0 with
    | complex c => simp only [TObj.base] at hb0; exact ⟨by simp [TObj.tys, hb0], by simp [TObj.mapTy, TObj.withMixed, TObj.base, hb0]⟩
    | simple s => simp only [TObj.base] at hb0; exact ⟨by simp [TObj.tys, hb0], by simp [TObj.mapTy, TObj.withMixed, TObj.base, hb0]⟩
  rcases ho0 with ⟨e, he, hname, hp⟩ | ⟨hname, self, hp, rfl⟩
  · have hbel := typeDecls_below he
    obtain ⟨hbase, hfields⟩ := parseDecl_mentions hbel hp
    refine ⟨?_, ?_⟩
    · have hsome : ∃ b0, o0.base = some b0 := by
        rcases List.mem_append.mp he with hc | hs
        · have hn : e.name.loc = b!"complexType" := by
            have := (List.mem_filter.mp hc).2
            simp only [decide_eq_true_eq] at this
            rw [this]
          unfold parseDecl at hp
          rw [if_pos hn, Option.map_eq_some_iff] at hp
          obtain ⟨t, hp, rfl⟩ := hp
          obtain ⟨el, hm | hm⟩ := hd.shaped r hrr e hc
          · obtain ⟨cc, k1, k2, k3, k4⟩ := hm
            obtain ⟨-, -, -, -, ⟨b, hb, -⟩, -⟩ := C83_complex env _ e cc el t k1 k2 k3 k4 hp
            exact ⟨b, hb⟩
          · obtain ⟨-, -, -, -, -, ⟨b, hb, -⟩, -⟩ := C83_simple_partial env _ e el t hm hp
            exact ⟨b, hb⟩
        · have hn : e.name.loc = b!"simpleType" := by
            have := (List.mem_filter.mp hs).2
            simp only [decide_eq_true_eq] at this
            rw [this]
          unfold parseDecl at hp
          rw [if_neg (by rw [hn]; decide), Option.map_eq_some_iff] at hp
          obtain ⟨t, hp, rfl⟩ := hp
          exact Option.ne_none_iff_exists'.mp (simpleType_based (hr.based r hrr e hs) hp)
      obtain ⟨b0, hb0⟩ := hsome
      obtain ⟨hmem, hbo⟩ := base b0 hb0
      obtain ⟨n, hn, hden⟩ := mentions_denotes hf hmem (hbase b0 hb0)
      have hx := denotes_name hden
      refine ⟨f b0, hbo, ?_, r, hrr, Or.inl ⟨e, he, hname, ?_, ?_⟩⟩
      · rw [hx]
        rcases derives_below hbel hn with ⟨d, hd1, a, ha, rfl⟩ | rfl
        · exact hr.quiet r hrr d hd1 a (List.mem_cons_of_mem _ ha)
        · decide
      · exact hx ▸ hn
      · intro s hs hl
        cases o0 with
        | complex c => cases hs
        | simple s0 =>
          cases hs
          unfold parseDecl at hp
          split at hp
          · rw [Option.map_eq_some_iff] at hp
            obtain ⟨_, -, e1⟩ := hp
            cases e1
          · rename_i hn
            rw [Option.map_eq_some_iff] at hp
            obtain ⟨t, hp, e1⟩ := hp
            cases e1
            refine ⟨?_, ?_⟩
            · rcases List.mem_append.mp he with hc | hs
              · exact absurd (by rw [of_decide_eq_true (List.mem_filter.mp hc).2]) hn
              · exact hs
            · obtain ⟨-, -, hlist, -⟩ := C82_simple env _ e s0 hp
              obtain ⟨c, hc⟩ := List.exists_mem_of_ne_nil _ (hlist.mp hl)
              unfold kidsNamed at hc
              obtain ⟨hc1, hc2⟩ := List.mem_filter.mp hc
              refine ⟨c, hc1, ?_⟩
              simp only [List.mem_singleton, decide_eq_true_eq] at hc2
              exact xname_of hc2.1 hc2.2
    · intro c hc
      cases o0 with
      | simple s => cases hc
      | complex c0 => exact fields c0 rfl (hfields c0 rfl).1 (hfields c0 rfl).2 c hc
  · obtain ⟨hbase, he, ha⟩ := selfTree_mentions hp
    refine ⟨?_, fields self rfl he ha⟩
    obtain ⟨cc, k1, k2, k3, k4⟩ := selfTree_model r
    obtain ⟨-, -, -, -, ⟨b0, hb0, -⟩, -⟩ := C83_complex env _ _ cc _ self k1 k2 k3 k4 hp
    obtain ⟨hmem, hbo⟩ := base b0 hb0
    obtain ⟨n, hn, hden⟩ := mentions_denotes hf hmem (hbase b0 hb0)
    exact ⟨f b0, hbo, by rw [denotes_name hden]; exact hn, r, hrr, Or.inr ⟨hname, _, rfl⟩⟩

/-- Derivation in the result is derivation in the schemas. -/
theorem ancestor_comes {env : ParseEnv} {ord : MapOrder} {roots : List Element} {ss : List Schema} {H : THeap} (ho : Orderly roots)
    (hr : Regular roots) (hd : Grounded roots) (h : parseSchemas env ord roots = .ok (ss, H)) {t a : Ty} (hta : Xsdgen.Ancestor H t a) :
    (xmlName H t).loc ≠ b!"_self" → (xmlName H a).loc ≠ b!"_self" ∧ ComesFrom roots (xmlName H t) (xmlName H a) := by
  induction hta with
  | self t => exact fun ht => ⟨ht, .self _⟩
  | @base t b a hb hba ih =>
    intro ht
    cases t with
    | builtin i => cases hb
    | link n => cases hb
    | obj id =>
      cases hid : H[id]? with
      | none => simp only [baseOf, hid] at hb; cases hb
      | some o =>
        simp only [baseOf, hid] at hb
        obtain ⟨⟨b', hb', hq, r, hrr, hcase⟩, -⟩ := parse_derived ho hr hd h id o hid
        rw [hb] at hb'
        cases hb'
        obtain ⟨i1, i2⟩ := ih hq
        refine ⟨i1, ?_⟩
        have hx : xmlName H (.obj id) = o.name := by simp only [xmlName, hid]
        rw [hx] at ht ⊢
        rcases hcase with ⟨e, he, hn, hder, -⟩ | ⟨hn, -⟩
        · rw [hn]
          exact .step hrr he hder i2
        · exact absurd (by rw [hn]; rfl) ht

open Xsdgen in
/-- The types are coherent, and those of items are types that xsdgen makes lists of. -/
theorem parse_grounded {env : ParseEnv} {ord : MapOrder} {roots : List Element} {ss : List Schema} {H : THeap} (ho : Orderly roots)
    (hr : Regular roots) (hd : Grounded roots) (h : parseSchemas env ord roots = .ok (ss, H)) :
    Coherent H ∧ (∀ s ∈ ss, ∀ e ∈ s.types, Present H e.2) ∧ ((∀ r e, ¬ Unlisted roots r e) → Listed H) := by
  have hcoh := parse_coherent ho hr h (fun o ho' => by
      obtain ⟨id, hid⟩ := List.getElem?_of_mem ho'
      obtain ⟨⟨b, hb, -⟩, -⟩ := parse_derived ho hr hd h id o hid
      rw [hb]
      simp) (fun id c hid => (parse_derived ho hr hd h id _ hid).2 c rfl) (by
      intro id b hb hanc
      cases hid : H[id]? with
      | none => simp only [baseOf, hid] at hb; cases hb
      | some o =>
        simp only [baseOf, hid] at hb
        obtain ⟨⟨b', hb', hq, r, hrr, hcase⟩, -⟩ := parse_derived ho hr hd h id o hid
        rw [hb] at hb'
        cases hb'
        have hx : xmlName H (.obj id) = o.name := by simp only [xmlName, hid]
        obtain ⟨h1, h2⟩ := ancestor_comes ho hr hd h hanc hq
        rw [hx] at h1 h2
        rcases hcase with ⟨e, he, hn, hder, -⟩ | ⟨hn, -⟩
        · rw [hn] at h2
          exact hd.founded r hrr e he _ hder h2
        · exact h1 (by rw [hn]; rfl))
  refine ⟨hcoh.1, hcoh.2, ?_⟩
  intro hlisted id s b hid hl hanc hu
  obtain ⟨-, hsb, -⟩ := parse_regular ho hr h
  have hin : Xsdgen.InSchema b := hsb id b hanc
  obtain ⟨⟨b', hb', hq, r, hrr, hcase⟩, -⟩ := parse_derived ho hr hd h id _ hid
  rcases hcase with ⟨e, he, hn, hder, hlist⟩ | ⟨-, c, e1⟩
  · obtain ⟨hs, hc⟩ := hlist s rfl hl
    cases hanc with
    | base hb2 hanc =>
      simp only [baseOf, hid] at hb2
      rw [hb2] at hb'
      cases hb'
      obtain ⟨-, h2⟩ := ancestor_comes ho hr hd h hanc hq
      refine hlisted r e ⟨hrr, hs, hc, _, hu, .step hrr he hder ?_⟩
      have : builtinName b = ⟨w3cSchemaNS, (builtinName b).loc⟩ := xname_of hin.2.2 rfl
      rw [← this]
      exact h2
  · cases e1

open Xsdgen in
theorem parse_derivable {env : ParseEnv} {ord : MapOrder} {roots : List Element} {ss : List Schema} {H : THeap} (ho : Orderly roots)
    (hr : Regular roots) (hd : Derivable roots) (h : parseSchemas env ord roots = .ok (ss, H)) :
    Coherent H ∧ (∀ s ∈ ss, ∀ e ∈ s.types, Present H e.2) ∧ Listed H := by
  obtain ⟨h1, h2, h3⟩ := parse_grounded ho hr hd h
  exact ⟨h1, h2, h3 hd.listed⟩

end GoXml.Xsd
