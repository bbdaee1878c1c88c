import Verif.Proofs.XsdPipeline
import Verif.Proofs.XsdDecl
import Verif.Proofs.XsdgenQuiet
import Verif.Spec.XsdgenDocuments
set_option autoImplicit false

/-! Lemmas about the types that `Parse` makes of orderly schemas. -/

namespace GoXml.Xsd
open Wsdl (attrNamed allNamed defines refersTo)

/-- Before linking, every object stands under its name in one of the schemas, and nothing else does. -/
structure Cov (roots : List Element) (p0 : GoMap Str Schema) (H0 : THeap) : Prop where
  held : ∀ (id : Nat) o, H0[id]? = some o → ∃ k s, p0.get k = some s ∧ s.types.get o.name = some (.obj id)
  named : ∀ k s n t, p0.get k = some s → s.types.get n = some t → ∃ id o, t = .obj id ∧ H0[id]? = some o ∧ o.name = n
  from_ : ∀ k s, p0.get k = some s → ∃ r ∈ roots, target r = k ∧ ∀ n t, s.types.get n = some t → n ∈ typeNames r

theorem get_enter_nodup {ks : List XName} (hd : ks.Nodup) (n0 : Nat) (n : XName) (t : Ty) :
    (enter [] n0 ks).get n = some t ↔ ∃ i : Nat, ks[i]? = some n ∧ t = .obj (n0 + i) := by
  rw [get_enter]
  constructor
  · rintro ⟨i, h1, -, h3⟩
    exact ⟨i, h1, h3⟩
  · rintro ⟨i, h1, h3⟩
    refine ⟨i, h1, fun j hj h2 => ?_, h3⟩
    obtain ⟨hi, e1⟩ := List.getElem?_eq_some_iff.mp h1
    obtain ⟨hj', e2⟩ := List.getElem?_eq_some_iff.mp h2
    have := (List.Nodup.getElem_inj_iff hd).mp (e1.trans e2.symm)
    omega

/-- The objects of a schema. -/
theorem parseTypes_own {env : ParseEnv} {root : Element} {H H' : THeap} {s : Schema}
    (hself : target root = [] → Wsdl.denoted root.scope b!"_self" = selfName root)
    (h : parseTypes env root H = some (s, H')) :
    ∃ os : List TObj, H' = H ++ os ∧ os.map (·.name) = typeNames root ∧ s.types = enter [] H.length (typeNames root) := by
  obtain ⟨os, self, h1, h2, rfl, h4, h5⟩ := parseTypes_eq h
  have hf := (mapOpt_some_iff _ _ _).mp h1
  have hn : os.map (·.name) = (typeDecls root).map (defines (target root)) := by
    clear h1 h5 h
    generalize typeDecls root = ds at hf ⊢
    induction hf with
    | nil => rfl
    | cons hd _ ih => exact congr (congrArg List.cons (parseDecl_header hd).1) ih
  have hs : self.name = selfName root := by
    rw [(selfTree_header h2).1]
    split
    · rfl
    · rename_i hn'
      exact hself (not_not.mp hn')
  refine ⟨os ++ [.complex self], by simp, ?_, ?_⟩
  · rw [List.map_append, hn]
    simp [typeNames, TObj.name, hs]
  · rw [h5, hn]; rfl

theorem parseRoots_cov {env : ParseEnv} {roots : List Element} (rs : List Element) : ∀ (p0 p1 : GoMap Str Schema) (H0 H1 : THeap),
    (∀ r ∈ rs, r ∈ roots ∧ p0.get (target r) = none ∧ (typeNames r).Nodup ∧ (target r = [] → Wsdl.denoted r.scope b!"_self" = selfName r)) →
    (rs.map target).Nodup → Cov roots p0 H0 → parseRoots env p0 H0 rs = some (p1, H1) → Cov roots p1 H1 := by
  induction rs with
  | nil =>
    intro p0 p1 H0 H1 _ _ hc h
    simp only [parseRoots, Option.some.injEq, Prod.mk.injEq] at h
    obtain ⟨rfl, rfl⟩ := h
    exact hc
  | cons r rs ih =>
    intro p0 p1 H0 H1 hrs hd hc h
    rw [parseRoots] at h
    split at h
    · cases h
    rename_i s H h1
    rw [Wsdl.attr_eq] at h
    obtain ⟨hroot, hnone, hnd, hself⟩ := hrs r (by simp)
    rw [List.map_cons, List.nodup_cons] at hd
    obtain ⟨os, rfl, hn, ht⟩ := parseTypes_own hself h1
    refine ih _ _ _ _ ?_ hd.2 ?_ h
    · intro r' hr'
      obtain ⟨a, b, c⟩ := hrs r' (by simp [hr'])
      refine ⟨a, ?_, c⟩
      rw [GoMap.get_set, if_neg]
      · exact b
      · exact fun e => hd.1 (List.mem_map.mpr ⟨r', hr', e.symm⟩)
    · have hother : ∀ k s', p0.get k = some s' → target r ≠ k := by
        intro k s' hk e
        rw [← e, hnone] at hk
        cases hk
      refine ⟨?_, ?_, ?_⟩
      · intro id o ho
        by_cases hl : id < H0.length
        · rw [List.getElem?_append_left hl] at ho
          obtain ⟨k, s', hk, hs'⟩ := hc.held id o ho
          refine ⟨k, s', ?_, hs'⟩
          show (p0.set (target r) s).get k = _
          rw [GoMap.get_set, if_neg (hother k s' hk)]
          exact hk
        · rw [List.getElem?_append_right (by omega)] at ho
          refine ⟨target r, s, ?_, ?_⟩
          · show (p0.set (target r) s).get _ = _
            rw [GoMap.get_set, if_pos rfl]
          · rw [ht, get_enter_nodup hnd]
            refine ⟨id - H0.length, ?_, by congr 1; omega⟩
            rw [← hn, List.getElem?_map, ho]
            rfl
      · intro k s' n t hk hs'
        change (p0.set (target r) s).get k = _ at hk
        rw [GoMap.get_set] at hk
        split at hk
        · cases hk
          rw [ht, get_enter_nodup hnd] at hs'
          obtain ⟨i, hi, rfl⟩ := hs'
          rw [← hn, List.getElem?_map] at hi
          obtain ⟨o, ho, rfl⟩ := Option.map_eq_some_iff.mp hi
          refine ⟨_, o, rfl, ?_, rfl⟩
          rw [List.getElem?_append_right (by omega), Nat.add_sub_cancel_left]
          exact ho
        · obtain ⟨id, o, rfl, ho, rfl⟩ := hc.named k s' n t hk hs'
          exact ⟨id, o, rfl, by rw [List.getElem?_append_left (List.getElem?_eq_some_iff.mp ho).1]; exact ho, rfl⟩
      · intro k s' hk
        change (p0.set (target r) s).get k = _ at hk
        rw [GoMap.get_set] at hk
        split at hk
        · rename_i he
          cases hk
          refine ⟨r, hroot, he, ?_⟩
          intro n t hn'
          rw [ht, get_enter_nodup hnd] at hn'
          obtain ⟨i, hi, -⟩ := hn'
          exact List.mem_of_getElem? hi
        · exact hc.from_ k s' hk

/-! ### Names of elements -/

/-- Under names that are not those of documents there are no types of documents. -/
def NoDocs (H0 : THeap) (types : GoMap XName Ty) : Prop :=
  ∀ n t, types.get n = some t → n.loc ≠ b!"_self" → (xmlName H0 t).loc ≠ b!"_self"

theorem lookupType_noDocs {ord : MapOrder} {p0 : GoMap Str Schema} {H0 : THeap} (hp : Parsed p0 H0) {own : GoMap XName Ty} (hown : NoDocs H0 own)
    {n : XName} {t : Ty} (hn : n.loc ≠ b!"_self") (h : lookupType own (extOf ord p0 H0) n = some t) : (xmlName H0 t).loc ≠ b!"_self" := by
  unfold lookupType at h
  split at h
  · cases h; exact Xsdgen.builtinName_self _
  · split at h
    · rename_i t' ht'
      cases h
      rw [← (ext_good hp ht').1]
      exact hn
    · exact hown n t h hn

theorem addAliases_noDocs {ord : MapOrder} {p0 : GoMap Str Schema} {H0 : THeap} (hp : Parsed p0 H0) (tns : Str) (els : List Element)
    (hels : ∀ el ∈ els, el.name = ⟨w3cSchemaNS, b!"element"⟩ → (refersTo el b!"type").loc ≠ b!"_self") :
    ∀ (types types' : GoMap XName Ty), NoDocs H0 types → addAliases tns (extOf ord p0 H0) types els = some types' → NoDocs H0 types' := by
  induction els with
  | nil =>
    intro types types' hd h
    simp only [addAliases, Option.some.injEq] at h
    subst h
    exact hd
  | cons el els ih =>
    intro types types' hd h
    have ih := ih fun e he => hels e (by simp [he])
    simp only [addAliases] at h
    split at h
    · exact ih _ _ hd h
    · rename_i hname
      split at h
      · exact ih _ _ hd h
      · split at h
        · exact ih _ _ hd h
        · split at h
          · cases h
          · rename_i t ht
            refine ih _ _ ?_ h
            intro n t' hn hne
            rw [GoMap.get_set] at hn
            split at hn
            · cases hn
              refine lookupType_noDocs hp hd ?_ ht
              have := hels el (by simp) (not_not.mp hname)
              rw [Wsdl.attr_eq, Wsdl.resolve_eq]
              exact this
            · exact hd n t' hn hne

theorem finishRoots_noDocs {ord : MapOrder} {p0 : GoMap Str Schema} {H0 : THeap} (hp : Parsed p0 H0) (rs : List Element)
    (hrs : ∀ r ∈ rs, ∀ el ∈ r.children, el.name = ⟨w3cSchemaNS, b!"element"⟩ → (refersTo el b!"type").loc ≠ b!"_self") :
    ∀ (parsed : GoMap Str Schema) (H : THeap) (j : Nat) (parsed' : GoMap Str Schema) (H' : THeap),
    (∀ k s, parsed.get k = some s → NoDocs H0 s.types) → finishRoots ord (extOf ord p0 H0) parsed H j rs = .ok (parsed', H') →
    ∀ k s, parsed'.get k = some s → NoDocs H0 s.types := by
  induction rs with
  | nil =>
    intro parsed H j parsed' H' hd h
    simp only [finishRoots, Outcome.ok.injEq, Prod.mk.injEq] at h
    obtain ⟨rfl, rfl⟩ := h
    exact hd
  | cons r rs ih =>
    intro parsed H j parsed' H' hd h
    rw [finishRoots] at h
    split at h
    · cases h
    · split at h
      · cases h
      · rename_i types h2
        split at h
        · cases h
        · refine ih (fun r' hr' => hrs r' (by simp [hr'])) _ _ _ _ _ ?_ h
          intro k s hk
          rw [GoMap.get_set] at hk
          split at hk
          · cases hk
            refine addAliases_noDocs hp _ _ (hrs r (by simp)) _ _ ?_ h2
            cases hg : parsed.get (r.attr [] b!"targetNamespace") with
            | none => intro n t hn; cases hn
            | some s' => exact hd _ s' hg
          · exact hd k s hk

/-! ### What `Parse` answers -/

theorem parseSchemas_run {env : ParseEnv} {ord : MapOrder} {roots : List Element} {ss : List Schema} {H : THeap}
    (h : parseSchemas env ord roots = .ok (ss, H)) :
    ∃ p0 H0 parsed, parseRoots env [] [] roots = some (p0, H0) ∧ finishRoots ord (extOf ord p0 H0) p0 H0 0 roots = .ok (parsed, H) ∧
      ss = roots.map (fun r => (parsed.get (target r)).getD {}) ++ [builtinSchema] := by
  unfold parseSchemas at h
  split at h
  · cases h
  · rename_i p0 H0 h0
    split at h
    · cases h
    · cases h
    · rename_i parsed H' h1
      simp only [Wsdl.attr_eq] at h
      cases h
      exact ⟨p0, H0, parsed, h0, h1, rfl⟩

theorem builtinSchema_types {e : XName × Ty} (he : e ∈ builtinSchema.types) : ∃ b, e = (builtinName b, .builtin b) := by
  have key : ∀ x ∈ builtinSchemaTypes, x.1 = builtinName x.2 := by decide +kernel
  obtain ⟨x, hx, rfl⟩ := List.mem_map.mp he
  exact ⟨x.2, by rw [key x hx]⟩

theorem builtinSchema_once {k : XName} {t t' : Ty} (h : (k, t) ∈ builtinSchema.types) (h' : (k, t') ∈ builtinSchema.types) : t = t' := by
  have key : ∀ x ∈ builtinSchemaTypes, ∀ y ∈ builtinSchemaTypes, x.1 = y.1 → x.2 = y.2 := by decide +kernel
  obtain ⟨x, hx, e⟩ := List.mem_map.mp h
  obtain ⟨y, hy, e'⟩ := List.mem_map.mp h'
  cases e
  obtain ⟨e1, rfl⟩ := Prod.mk.inj e'
  rw [key x hx y hy e1.symm]

/-- The types that `Parse` makes of orderly schemas meet the conditions of the theorems about xsdgen. -/
theorem parse_orderly {env : ParseEnv} {ord : MapOrder} {roots : List Element} {ss : List Schema} {H : THeap} (ho : Orderly roots)
    (h : parseSchemas env ord roots = .ok (ss, H)) :
    Xsdgen.Resolved H ∧ Xsdgen.OwnNames H ∧ (∀ s ∈ ss, ∀ e ∈ s.types, ∀ m, e.2 ≠ .link m) ∧
    (∀ s ∈ ss, ∀ s' ∈ ss, ∀ k t t', (k, t) ∈ s.types → (k, t') ∈ s'.types → t = t') ∧ Xsdgen.Keyed ss H ∧ Xsdgen.DocsKeyed ss H := by
  obtain ⟨p0, H0, parsed, h0, h1, rfl⟩ := parseSchemas_run h
  have hc : Cov roots p0 H0 := parseRoots_cov roots [] p0 [] H0 (fun r hr => ⟨hr, rfl, ho.types r hr, ho.unnamed r hr⟩) ho.targets
    ⟨by simp, by simp [GoMap.get_nil], by simp [GoMap.get_nil]⟩ h0
  obtain ⟨hp, _, hout, hin⟩ := parsed_roots roots parsed_nil h0
  have hsome : ∀ r ∈ roots, p0.get (target r) ≠ none := by
    intro r hr
    obtain ⟨_, _, _, s, _, _, hs, _⟩ := hin _ (List.mem_map.mpr ⟨r, hr, rfl⟩)
    rw [hs]; simp
  obtain ⟨done, hi, -, hdone⟩ := finishRoots_inv hp roots [] p0 H0 0 parsed H (fun r hr => ⟨hr, hsome r hr⟩) (inv_start hp roots) h1
  have hnd := finishRoots_noDocs hp roots (fun r hr el hel hn => (ho.elements r hr el hel hn).2) p0 H0 0 parsed H (by
    intro k s hk n t hn hne
    obtain ⟨id, o, rfl, hid, rfl⟩ := hc.named k s n t hk hn
    simp only [xmlName, hid]
    exact hne) h1
  -- the names of objects
  have hname : ∀ (id : Nat) o, H0[id]? = some o → ∃ o', H[id]? = some o' ∧ o'.name = o.name := by
    intro id o hid
    have hlt : id < H.length := by rw [hi.len]; exact (List.getElem?_eq_some_iff.mp hid).1
    obtain ⟨o0, ho0, hev⟩ := hi.evo _ _ (List.getElem?_eq_getElem hlt)
    rw [hid] at ho0
    cases ho0
    exact ⟨_, List.getElem?_eq_getElem hlt, evolved_name hev⟩
  have hxml : ∀ t, xmlName H t = xmlName H0 t := by
    intro t
    cases t with
    | builtin b => rfl
    | link m => rfl
    | obj id =>
      simp only [xmlName]
      cases hid : H0[id]? with
      | none =>
        rw [List.getElem?_eq_none (by rw [hi.len]; exact List.getElem?_eq_none_iff.mp hid)]
      | some o =>
        obtain ⟨o', h1, h2⟩ := hname id o hid
        simp only [h1, h2]
  -- the schemas
  have hmem : ∀ s ∈ roots.map (fun r => (parsed.get (target r)).getD {}) ++ [builtinSchema],
      (∃ r ∈ roots, parsed.get (target r) = some s) ∨ s = builtinSchema := by
    intro s hs
    rcases List.mem_append.mp hs with hs | hs
    · obtain ⟨r, hr, rfl⟩ := List.mem_map.mp hs
      obtain ⟨s0, hs0⟩ := Option.ne_none_iff_exists'.mp (hsome r hr)
      obtain ⟨s1, hs1, -⟩ := hi.keys _ _ hs0
      exact Or.inl ⟨r, hr, by rw [hs1]; rfl⟩
    · exact Or.inr (List.mem_singleton.mp hs)
  have hback : ∀ r ∈ roots, ∀ s, parsed.get (target r) = some s → s ∈ roots.map (fun r => (parsed.get (target r)).getD {}) ++ [builtinSchema] := by
    intro r hr s hs
    refine List.mem_append_left _ (List.mem_map.mpr ⟨r, hr, ?_⟩)
    rw [hs]; rfl
  have hget : ∀ {r s}, parsed.get (target r) = some s → ∀ {e : XName × Ty}, e ∈ s.types → s.types.get e.1 = some e.2 := by
    intro r s hs e he
    exact GoMap.get_of_mem (hi.wf _ s hs) he
  -- where the names come from
  have hfrom : ∀ r ∈ roots, ∀ s, parsed.get (target r) = some s → ∀ e ∈ s.types,
      ((∃ s0, p0.get (target r) = some s0 ∧ s0.types.get e.1 = some e.2) ∧ e.1 ∈ typeNames r) ∨ Alias r e.1 := by
    intro r hr s hs e he
    have uniq : ∀ r' ∈ roots, target r' = target r → r' = r := fun r' hr' he => List.inj_on_of_nodup_map ho.targets hr' hr he
    rcases hi.names _ s hs _ _ (hget hs he) with ⟨s0, hs0, hn⟩ | ⟨r', hr', ht, ha⟩
    · obtain ⟨r', hr', ht, hall⟩ := hc.from_ _ s0 hs0
      cases uniq r' hr' ht
      exact Or.inl ⟨⟨s0, hs0, hn⟩, hall _ _ hn⟩
    · cases uniq r' hr' ht
      exact Or.inr ha
  have hspace : ∀ r ∈ roots, ∀ s, parsed.get (target r) = some s → ∀ e ∈ s.types, e.1.space = target r ∧ ∀ b, e.1 ≠ builtinName b := by
    intro r hr s hs e he
    have := (hfrom r hr s hs e he).imp_left (·.2)
    exact ⟨ho.spaces r hr _ this, ho.own r hr _ this⟩
  refine ⟨?_, ?_, ?_, ?_, ?_, ?_⟩
  · intro id c hid
    obtain ⟨o0, hid0, hev⟩ := hi.evo _ _ hid
    obtain ⟨k, s, hk, hs⟩ := hc.held id o0 hid0
    obtain ⟨r, hr, rfl, -⟩ := hc.from_ k s hk
    have hall := fun t ht => good_not_link hp (hi.done _ (hdone r hr) s hk _ _ hs _ hid t ht)
    have hno : ∀ t ∈ (TObj.complex c).tys, ∀ n, t ≠ .link n := by
      intro t ht n e
      have := hall t ht
      rw [e] at this
      cases this
    refine ⟨fun e he => hno _ ?_, fun a ha => hno _ ?_, fun n hb => hno _ ?_ n rfl⟩
    · simp only [TObj.tys, List.mem_append, List.mem_map]
      exact Or.inl (Or.inr ⟨e, he, rfl⟩)
    · simp only [TObj.tys, List.mem_append, List.mem_map]
      exact Or.inr ⟨a, ha, rfl⟩
    · simp [TObj.tys, hb]
  · intro id o hid b
    obtain ⟨o0, hid0, hev⟩ := hi.evo _ _ hid
    obtain ⟨k, s, hk, hs⟩ := hc.held id o0 hid0
    obtain ⟨r, hr, rfl, hall⟩ := hc.from_ k s hk
    rw [evolved_name hev]
    exact ho.own r hr _ (Or.inl (hall _ _ hs)) b
  · intro s hs e he m hm
    rcases hmem s hs with ⟨r, hr, hs⟩ | rfl
    · have := good_not_link hp (hi.vals _ s hs _ _ (hget hs he))
      rw [hm] at this
      cases this
    · obtain ⟨b, rfl⟩ := builtinSchema_types he
      cases hm
  · intro s hs s' hs' k t t' he he'
    rcases hmem s hs with ⟨r, hr, hs⟩ | rfl <;> rcases hmem s' hs' with ⟨r', hr', hs'⟩ | rfl
    · have e1 := (hspace r hr s hs _ he).1
      have e2 := (hspace r' hr' s' hs' _ he').1
      have : target r = target r' := e1.symm.trans e2
      rw [this] at hs
      rw [hs'] at hs
      cases hs
      have g1 := hget hs' he
      have g2 := hget hs' he'
      exact Option.some.inj (g1.symm.trans g2)
    · obtain ⟨b, hb⟩ := builtinSchema_types he'
      exact absurd (Prod.mk.inj hb).1 ((hspace r hr s hs _ he).2 b)
    · obtain ⟨b, hb⟩ := builtinSchema_types he
      exact absurd (Prod.mk.inj hb).1 ((hspace r' hr' s' hs' _ he').2 b)
    · exact builtinSchema_once he he'
  · intro s hs e he id hid
    rcases hmem s hs with ⟨r, hr, hs⟩ | rfl
    · rcases hi.vals _ s hs _ _ (hget hs he) with ⟨b, hb⟩ | ⟨k, s0, n, hk, hn⟩
      · rw [hid] at hb; cases hb
      · obtain ⟨id', o, h2, h3, h4⟩ := hc.named k s0 n _ hk hn
        obtain ⟨r', hr', rfl, -⟩ := hc.from_ k s0 hk
        obtain ⟨s1, hs1, -, hsub⟩ := hi.keys _ s0 hk
        refine ⟨s1, hback r' hr' s1 hs1, ?_⟩
        have : xmlName H e.2 = n := by
          rw [hxml, h2]
          simp only [xmlName, h3]
          exact h4
        rw [this]
        exact GoMap.get_some_mem (hsub _ _ hn)
    · obtain ⟨b, rfl⟩ := builtinSchema_types he
      cases hid
  · intro s hs e he hself
    rcases hmem s hs with ⟨r, hr, hs⟩ | rfl
    · rcases hfrom r hr s hs e he with ⟨⟨s0, hs0, hn⟩, -⟩ | ha
      · obtain ⟨id, o, h2, h3, h4⟩ := hc.named _ s0 _ _ hs0 hn
        rw [hxml, h2]
        simp only [xmlName, h3]
        exact h4
      · obtain ⟨el, hel, hen, hn, -⟩ := ha
        have hne : e.1.loc ≠ b!"_self" := by rw [hn]; exact (ho.elements r hr el hel hen).1
        rcases hself with h | h
        · exact absurd h hne
        · rw [hxml] at h
          exact absurd h (hnd _ s hs _ _ (hget hs he) hne)
    · obtain ⟨b, rfl⟩ := builtinSchema_types he
      rfl

end GoXml.Xsd
