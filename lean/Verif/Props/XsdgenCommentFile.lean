import Verif.Spec.XsdgenComment
import Verif.Proofs.XsdgenDocAt
import Verif.Props.XsdgenSimple
import Verif.Props.XsdgenUnlisted
import Verif.Props.XsdgenComment
set_option autoImplicit false

/-! C159: the comment on the type that is generated for an enumeration tells the values that the schema documents allow. -/

namespace GoXml.Xsdgen
open Xsd GoMap
open Wsdl (attrNamed allNamed below defines refersTo)

theorem addFuncs_doc : ∀ (deps : List Str) (s : Spec) (fns : GoMap Str FuncDecl), (addFuncs deps s fns).1.doc = s.doc := by
  intro deps
  induction deps with
  | nil => exact fun _ _ => rfl
  | cons d ds ih =>
    intro s fns
    rw [addFuncs]
    split
    · exact ih _ _
    · exact ih _ _

theorem addAllFuncs_doc : ∀ (ts : List Str) (decls : GoMap Str Spec) (fns : GoMap Str FuncDecl) (k : Str),
    (get (addAllFuncs ts decls fns).1 k).map (·.doc) = (get decls k).map (·.doc) := by
  intro ts
  induction ts with
  | nil => exact fun _ _ _ => rfl
  | cons t ts ih =>
    intro decls fns k
    rw [addAllFuncs]
    split
    · rename_i s hs
      rw [ih, get_set]
      split
      · rename_i e
        subst e
        rw [hs]
        simp only [Option.map_some, addFuncs_doc]
      · rfl
    · exact ih _ _ _

theorem genSimpleType_doc {env : Env} {cfg : Config} {n : Nat} {G : THeap} {id : Nat} {s : SimpleT} {ss : List Spec} (hl : s.list = false)
    (h : genSimpleType env cfg n G id s = .ok ss) : ∀ u ∈ ss, u.doc = s.doc := by
  simp only [genSimpleType, hl, Bool.false_eq_true, if_false] at h
  intro u hu
  split at h
  · cases h
    rw [List.mem_singleton.mp hu]
  · split at h
    · cases h
    · obtain ⟨x, -, h⟩ := bind_ok h
      split at h
      · split at h
        · cases h
        · cases h
          rw [List.mem_singleton.mp hu]
      · cases h
        rw [List.mem_singleton.mp hu]

/-- The comment on what is declared for a simple type that is neither a list nor a union is the one that its restrictions give. -/
theorem gen_doc {env : Env} {srt srt' : Sorter strLt} {cfg : Config} {n : Nat} {primaries deps : List Schema} {H : THeap} {r : THeap × Code × Config}
    (hpre : Untouched cfg H primaries) (hpost : Unaltered cfg) (hl : Linked H) (hown : OwnNames H)
    (htop : ∀ s ∈ primaries, ∀ e ∈ s.types, ∀ m, e.2 ≠ .link m) (hg : gen env srt cfg n primaries deps H = .ok r)
    {s : Schema} (hs : s ∈ primaries) {k : XName} {id : Nat} (he : (k, Ty.obj id) ∈ s.types) {t : SimpleT}
    (ht : H[id]? = some (.simple t)) (hsay : HasContent cfg (.simple t)) (hsk : skipped cfg t.name = false) (hn0 : t.name ≠ ⟨[], []⟩)
    (hhelp : ∀ k helper, get cfg.helperTypes k = some helper → helper.name ≠ publicName env cfg t.name)
    (hone : ∀ j o, H[j]? = some o → publicName env cfg o.name = publicName env cfg t.name → j = id)
    (hlist : t.list = false) (hu : t.union = []) {kept : Str} (hkept : keptDoc t.restriction = some kept)
    (hb : ∀ b, Below H id (.builtin b) → nonTrivialBuiltin (some (.builtin b)) = false)
    {doc : Str} {d : DeclExpr} (hd : GoDecl.type doc (publicName env cfg t.name) d ∈ (genAST srt' r.2.1).2) : doc = kept := by
  rw [gen_untouched hpre] at hg
  obtain ⟨q, hq, hg⟩ := bind_ok hg
  split at hg
  · cases hg
  · rename_i hflag
    cases hg
    obtain ⟨pre, post, happ, hex, htr⟩ := genSchemas_simpleDoc hb _ H q t hl (.refl _ H) hown (by
      intro types ht t htt
      obtain ⟨s, hs, rfl⟩ := List.mem_map.mp ht
      obtain ⟨e, he, rfl⟩ := List.mem_map.mp htt
      have := htop s hs e he
      cases he2 : e.2 with
      | link m => exact absurd he2 (this m)
      | _ => trivial) ht hsay hsk hn0 hlist hu hkept hq (by simpa using hflag) _ (List.mem_map.mpr ⟨s, hs, rfl⟩) (List.mem_map.mpr ⟨_, he, rfl⟩)
    obtain ⟨v, hv, hvd, -⟩ := genAST_type.mp hd
    dsimp only at hv
    obtain ⟨deps, D, hD, e⟩ := finish_posted srt cfg q.2.1
    rw [e] at hv
    have hx := addAllFuncs_doc (srt.sort ((addHelpers deps D cfg.helperTypes).1.map (·.1))) (addHelpers deps D cfg.helperTypes).1 cfg.helperFuncs
      (publicName env cfg t.name)
    rw [hv] at hx
    obtain ⟨w, hw, hue⟩ := Option.map_eq_some_iff.mp hx.symm
    rcases addHelpers_named _ _ _ _ _ hw with hw | ⟨k, hw, hn⟩
    · rw [hD, happ, declare_append] at hw
      obtain ⟨u, hu, rfl⟩ := Option.map_eq_some_iff.mp hw
      obtain ⟨hup, hun⟩ := declare_last hex hu
      obtain ⟨G, j, r', hk, ⟨s1, hs1, hdoc, -⟩, hr', hur⟩ := htr u hup
      obtain ⟨-, hname, j', o', ej, ho'⟩ := genTypeSpec_type hr' u hur
      cases ej
      obtain ⟨o, ho, hko⟩ := hk.objs j o' ho'
      have hj : j = id := hone j o ho (by
        rw [← hun, hname, hk.names]
        simp only [xmlName, ho])
      subst hj
      rw [hs1] at ho'
      cases ho'
      rw [ht] at ho
      cases ho
      obtain ⟨-, k2, -, -⟩ := hko
      simp only [genTypeSpec, hs1] at hr'
      obtain ⟨ss, hss, hr'⟩ := bind_ok hr'
      cases hr'
      rw [hpost.posted (genSimpleType_plain hss u hur)] at hue
      rw [← hvd, ← (show u.doc = v.doc from hue), genSimpleType_doc (by rw [k2]; exact hlist) hss u hur, hdoc]
    · exact absurd hn (hhelp k w hw)

theorem methods_named (b : Builtin) (h : nonTrivialBuiltin (some (.builtin b)) = true) : ∃ loc ∈ withMethods, builtinName b = ⟨w3cSchemaNS, loc⟩ := by
  have key : ∀ b ∈ ([13, 27, 16, 39, 17, 22, 23, 24, 25, 26] : List Int), ∃ loc ∈ withMethods, builtinName b = ⟨w3cSchemaNS, loc⟩ := by decide +kernel
  exact key b (of_decide_eq_true h)

/-- Without patterns there is none. -/
theorem pattern_absent {env : ParseEnv} {base : Ty} {root : Element} {r : Restriction} (h0 : kidsNamed root [b!"pattern"] = [])
    (h : parseSimpleRestriction env base root = some r) : r.pattern = none := by
  have hp := restriction_proj env base root r (·.pattern)
    (fun t e => if e.name.loc ∈ [b!"pattern"] then (parsePatternFacet env t [] (attrNamed e b!"value")).1 else t) (fun _ _ => rfl) (by
      intro s e s' h
      rcases step_cases h with ⟨hk, rfl⟩ | ⟨hk | hk, d, hd, rfl⟩ | ⟨hk | hk, d, hd, rfl⟩ | ⟨hk, n, hn, rfl⟩ | ⟨hk, n, hn, rfl⟩ |
        ⟨hk, n, hn, rfl⟩ | ⟨hk, rfl⟩ | ⟨hk, n, hn, h1, rfl⟩ | ⟨hk, d, hd, rfl⟩ | ⟨hk, n, hn, rfl⟩ | ⟨hk, rfl⟩
      all_goals first
        | (rw [hk, if_neg (by decide)]; done)
        | (rw [hk, if_pos (by decide)]; exact pattern_fst env _ _ _ _)
        | (rw [if_neg]
           intro hm
           apply hk
           rw [List.mem_singleton.mp hm]; decide)) h
  rw [foldl_kids [b!"pattern"] (fun t e => (parsePatternFacet env t [] (attrNamed e b!"value")).1)] at hp
  have h0 : (root.children.filter fun c => decide (c.name.space = w3cSchemaNS ∧ c.name.loc ∈ [b!"pattern"])) = [] := h0
  rw [h0] at hp
  exact hp

theorem numberFacet_unique {vs : List Str} {m n : Int} (h : NumberFacet vs m) (g : NumberFacet vs n) : m = n := by
  unfold NumberFacet at h g
  split at h
  · rename_i e
    rw [e] at g
    exact h.trans g.symm
  · rename_i e
    rw [e] at g
    have := (parseInt_iff _ _).mpr h
    rw [(parseInt_iff _ _).mpr g] at this
    cases this
    rfl

theorem numberFacet_text {vs : List Str} {m : Int} (h : NumberFacet vs m) : IntText (intStr m) m := by
  refine (atoi_iff _ _).mp ?_
  have : -(2 ^ 63) ≤ m ∧ m < 2 ^ 63 := by
    unfold NumberFacet at h
    split at h
    · omega
    · obtain ⟨t, -, ⟨-, rfl⟩ | ⟨-, rfl⟩ | ⟨ds, -, -, h1, h2⟩⟩ := h
      · omega
      · omega
      · exact ⟨h1, h2⟩
  exact atoi_intStr m this.1 this.2

/-- What `flatten1` puts into the comment tells what the documents say. -/
theorem kept_tells {env : ParseEnv} {base : Ty} {el : Element} {r : Restriction} (h : parseSimpleRestriction env base el = some r) (kept : Str)
    (hk : keptDoc r = some kept) : TellsFacets el kept := by
  obtain ⟨k1, -, k2, k3, -⟩ := C81_facets env base el _ h
  unfold keptDoc at hk
  refine ⟨fun hne => ?_, fun hno m hm => ?_⟩
  · rw [k1, joinStr_eq, if_pos (by unfold facetValues; rw [ne_eq, List.map_eq_nil_iff]; exact hne)] at hk
    exact (Option.some.inj hk).symm
  · have sub : ∀ k ∈ [b!"enumeration", b!"pattern"], kidsNamed el [k] = [] := by
      intro k hk
      refine List.eq_nil_iff_forall_not_mem.mpr fun c hc => ?_
      obtain ⟨g1, g2⟩ := List.mem_filter.mp hc
      have g2 := of_decide_eq_true g2
      have : c ∈ kidsNamed el [b!"enumeration", b!"pattern"] :=
        List.mem_filter.mpr ⟨g1, decide_eq_true ⟨g2.1, by rw [List.mem_singleton.mp g2.2]; exact hk⟩⟩
      rw [hno] at this
      cases this
    rw [k1, if_neg (by unfold facetValues; rw [sub _ (by simp)]; simp), pattern_absent (sub _ (by simp)) h] at hk
    dsimp only at hk
    have em := numberFacet_unique hm k3
    refine ⟨fun h0 => ?_, fun h0 k hkk hk0 => ?_⟩
    · rw [if_pos (by rw [← em]; exact h0)] at hk
      exact ⟨_, numberFacet_text k3 |> (fun h => by rw [em]; exact h), (Option.some.inj hk).symm⟩
    · have ek := numberFacet_unique hkk k2
      rw [if_neg (by rw [← em]; simpa using h0), if_pos (by rw [← ek]; exact hk0)] at hk
      exact ⟨_, numberFacet_text k2 |> (fun h => by rw [ek]; exact h), (Option.some.inj hk).symm⟩

/-- C159, partial: the comment on the declaration of a selected enumeration tells its values, in the order of the documents, and the comment on the
declaration of a selected type whose length is restricted tells the greatest length, or else the least. Proved for orderly schemas that
refer to types and derive them as they should, for restrictions of types that xsdgen has no types with methods for, if no two types have the same Go name. -/
theorem C159_comment_partial (env : Env) (srt srt' : Sorter strLt) (n : Nat) (parse : List Doc → Outcome (List Schema × THeap)) (penv : ParseEnv)
    (ord : MapOrder) (roots : List Element) (cfg : Config) (docs : List Doc) (schemas : List Schema) (H : THeap)
    (hparse : parse docs = parseSchemas penv ord roots) (hp : parseSchemas penv ord roots = .ok (schemas, H)) (ho : Orderly roots)
    (hr : Regular roots) (hder : Derivable roots) (hpre : Untouched cfg H schemas) (hpost : Unaltered cfg)
    (hd : (wanted cfg docs).Nodup)
    (hf : ∀ x ∈ wanted cfg docs, ∃ r ∈ roots, target r = x) (hn : H.length + 3 ≤ n) :
    ∃ cfg' H' code, genCode env srt n parse cfg docs = (cfg', .done (.ok (H', code))) ∧
      ∀ r ∈ roots, target r ∈ wanted cfg docs → ∀ e ∈ allNamed r w3cSchemaNS b!"simpleType", ∀ el, Restricts roots r e el →
        (kidsNamed el [b!"enumeration"] ≠ [] ∨ Bounded el) →
        Selected cfg (defines (target r) e) → (defines (target r) e).loc ≠ [] →
        (∀ k helper, get (addStandardHelpers cfg).helperTypes k = some helper → helper.name ≠ publicName env cfg (defines (target r) e)) →
        (∀ r' ∈ roots, ∀ m ∈ typeNames r', publicName env cfg m = publicName env cfg (defines (target r) e) → m = defines (target r) e) →
        (∃ doc d, GoDecl.type doc (publicName env cfg (defines (target r) e)) d ∈ (genAST srt' code).2) ∧
        ∀ doc d, GoDecl.type doc (publicName env cfg (defines (target r) e)) d ∈ (genAST srt' code).2 → TellsFacets el doc := by
  obtain ⟨hc, -, -⟩ := parse_derivable ho hr hder hp
  obtain ⟨cfg', H', code, hgen, hall⟩ := C157_simple_partial env srt srt' n parse penv ord roots cfg docs schemas H hparse hp ho hr hder hpre hpost hd hf hn
  refine ⟨cfg', H', code, hgen, ?_⟩
  rw [genCode_wanted] at hgen
  intro r hrr hns e he el ⟨hk, hrest, hsp⟩ hen hsel hloc hhelp hone
  have href : Refined e := Or.inr (Or.inr ⟨el, hk, hrest, hen⟩)
  refine ⟨(hall r hrr hns e he el hk href hsel hloc hhelp hone).1, ?_⟩
  obtain ⟨s, hs, hst, id, t, f, m, hget, hid, htn, hpt, hf'⟩ := declared_simple ho hp hrr he
  obtain ⟨h1, h2, h3, -⟩ := parse_orderly ho hp
  have hname : (((TObj.simple t).mapTy f).withMixed m).name = defines (target r) e := htn
  have hworth : HasContent cfg (((TObj.simple t).mapTy f).withMixed m) := refined_content ho hp hc hrr he href id _ hid hname
  have hself := simple_named ho hrr he
  have hxn : xmlName H (.obj id) = defines (target r) e := by simp only [xmlName, hid]; exact htn
  intro doc d hdecl
  obtain ⟨ns, primaries, r', hg, e', -, -, hne, hmem⟩ := genCode_ok (hparse.trans hp) hgen
  have hns' : ns = wanted cfg docs := hne (fun e => by rw [show wanted cfg docs = [] from e] at hns; cases hns)
  have e2 : code = r'.2.1 := by cases e'; rfl
  subst e2
  obtain ⟨-, -, hlist, tss, hun, hflat⟩ := C82_simple penv _ e t hpt
  obtain ⟨k1, -⟩ := C82_base penv _ e el t hk hpt
  obtain ⟨b0, h0, -, hres⟩ := k1 hrest
  have hlf : t.list = false := by
    cases h : t.list
    · rfl
    · exact absurd (only_kid hk (by decide) (by rw [hrest]; decide)) (hlist.mp h)
  have hu : t.union = [] := by
    rw [only_kid hk (by decide) (by rw [hrest]; decide)] at hun
    cases hun
    exact hflat
  obtain ⟨kept, hkept⟩ : ∃ kept, keptDoc t.restriction = some kept := by
    have hh : t.list = true ∨ t.union.map f ≠ [] ∨ t.restriction.enum ≠ [] ∨ t.restriction.pattern ≠ none ∨ t.restriction.minLength ≠ 0 ∨
      t.restriction.maxLength ≠ 0 := hworth
    rw [hlf, hu] at hh
    unfold keptDoc
    by_cases h1 : t.restriction.enum ≠ []
    · exact ⟨_, if_pos h1⟩
    · rw [if_neg h1]
      cases h2 : t.restriction.pattern with
      | some p => exact ⟨_, rfl⟩
      | none =>
        dsimp only
        by_cases h3 : t.restriction.maxLength ≠ 0
        · exact ⟨_, if_pos h3⟩
        · rw [if_neg h3]
          by_cases h4 : t.restriction.minLength ≠ 0
          · exact ⟨_, if_pos h4⟩
          · rcases hh with h | h | h | h | h | h
            · cases h
            · exact absurd rfl h
            · exact absurd h h1
            · exact absurd h2 h
            · exact absurd h h4
            · exact absurd h h3
  suffices doc = kept by rw [this]; exact kept_tells hres kept hkept
  refine gen_doc (cfg := addStandardHelpers { cfg with namespaces := ns }) (t := { t with base := t.base.map f, union := t.union.map f }) (hpre.some_of fun s hs => ((hmem s).mp hs).1) hpost h1.linked h2
    (fun s hs => h3 s ((hmem s).mp hs).1) hg ((hmem s).mpr ⟨hs, by rw [hns', hst]; exact hns⟩) (get_some_mem hget) hid hworth
    ((skipped_iff _ _).mpr ⟨by rw [htn]; exact hself, by rw [htn]; exact hsel⟩) (by
      rw [htn]
      intro e
      exact hloc (by rw [e])) (by rw [htn]; exact hhelp) (by
      rw [htn]
      intro j o hj hjn
      obtain ⟨r'', hr'', hsrc⟩ := Xsd.parse_source ho hp j o hj
      exact hc.named j id _ _ hj hid ((hone r'' hr'' _ hsrc hjn).trans hname.symm)) hlf (by rw [hu]; rfl) hkept ?_ (by rw [htn]; exact hdecl)
  intro b hb
  cases hnt : nonTrivialBuiltin (some (.builtin b)) with
  | false => rfl
  | true =>
    have hb' := hb.builtinUnder (fun e => by subst e; cases hnt)
    obtain ⟨-, hcf⟩ := ancestor_comes ho hr hder hp hb'.ancestor (by rw [hxn]; exact hself)
    obtain ⟨loc, hm, hnm⟩ := methods_named b hnt
    rw [hxn, show xmlName H (.builtin b) = builtinName b from rfl, hnm] at hcf
    exact absurd hcf (hsp loc hm)

/-- Types with these names are derived from types with these names. -/
def closedOk (names : List XName) (roots : List Element) : Bool :=
  roots.all fun r => (typeDecls r).all fun e => !decide (defines (target r) e ∈ names) || (derivedNames e).all fun m => decide (m ∈ names)

theorem comes_closed {names : List XName} {roots : List Element} (h : closedOk names roots = true) {n m : XName} (hc : ComesFrom roots n m)
    (hn : n ∈ names) : m ∈ names := by
  induction hc with
  | self => exact hn
  | step hr he hd _ ih =>
    have := List.all_eq_true.mp (List.all_eq_true.mp h _ hr) _ he
    rw [Bool.or_eq_true] at this
    rcases this with h1 | h1
    · rw [decide_eq_true hn] at h1
      cases h1
    · exact ih (of_decide_eq_true (List.all_eq_true.mp h1 _ (mem_derivedNames hd)))

/-- The schemas of orders and states meet the conditions: the comment on the enumeration `State` tells its values. -/
example : ∃ roots schemas H, ordersRoots = some roots ∧ Orderly roots ∧ Regular roots ∧ Derivable roots ∧
    parseSchemas testEnv Xsd.inOrder roots = .ok (schemas, H) ∧
    ∀ srt srt', ∃ cfg' H' code, genCode asciiEnv srt 11 (fun _ => parseSchemas testEnv Xsd.inOrder roots) ordersConfig [] = (cfg', .done (.ok (H', code))) ∧
      ∃ d, GoDecl.type b!"May be one of open, closed" b!"State" d ∈ (genAST srt' code).2 := by
  have : ordersTypes.map (fun (x : List Element × List Schema × THeap) => orderlyOk x.1 && regularOk x.1 &&
      derivableOk ordersRank ordersUnlisted x.1 && decide (∀ n ∈ [b!"urn:u", b!"urn:v"], ∃ r ∈ x.1, target r = n) &&
      simpleOk ordersConfig x.1 ⟨b!"urn:v", b!"State"⟩ b!"restriction" ⟨w3cSchemaNS, b!"token"⟩ &&
      ((simpleIn x.1 ⟨b!"urn:v", b!"State"⟩).any fun y => decide (facetValues y.2.2 [b!"enumeration"] = [b!"open", b!"closed"])) &&
      closedOk [⟨b!"urn:v", b!"State"⟩, ⟨w3cSchemaNS, b!"token"⟩] x.1 && decide (x.2.2.length = 8)) = some true := by
    decide +kernel
  obtain ⟨⟨roots, schemas, H⟩, hx, h⟩ := Option.map_eq_some_iff.mp this
  simp only [Bool.and_eq_true] at h
  obtain ⟨⟨⟨⟨⟨⟨⟨ho, hr⟩, hd⟩, hf⟩, hs⟩, hv⟩, hcl⟩, hl⟩ := h
  have hf := of_decide_eq_true hf
  have hl := of_decide_eq_true hl
  cases hroots : ordersRoots with
  | none => rw [ordersTypes, hroots] at hx; cases hx
  | some roots' =>
    rw [ordersTypes, hroots] at hx
    dsimp only [Option.bind_some] at hx
    cases hp : parseSchemas testEnv Xsd.inOrder roots' with
    | ok r =>
      rw [hp] at hx
      cases hx
      refine ⟨_, schemas, H, rfl, orderly_of ho, regular_of hr, derivable_of hd, hp, fun srt srt' => ?_⟩
      obtain ⟨cfg', H', code, hg, hall⟩ := C159_comment_partial asciiEnv srt srt' 11 (fun _ => parseSchemas testEnv Xsd.inOrder roots) testEnv Xsd.inOrder
        roots ordersConfig [] schemas H rfl hp (orderly_of ho) (regular_of hr) (derivable_of hd) (untouched_none rfl) (unaltered_none rfl)
        (by decide : [b!"urn:u", b!"urn:v"].Nodup) hf (by rw [hl])
      refine ⟨cfg', H', code, hg, ?_⟩
      unfold simpleOk at hs
      cases hin : simpleIn roots ⟨b!"urn:v", b!"State"⟩ with
      | none => rw [hin] at hv; cases hv
      | some y =>
        obtain ⟨r, e, el⟩ := y
        rw [hin] at hs hv
        obtain ⟨hr', he, hn, hk, href⟩ := simpleIn_spec hin
        have hv : facetValues el [b!"enumeration"] = [b!"open", b!"closed"] := of_decide_eq_true hv
        have hne : kidsNamed el [b!"enumeration"] ≠ [] := by
          intro h0
          rw [facetValues, h0] at hv
          cases hv
        simp only [Bool.and_eq_true, decide_eq_true_eq, List.all_eq_true] at hs
        obtain ⟨⟨⟨k1, k2⟩, k3⟩, k4⟩ := hs
        have hsp := (orderly_of ho).spaces r hr' _ (Or.inl (List.mem_append_left _ (List.mem_map_of_mem (List.mem_append_right _ he))))
        rw [hn] at hsp
        obtain ⟨⟨doc, d, hdecl⟩, hdoc⟩ := hall r hr' (by rw [← hsp]; decide) e he el ⟨hk, k1, by
            intro loc hloc hc
            rw [hn] at hc
            have := comes_closed hcl hc List.mem_cons_self
            have key : ∀ loc ∈ withMethods, (⟨w3cSchemaNS, loc⟩ : XName) ∉ [(⟨b!"urn:v", b!"State"⟩ : XName), ⟨w3cSchemaNS, b!"token"⟩] := by decide
            exact key loc hloc this⟩ (Or.inl hne) (by rw [hn]; exact ⟨fun m e => (nomatch e), fun f e => (nomatch e)⟩) (by rw [hn]; decide)
          (by rw [hn]; exact fun k helper hk => k3 _ (get_some_mem hk)) (by rw [hn]; exact k4)
        have hd := (hdoc doc d hdecl).1 hne
        rw [hv] at hd
        subst hd
        rw [hn, show publicName asciiEnv ordersConfig ⟨b!"urn:v", b!"State"⟩ = b!"State" by decide +kernel] at hdecl
        exact ⟨d, hdecl⟩
    | _ => rw [hp] at hx; cases hx

/-- Names of at most nine characters. -/
def wordDoc : Str :=
  b!"<xs:schema xmlns:xs=\"http://www.w3.org/2001/XMLSchema\" xmlns=\"urn:u\" targetNamespace=\"urn:u\">" ++
  b!"<xs:simpleType name=\"Word\"><xs:restriction base=\"xs:NCName\"><xs:minLength value=\"2\"/><xs:maxLength value=\"9\"/></xs:restriction></xs:simpleType></xs:schema>"

def wordRoots : Option (List Element) := (parseDocs [wordDoc]).bind (normalize doubling 40)

def wordTypes : Option (List Element × List Schema × THeap) := wordRoots.bind fun roots =>
  match parseSchemas testEnv Xsd.inOrder roots with
  | .ok r => some (roots, r)
  | _ => none

/-- So does a schema of words of bounded length: the comment tells the greatest length. -/
example : ∃ roots schemas H, wordRoots = some roots ∧ Orderly roots ∧ Regular roots ∧ Derivable roots ∧
    parseSchemas testEnv Xsd.inOrder roots = .ok (schemas, H) ∧
    ∀ srt srt', ∃ cfg' H' code, genCode asciiEnv srt 11 (fun _ => parseSchemas testEnv Xsd.inOrder roots) { namespaces := [b!"urn:u"] } [] = (cfg', .done (.ok (H', code))) ∧
      ∃ w d, IntText w 9 ∧ GoDecl.type (b!"May be no more than " ++ w ++ b!" items long") b!"Word" d ∈ (genAST srt' code).2 := by
  have : wordTypes.map (fun (x : List Element × List Schema × THeap) => orderlyOk x.1 && regularOk x.1 &&
      derivableOk ordersRank ordersUnlisted x.1 && decide (∀ n ∈ [b!"urn:u"], ∃ r ∈ x.1, target r = n) &&
      simpleOk { namespaces := [b!"urn:u"] } x.1 ⟨b!"urn:u", b!"Word"⟩ b!"restriction" ⟨w3cSchemaNS, b!"NCName"⟩ &&
      ((simpleIn x.1 ⟨b!"urn:u", b!"Word"⟩).any fun y => decide (facetValues y.2.2 [b!"maxLength"] = [b!"9"]) && decide (kidsNamed y.2.2 [b!"enumeration", b!"pattern"] = [])) &&
      closedOk [⟨b!"urn:u", b!"Word"⟩, ⟨w3cSchemaNS, b!"NCName"⟩] x.1 && decide (x.2.2.length + 3 ≤ 11)) = some true := by
    decide +kernel
  obtain ⟨⟨roots, schemas, H⟩, hx, h⟩ := Option.map_eq_some_iff.mp this
  simp only [Bool.and_eq_true] at h
  obtain ⟨⟨⟨⟨⟨⟨⟨ho, hr⟩, hd⟩, hf⟩, hs⟩, hv⟩, hcl⟩, hl⟩ := h
  have hf := of_decide_eq_true hf
  have hl := of_decide_eq_true hl
  cases hroots : wordRoots with
  | none => rw [wordTypes, hroots] at hx; cases hx
  | some roots' =>
    rw [wordTypes, hroots] at hx
    dsimp only [Option.bind_some] at hx
    cases hp : parseSchemas testEnv Xsd.inOrder roots' with
    | ok r =>
      rw [hp] at hx
      cases hx
      refine ⟨_, schemas, H, rfl, orderly_of ho, regular_of hr, derivable_of hd, hp, fun srt srt' => ?_⟩
      obtain ⟨cfg', H', code, hg, hall⟩ := C159_comment_partial asciiEnv srt srt' 11 (fun _ => parseSchemas testEnv Xsd.inOrder roots) testEnv Xsd.inOrder
        roots { namespaces := [b!"urn:u"] } [] schemas H rfl hp (orderly_of ho) (regular_of hr) (derivable_of hd) (untouched_none rfl) (unaltered_none rfl)
        (by decide : [b!"urn:u"].Nodup) hf hl
      refine ⟨cfg', H', code, hg, ?_⟩
      unfold simpleOk at hs
      cases hin : simpleIn roots ⟨b!"urn:u", b!"Word"⟩ with
      | none => rw [hin] at hv; cases hv
      | some y =>
        obtain ⟨r, e, el⟩ := y
        rw [hin] at hs hv
        obtain ⟨hr', he, hn, hk, href⟩ := simpleIn_spec hin
        have hv := hv
        rw [Option.any_some, Bool.and_eq_true] at hv
        have hmax : NumberFacet (facetValues el [b!"maxLength"]) 9 := by
          have h9 : facetValues el [b!"maxLength"] = [b!"9"] := of_decide_eq_true hv.1
          rw [h9]
          exact (parseInt_iff b!"9" 9).mp (by decide)
        have hno : kidsNamed el [b!"enumeration", b!"pattern"] = [] := of_decide_eq_true hv.2
        simp only [Bool.and_eq_true, decide_eq_true_eq, List.all_eq_true] at hs
        obtain ⟨⟨⟨k1, k2⟩, k3⟩, k4⟩ := hs
        have hsp := (orderly_of ho).spaces r hr' _ (Or.inl (List.mem_append_left _ (List.mem_map_of_mem (List.mem_append_right _ he))))
        rw [hn] at hsp
        obtain ⟨⟨doc, d, hdecl⟩, hdoc⟩ := hall r hr' (by rw [← hsp]; decide) e he el ⟨hk, k1, by
            intro loc hloc hc
            rw [hn] at hc
            have := comes_closed hcl hc List.mem_cons_self
            have key : ∀ loc ∈ withMethods, (⟨w3cSchemaNS, loc⟩ : XName) ∉ [(⟨b!"urn:u", b!"Word"⟩ : XName), ⟨w3cSchemaNS, b!"NCName"⟩] := by decide
            exact key loc hloc this⟩ (Or.inr ⟨b!"maxLength", by decide, fun n hn => by rw [numberFacet_unique hn hmax]; decide⟩) (by rw [hn]; exact ⟨fun m e => (nomatch e), fun f e => (nomatch e)⟩) (by rw [hn]; decide)
          (by rw [hn]; exact fun k helper hk => k3 _ (get_some_mem hk)) (by rw [hn]; exact k4)
        obtain ⟨w, hw, hd⟩ := ((hdoc doc d hdecl).2 hno 9 hmax).1 (by decide)
        subst hd
        rw [hn, show publicName asciiEnv { namespaces := [b!"urn:u"] } ⟨b!"urn:u", b!"Word"⟩ = b!"Word" by decide +kernel] at hdecl
        exact ⟨w, d, hw, hdecl⟩
    | _ => rw [hp] at hx; cases hx

/-- C159 is false for an enumeration of dates: the comment on it does not tell its values. -/
theorem C159_dates_refuted :
    commentsFrom (b!"<simpleType name=\"day\"><restriction base=\"date\"><enumeration value=\"2020-01-01\"/></restriction></simpleType>") =
      some [(b!"Day", b!""), (b!"xsdDate", b!"")] ∧ ¬ b!"2020-01-01" <:+: b!"" := by
  refine ⟨by decide +kernel, by decide +kernel⟩

/-- C159 is false for types with the same Go name: of two enumerations only the values of one are told. -/
theorem C159_names_refuted :
    commentsFrom (b!"<simpleType name=\"a\"><restriction base=\"string\"><enumeration value=\"x\"/></restriction></simpleType>" ++
      b!"<simpleType name=\"A\"><restriction base=\"string\"><enumeration value=\"y\"/></restriction></simpleType>") =
      some [(b!"A", b!"May be one of y")] ∧ ¬ b!"x" <:+: b!"May be one of y" := by
  refine ⟨by decide +kernel, by decide +kernel⟩

end GoXml.Xsdgen
