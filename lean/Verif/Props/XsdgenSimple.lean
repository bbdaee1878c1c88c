import Verif.Spec.XsdgenSimple
import Verif.Props.XsdgenStruct
import Verif.Props.XsdgenListFile
import Verif.Proofs.XsdAcceptDocs
set_option autoImplicit false

/-! C157: the type that is generated for a simple type is what the schema documents say. -/

namespace GoXml.Xsdgen
open Xsd GoMap
open Wsdl (attrNamed allNamed below defines refersTo)

section
variable {penv : ParseEnv} {ord : MapOrder} {roots : List Element} {schemas : List Schema} {H : THeap} {env : Env} {cfg : Config}

/-- The type in the result that a definition of a simple type is made into. -/
theorem declared_simple (ho : Orderly roots) (h : parseSchemas penv ord roots = .ok (schemas, H)) {r e : Element} (hr : r ∈ roots)
    (he : e ∈ allNamed r w3cSchemaNS b!"simpleType") :
    ∃ s ∈ schemas, s.targetNS = target r ∧ ∃ (id : Nat) (t : SimpleT) (f : Ty → Ty) (m : Bool), s.types.get (defines (target r) e) = some (.obj id) ∧
      H[id]? = some (((TObj.simple t).mapTy f).withMixed m) ∧ t.name = defines (target r) e ∧ parseSimpleType penv (target r) e = some t ∧
      ∀ ty ∈ (TObj.simple t).tys, ∀ n, Named n ty → Denotes schemas H n (f ty) := by
  obtain ⟨s, hs, h1, h2, -⟩ := parse_linked ho.targets ho.types ho.unnamed h r hr
  obtain ⟨id, o0, o, g1, g2, g3, g4⟩ := h2 e (List.mem_append_right _ he)
  have hn : e.name.loc = b!"simpleType" := by rw [of_decide_eq_true (List.mem_filter.mp he).2]
  unfold parseDecl at g3
  rw [if_neg (by rw [hn]; decide), Option.map_eq_some_iff] at g3
  obtain ⟨t, g3, rfl⟩ := g3
  obtain ⟨f, m, rfl, -, hf⟩ := g4
  exact ⟨s, hs, h1, id, t, f, m, g1, g2, (C82_simple penv _ e t g3).1, g3, hf⟩

theorem denotes_name {n : XName} {t : Ty} (h : Denotes schemas H n t) : xmlName H t = n := by
  rcases h with ⟨b, -, -, hb, rfl⟩ | ⟨-, s, -, id, o, -, hid, hn, rfl⟩
  · exact hb
  · simp only [xmlName, hid]
    exact hn

theorem only_kid {e el : Element} (hk : schemaKids e = [el]) {loc : Str} (hl : loc ≠ b!"annotation") (hne : el.name.loc ≠ loc) : kidsNamed e [loc] = [] := by
  rw [kidsNamed, List.filter_eq_nil_iff]
  intro c hc hd
  obtain ⟨h1, h2⟩ := of_decide_eq_true hd
  have h2 := List.mem_singleton.mp h2
  have : c ∈ schemaKids e := List.mem_filter.mpr ⟨hc, decide_eq_true ⟨h1, by rw [h2]; exact hl⟩⟩
  rw [hk, List.mem_singleton] at this
  subst this
  exact hne h2

theorem simple_named (ho : Orderly roots) {r e : Element} (hr : r ∈ roots) (he : e ∈ allNamed r w3cSchemaNS b!"simpleType") :
    (defines (target r) e).loc ≠ b!"_self" := by
  intro hl
  have hty := ho.types r hr
  unfold typeNames at hty
  have hmem : defines (target r) e ∈ (typeDecls r).map (defines (target r)) := List.mem_map_of_mem (List.mem_append_right _ he)
  refine (List.nodup_append.mp hty).2.2 _ hmem _ (List.mem_singleton_self _) ?_
  exact xname_of (ho.spaces r hr _ (Or.inl (List.mem_append_left _ hmem))) hl

/-- The built-in type under a type is the one under its base. -/
theorem below_under (ho : Orderly roots) (hr : Regular roots) (hd : Derivable roots) (hp : parseSchemas penv ord roots = .ok (schemas, H)) (hc : Coherent H)
    {id : Nat} {b : Ty} {n : XName} (hb : baseOf H (.obj id) = some b) (hn : Denotes schemas H n b) (hpb : Present H b)
    (hq : (xmlName H (.obj id)).loc ≠ b!"_self") {i : Builtin} {x : GoExpr} (ht : Below H id (.builtin i)) (hx : builtinExpr i = .ok (some x)) :
    GoTypeUnder roots n x := by
  rcases ht with ⟨b', hb', hst⟩ | ⟨hno, -⟩
  · rw [hb] at hb'
    cases hb'
    have hq' := (ancestor_comes ho hr hd hp (.base hb (.self _)) hq).1
    have ha := stands_ancestor hc hpb hst
    have := (ancestor_comes ho hr hd hp ha hq').2
    rw [denotes_name hn] at this
    rcases anc_present hc ha hpb with ⟨i', e, h1, h2, -⟩ | ⟨j, e, -⟩
    · cases e
      exact ⟨i, h1, h2, this, hx⟩
    · cases e
  · rw [hb] at hno
    cases hno

/-- The declaration of a simple type says what the documents say. -/
theorem means_simple (ho : Orderly roots) (hr : Regular roots) (hd : Derivable roots) (hp : parseSchemas penv ord roots = .ok (schemas, H)) (hc : Coherent H)
    {r e el : Element} (hrr : r ∈ roots) (he : e ∈ allNamed r w3cSchemaNS b!"simpleType") (hk : schemaKids e = [el]) (href : Refined e) {id : Nat}
    {t : SimpleT} {f : Ty → Ty} {m : Bool} (hj : H[id]? = some (((TObj.simple t).mapTy f).withMixed m)) (htn : t.name = defines (target r) e)
    (hpt : parseSimpleType penv (target r) e = some t) (hf : ∀ ty ∈ (TObj.simple t).tys, ∀ n, Named n ty → Denotes schemas H n (f ty)) {d : DeclExpr}
    (m1 : t.list = true → ∃ b x, Below H id (.builtin b) ∧ builtinExpr b = .ok (some x) ∧ d = .plain (.array x))
    (m2 : t.list = false → t.union.map f ≠ [] → d = .plain (.ident b!"string"))
    (m3 : t.list = false → t.union.map f = [] → ∃ b x, Below H id (.builtin b) ∧ builtinExpr b = .ok (some x) ∧ d = .plain x) : DeclaredAs roots el d := by
  obtain ⟨-, -, hlist, tss, hun, hflat⟩ := C82_simple penv _ e t hpt
  obtain ⟨k1, k2, -⟩ := C82_base penv _ e el t hk hpt
  obtain ⟨b, hb, hpb⟩ := hc.based id _ hj
  have hbase : baseOf H (.obj id) = some b := by simp only [baseOf, hj]; exact hb
  have hfb : t.base.map f = some b := hb
  have hq : (xmlName H (.obj id)).loc ≠ b!"_self" := by
    have : xmlName H (.obj id) = defines (target r) e := by simp only [xmlName, hj]; exact htn
    rw [this]
    exact simple_named ho hrr he
  have over : ∀ {n : XName} {b0 : Ty} {i : Builtin} {x : GoExpr}, t.base = some b0 → Named n b0 → Below H id (.builtin i) →
      builtinExpr i = .ok (some x) → GoTypeUnder roots n x := by
    intro n b0 i x h0 hnm hbl hx
    rw [h0] at hfb
    cases hfb
    exact below_under ho hr hd hp hc hbase (hf b0 (by simp only [TObj.tys, h0]; simp) n hnm) hpb hq hbl hx
  have hel : el.name.loc = b!"list" ∨ el.name.loc = b!"union" ∨ el.name.loc = b!"restriction" := by
    have : ∀ {loc : Str} {c : Element}, c ∈ kidsNamed e [loc] → loc ≠ b!"annotation" → el.name.loc = loc := by
      intro loc c hc' hl
      by_contra hne
      rw [only_kid hk hl hne] at hc'
      cases hc'
    rcases href with h | ⟨u, hu, -⟩ | ⟨el', hk', hloc, -⟩
    · obtain ⟨c, hc'⟩ := List.exists_mem_of_ne_nil _ h
      exact Or.inl (this hc' (by decide))
    · exact Or.inr (Or.inl (this hu (by decide)))
    · rw [hk] at hk'
      cases hk'
      exact Or.inr (Or.inr hloc)
  rcases hel with hl | hl | hl
  · obtain ⟨b0, h0, hnm, -⟩ := k2 hl
    have hlt : t.list = true := by
      refine hlist.mpr (List.ne_nil_of_mem (a := el) ?_)
      have : el ∈ schemaKids e := by rw [hk]; exact List.mem_singleton_self _
      obtain ⟨g1, g2⟩ := List.mem_filter.mp this
      exact List.mem_filter.mpr ⟨g1, decide_eq_true ⟨(of_decide_eq_true g2).1, by rw [hl]; exact List.mem_singleton_self _⟩⟩
    obtain ⟨t', x, g1, g2, rfl⟩ := m1 hlt
    exact Or.inl ⟨hl, x, over h0 hnm g1 g2, rfl⟩
  · have hlf : t.list = false := by
      cases h : t.list
      · rfl
      · exact absurd (only_kid hk (by decide) (by rw [hl]; decide)) (hlist.mp h)
    refine Or.inr (Or.inl ⟨hl, m2 hlf ?_⟩)
    rcases href with h | ⟨u, hu, hw⟩ | ⟨el', hk', hloc, -⟩
    · exact absurd (only_kid hk (by decide) (by rw [hl]; decide)) h
    · obtain ⟨ts, hts, ws, hws, hfor⟩ := forall₂_mem_left hun u hu
      rw [ne_eq, List.map_eq_nil_iff, hflat]
      intro hnil
      have : ts = [] := List.flatten_eq_nil_iff.mp hnil ts hts
      subst this
      cases hfor
      exact hw _ hws rfl
    · rw [hk] at hk'
      cases hk'
      rw [hl] at hloc
      exact absurd hloc (by decide)
  · have hlf : t.list = false := by
      cases h : t.list
      · rfl
      · exact absurd (only_kid hk (by decide) (by rw [hl]; decide)) (hlist.mp h)
    obtain ⟨b0, h0, hnm, -⟩ := k1 hl
    have hu : t.union = [] := by
      rw [only_kid hk (by decide) (by rw [hl]; decide)] at hun
      cases hun
      exact hflat
    obtain ⟨t', x, g1, g2, rfl⟩ := m3 hlf (by rw [hu]; rfl)
    exact Or.inr (Or.inr ⟨hl, x, over h0 hnm g1 g2, rfl⟩)

end

/-- C157, partial: the file that `GenCode` makes declares every selected simple type that is a list, a union or an enumeration: a list as a slice of the
Go type for its items, a union as a string, an enumeration as the Go type for what it restricts, where the Go type is that of the built-in type under it. Proved for orderly schemas that refer to types and derive them
as they should, if no two types have the same Go name. -/
theorem C157_simple_partial (env : Env) (srt srt' : Sorter strLt) (n : Nat) (parse : List Doc → Outcome (List Schema × THeap)) (penv : ParseEnv)
    (ord : MapOrder) (roots : List Element) (cfg : Config) (docs : List Doc) (schemas : List Schema) (H : THeap)
    (hparse : parse docs = parseSchemas penv ord roots) (hp : parseSchemas penv ord roots = .ok (schemas, H)) (ho : Orderly roots)
    (hr : Regular roots) (hder : Derivable roots) (hpre : Untouched cfg H schemas) (hpost : Unaltered cfg)
    (hd : (wanted cfg docs).Nodup)
    (hf : ∀ x ∈ wanted cfg docs, ∃ r ∈ roots, target r = x) (hn : H.length + 3 ≤ n) :
    ∃ cfg' H' code, genCode env srt n parse cfg docs = (cfg', .done (.ok (H', code))) ∧
      ∀ r ∈ roots, target r ∈ wanted cfg docs → ∀ e ∈ allNamed r w3cSchemaNS b!"simpleType", ∀ el, schemaKids e = [el] → Refined e →
        Selected cfg (defines (target r) e) → (defines (target r) e).loc ≠ [] →
        (∀ k helper, get (addStandardHelpers cfg).helperTypes k = some helper → helper.name ≠ publicName env cfg (defines (target r) e)) →
        (∀ r' ∈ roots, ∀ m ∈ typeNames r', publicName env cfg m = publicName env cfg (defines (target r) e) → m = defines (target r) e) →
        (∃ doc d, GoDecl.type doc (publicName env cfg (defines (target r) e)) d ∈ (genAST srt' code).2) ∧
        ∀ doc d, GoDecl.type doc (publicName env cfg (defines (target r) e)) d ∈ (genAST srt' code).2 → DeclaredAs roots el d := by
  obtain ⟨hc, -, -⟩ := parse_derivable ho hr hder hp
  obtain ⟨cfg', ⟨H', code⟩, hgen⟩ := C153_schemas_partial env srt n parse penv ord roots cfg docs schemas H hparse hp ho hr hder
    hpre hd hf hn
  refine ⟨cfg', H', code, hgen, ?_⟩
  rw [genCode_wanted] at hgen
  intro r hrr hns e he el hk href hsel hloc hhelp hone
  obtain ⟨s, hs, hst, id, t, f, m, hget, hid, htn, hpt, hf'⟩ := declared_simple ho hp hrr he
  obtain ⟨h1, h2, h3, -⟩ := parse_orderly ho hp
  have hname : (((TObj.simple t).mapTy f).withMixed m).name = defines (target r) e := htn
  have hworth : HasContent cfg (((TObj.simple t).mapTy f).withMixed m) := refined_content ho hp hc hrr he href id _ hid hname
  have hself := simple_named ho hrr he
  constructor
  · have := C97_declared env srt srt' n parse { cfg with namespaces := wanted cfg docs } cfg' docs schemas H H' code (hparse.trans hp) h1 h3 h2 hpre hgen s hs (by rw [hst]; exact hns) _ id
      (get_some_mem hget) _ hid (by rw [hname]; exact hsel) (Or.inl hworth) (by rw [hname]; exact ⟨hloc, hself⟩)
    rw [hname] at this
    exact this
  · intro doc d hdecl
    obtain ⟨ns, primaries, r', hg, e', -, -, hne, hmem⟩ := genCode_ok (hparse.trans hp) hgen
    have hns' : ns = wanted cfg docs := hne (fun e => by rw [show wanted cfg docs = [] from e] at hns; cases hns)
    have e2 : code = r'.2.1 := by cases e'; rfl
    subst e2
    obtain ⟨m1, m2, m3⟩ := gen_simple (cfg := addStandardHelpers { cfg with namespaces := ns }) (t := { t with base := t.base.map f, union := t.union.map f }) (hpre.some_of fun s hs => ((hmem s).mp hs).1) hpost h1.linked h2
      (fun s hs => h3 s ((hmem s).mp hs).1) hg ((hmem s).mpr ⟨hs, by rw [hns', hst]; exact hns⟩) (get_some_mem hget) hid hworth
      ((skipped_iff _ _).mpr ⟨by rw [htn]; exact hself, by rw [htn]; exact hsel⟩) (by
        rw [htn]
        intro e
        exact hloc (by rw [e])) (by rw [htn]; exact hhelp) (by
        rw [htn]
        intro j o hj hjn
        obtain ⟨r'', hr'', hsrc⟩ := Xsd.parse_source ho hp j o hj
        exact hc.named j id _ _ hj hid ((hone r'' hr'' _ hsrc hjn).trans hname.symm)) (by rw [htn]; exact hdecl)
    exact means_simple ho hr hder hp hc hrr he hk href hid htn hpt hf' m1 m2 m3

/-- The definition of a simple type in these schemas: a list, or a union or enumeration that says something. -/
def simpleIn (roots : List Element) (name : XName) : Option (Element × Element × Element) :=
  roots.findSome? fun r => (allNamed r w3cSchemaNS b!"simpleType").findSome? fun e =>
    if defines (target r) e = name then
      match schemaKids e with
      | [el] => if refinedOk e el then some (r, e, el) else none
      | _ => none
    else none
where
  refinedOk (e el : Element) : Bool := decide (kidsNamed e [b!"list"] ≠ []) ||
    ((kidsNamed e [b!"union"]).any fun u => decide (fields (attrNamed u b!"memberTypes") ≠ [])) ||
    (decide (el.name.loc = b!"restriction" ∧ kidsNamed el [b!"enumeration"] ≠ [])) ||
    (decide (el.name.loc = b!"restriction") && [b!"minLength", b!"maxLength"].any fun k =>
      (facetValues el [k]).getLast?.any fun v => decide (parseInt v ≠ some 0))

theorem simpleIn_spec {roots : List Element} {name : XName} {r e el : Element} (h : simpleIn roots name = some (r, e, el)) :
    r ∈ roots ∧ e ∈ allNamed r w3cSchemaNS b!"simpleType" ∧ defines (target r) e = name ∧ schemaKids e = [el] ∧ Refined e := by
  obtain ⟨r', hr, h⟩ := List.exists_of_findSome?_eq_some h
  obtain ⟨e', he, h⟩ := List.exists_of_findSome?_eq_some h
  split at h
  · rename_i hn
    split at h
    · rename_i el' hk
      split at h
      · rename_i hok
        cases h
        refine ⟨hr, he, hn, hk, ?_⟩
        unfold simpleIn.refinedOk at hok
        simp only [Bool.or_eq_true, decide_eq_true_eq, List.any_eq_true] at hok
        rcases hok with ((h | ⟨u, hu, hw⟩) | ⟨h1, h2⟩) | h
        · exact Or.inl h
        · exact Or.inr (Or.inl ⟨u, hu, fun ws hws => by rw [words_fields hws]; exact hw⟩)
        · exact Or.inr (Or.inr ⟨el, hk, h1, Or.inl h2⟩)
        · rw [Bool.and_eq_true, decide_eq_true_eq, List.any_eq_true] at h
          obtain ⟨h1, k, hk', hb⟩ := h
          obtain ⟨v, hv, hv0⟩ := (Option.any_eq_true _ _).mp hb
          refine Or.inr (Or.inr ⟨el, hk, h1, Or.inr ⟨k, hk', fun n hn e => ?_⟩⟩)
          subst e
          unfold NumberFacet at hn
          rw [hv] at hn
          exact of_decide_eq_true hv0 ((parseInt_iff _ _).mpr hn)
      · cases h
    · cases h
  · cases h

/-- A simple type is defined in this way by something that names these types, and its Go name is not that of another type or a helper. -/
def simpleOk (cfg : Config) (roots : List Element) (name : XName) (loc : Str) (base : XName) : Bool :=
  match simpleIn roots name with
  | some (_, _, el) => decide (el.name.loc = loc) && decide ((if loc = b!"list" then refersTo el b!"itemType" else refersTo el b!"base") = base) &&
      (addStandardHelpers cfg).helperTypes.all (fun h => decide (h.2.name ≠ publicName asciiEnv cfg name)) &&
      roots.all fun r' => (typeNames r').all fun m => decide (publicName asciiEnv cfg m = publicName asciiEnv cfg name → m = name)
  | none => false

/-- The Go type for a built-in type is its own. -/
theorem builtin_under {roots : List Element} (ho : Orderly roots) {n : XName} {x : GoExpr} {k : Nat} (hk : builtinName k = n)
    (honly : ∀ j < 50, builtinName (j : Nat) = n → j = k) (h : GoTypeUnder roots n x) : builtinExpr k = .ok (some x) := by
  obtain ⟨b, h1, h2, hm, h4⟩ := h
  generalize hb : builtinName b = m at hm
  cases hm with
  | self =>
    obtain ⟨j, rfl⟩ := Int.eq_ofNat_of_zero_le h1
    rw [honly j (by omega) hb] at h4
    exact h4
  | step hr he hd hc => exact absurd hk.symm (ho.own _ hr _ (Or.inl (List.mem_append_left _ (List.mem_map_of_mem he))) _)

/-- The schemas of orders and states meet the conditions: the list `Sizes` is declared as a slice of integers, the union `Either` as a string, and the
enumeration `State` as a string. -/
example : ∃ roots schemas H, ordersRoots = some roots ∧ Orderly roots ∧ Regular roots ∧ Derivable roots ∧
    parseSchemas testEnv Xsd.inOrder roots = .ok (schemas, H) ∧
    ∀ srt srt', ∃ cfg' H' code, genCode asciiEnv srt 11 (fun _ => parseSchemas testEnv Xsd.inOrder roots) ordersConfig [] = (cfg', .done (.ok (H', code))) ∧
      ∃ doc doc' doc'', GoDecl.type doc b!"Sizes" (.plain (.array (.ident b!"int"))) ∈ (genAST srt' code).2 ∧
        GoDecl.type doc' b!"Either" (.plain (.ident b!"string")) ∈ (genAST srt' code).2 ∧
        GoDecl.type doc'' b!"State" (.plain (.ident b!"string")) ∈ (genAST srt' code).2 := by
  have : ordersTypes.map (fun (x : List Element × List Schema × THeap) => orderlyOk x.1 && regularOk x.1 &&
      derivableOk ordersRank ordersUnlisted x.1 && decide (∀ n ∈ [b!"urn:u", b!"urn:v"], ∃ r ∈ x.1, target r = n) &&
      simpleOk ordersConfig x.1 ⟨b!"urn:u", b!"Sizes"⟩ b!"list" ⟨w3cSchemaNS, b!"int"⟩ &&
      simpleOk ordersConfig x.1 ⟨b!"urn:v", b!"Either"⟩ b!"union" ⟨b!"urn:v", []⟩ &&
      simpleOk ordersConfig x.1 ⟨b!"urn:v", b!"State"⟩ b!"restriction" ⟨w3cSchemaNS, b!"token"⟩ && decide (x.2.2.length = 8)) = some true := by
    decide +kernel
  obtain ⟨⟨roots, schemas, H⟩, hx, h⟩ := Option.map_eq_some_iff.mp this
  simp only [Bool.and_eq_true] at h
  obtain ⟨⟨⟨⟨⟨⟨⟨ho, hr⟩, hd⟩, hf⟩, h1⟩, h2⟩, h3⟩, hl⟩ := h
  have hf := of_decide_eq_true hf
  have hl := of_decide_eq_true hl
  cases hroots : ordersRoots with
  | none => rw [ordersTypes, hroots] at hx; cases hx
  | some roots' =>
    rw [ordersTypes, hroots] at hx
    dsimp only [Option.bind_some] at hx
    cases hp : parseSchemas testEnv Xsd.inOrder roots' with
    | ok r =>
      rw [hp] at hx
      cases hx
      refine ⟨_, schemas, H, rfl, orderly_of ho, regular_of hr, derivable_of hd, hp, fun srt srt' => ?_⟩
      obtain ⟨cfg', H', code, hg, hall⟩ := C157_simple_partial asciiEnv srt srt' 11 (fun _ => parseSchemas testEnv Xsd.inOrder roots) testEnv Xsd.inOrder
        roots ordersConfig [] schemas H rfl hp (orderly_of ho) (regular_of hr) (derivable_of hd) (untouched_none rfl) (unaltered_none rfl)
        (by decide : [b!"urn:u", b!"urn:v"].Nodup) hf (by rw [hl])
      have use : ∀ {name base : XName} {loc : Str}, simpleOk ordersConfig roots name loc base = true → name.loc ≠ [] → Selected ordersConfig name →
          name.space ∈ [b!"urn:u", b!"urn:v"] → ∃ doc d el, GoDecl.type doc (publicName asciiEnv ordersConfig name) d ∈ (genAST srt' code).2 ∧
            el.name.loc = loc ∧ (if loc = b!"list" then refersTo el b!"itemType" else refersTo el b!"base") = base ∧
            DeclaredAs roots el d := by
        intro name base loc hs hloc hsel hns
        unfold simpleOk at hs
        split at hs
        · rename_i r e el hdef
          obtain ⟨hr, he, rfl, hk, href⟩ := simpleIn_spec hdef
          simp only [Bool.and_eq_true, decide_eq_true_eq, List.all_eq_true] at hs
          obtain ⟨⟨⟨k1, k2⟩, k3⟩, k4⟩ := hs
          have hsp := (orderly_of ho).spaces r hr _ (Or.inl (List.mem_append_left _ (List.mem_map_of_mem (List.mem_append_right _ he))))
          obtain ⟨⟨doc, d, hdecl⟩, hall⟩ := hall r hr (by rw [← hsp]; exact hns) e he el hk href hsel hloc (fun k helper hk => k3 _ (get_some_mem hk)) k4
          exact ⟨doc, d, el, hdecl, k1, k2, hall doc d hdecl⟩
        · cases hs
      have hsel : ∀ name, Selected ordersConfig name := fun name => ⟨fun m e => (nomatch e), fun f e => (nomatch e)⟩
      have e1 : builtinExpr (28 : Nat) = .ok (some (.ident b!"int")) := by rfl
      have e2 : builtinExpr (40 : Nat) = .ok (some (.ident b!"string")) := by rfl
      refine ⟨cfg', H', code, hg, ?_⟩
      obtain ⟨doc, d, el, k1, k2, k3, k4⟩ := use h1 (by decide) (hsel _) (by decide)
      obtain ⟨doc', d', el', l1, l2, l3, l4⟩ := use h2 (by decide) (hsel _) (by decide)
      obtain ⟨doc'', d'', el'', m1, m2, m3, m4⟩ := use h3 (by decide) (hsel _) (by decide)
      refine ⟨doc, doc', doc'', ?_, ?_, ?_⟩
      · rcases k4 with ⟨-, x, hx, rfl⟩ | ⟨g, -⟩ | ⟨g, -⟩
        · rw [if_pos rfl] at k3
          rw [k3] at hx
          have := builtin_under (orderly_of ho) (k := 28) (by decide +kernel) (by decide +kernel) hx
          rw [e1] at this
          cases this
          exact k1
        · rw [k2] at g; exact absurd g (by decide)
        · rw [k2] at g; exact absurd g (by decide)
      · rcases l4 with ⟨g, -⟩ | ⟨-, rfl⟩ | ⟨g, -⟩
        · rw [l2] at g; exact absurd g (by decide)
        · exact l1
        · rw [l2] at g; exact absurd g (by decide)
      · rcases m4 with ⟨g, -⟩ | ⟨g, -⟩ | ⟨-, x, hx, rfl⟩
        · rw [m2] at g; exact absurd g (by decide)
        · rw [m2] at g; exact absurd g (by decide)
        · rw [if_neg (by decide)] at m3
          rw [m3] at hx
          have := builtin_under (orderly_of ho) (k := 40) (by decide +kernel) (by decide +kernel) hx
          rw [e2] at this
          cases this
          exact m1
    | _ => rw [hp] at hx; cases hx

/-- C157 without the condition that no two types have the same Go name. -/
def C157_full : Prop :=
  ∀ (env : Env) (srt srt' : Sorter strLt) (n : Nat) (parse : List Doc → Outcome (List Schema × THeap)) (penv : ParseEnv) (ord : MapOrder)
    (roots : List Element) (cfg : Config) (docs : List Doc) (schemas : List Schema) (H : THeap),
    parse docs = parseSchemas penv ord roots → parseSchemas penv ord roots = .ok (schemas, H) → Orderly roots → Regular roots → Derivable roots →
    Untouched cfg H schemas → Unaltered cfg → (wanted cfg docs).Nodup →
    (∀ x ∈ wanted cfg docs, ∃ r ∈ roots, target r = x) → H.length + 3 ≤ n →
    ∃ cfg' H' code, genCode env srt n parse cfg docs = (cfg', .done (.ok (H', code))) ∧
      ∀ r ∈ roots, target r ∈ wanted cfg docs → ∀ e ∈ allNamed r w3cSchemaNS b!"simpleType", ∀ el, schemaKids e = [el] → Refined e →
        Selected cfg (defines (target r) e) → (defines (target r) e).loc ≠ [] →
        (∀ k helper, get (addStandardHelpers cfg).helperTypes k = some helper → helper.name ≠ publicName env cfg (defines (target r) e)) →
        ∃ doc d, GoDecl.type doc (publicName env cfg (defines (target r) e)) d ∈ (genAST srt' code).2 ∧ DeclaredAs roots el d

/-- A list and a union whose Go names are the same. -/
def pairDoc : Str :=
  b!"<xs:schema xmlns:xs=\"http://www.w3.org/2001/XMLSchema\" xmlns=\"urn:u\" targetNamespace=\"urn:u\">" ++
  b!"<xs:simpleType name=\"t\"><xs:list itemType=\"xs:int\"/></xs:simpleType>" ++
  b!"<xs:simpleType name=\"T\"><xs:union memberTypes=\"xs:int\"/></xs:simpleType></xs:schema>"

def pairRoots : Option (List Element) := (parseDocs [pairDoc]).bind (normalize doubling 40)

def pairTypes : Option (List Element × List Schema × THeap) := pairRoots.bind fun roots =>
  match parseSchemas testEnv Xsd.inOrder roots with
  | .ok r => some (roots, r)
  | _ => none

def isSlice : DeclExpr → Bool
  | .plain (.array _) => true
  | _ => false

/-- The generated declarations, and whether they are slices. -/
def pairDecls (roots : List Element) : Option (List (Str × Bool)) :=
  match genCode asciiEnv (Sorter.byKey fun s => s) 10 (fun _ => parseSchemas testEnv Xsd.inOrder roots) { namespaces := [b!"urn:u"] } [] with
  | (_, .done (.ok r)) => some ((declaredExprs (genAST (Sorter.byKey fun s => s) r.2).2).map fun x => (x.1, isSlice x.2))
  | _ => none

/-- C157 is false as it stands: of two types with the same Go name one has no declaration of its own. -/
theorem C157_refuted : ¬ C157_full := by
  intro hfull
  have : pairTypes.map (fun (x : List Element × List Schema × THeap) => orderlyOk x.1 && regularOk x.1 && derivableOk ordersRank ordersUnlisted x.1 &&
      decide (∀ n ∈ [b!"urn:u"], ∃ r ∈ x.1, target r = n) && decide (x.2.2.length + 3 ≤ 10) &&
      ((simpleIn x.1 ⟨b!"urn:u", b!"t"⟩).any fun y => decide (y.2.2.name.loc = b!"list")) &&
      (addStandardHelpers { namespaces := [b!"urn:u"] }).helperTypes.all (fun h => decide (h.2.name ≠ b!"T")) &&
      decide (pairDecls x.1 = some [(b!"T", false)])) = some true := by
    decide +kernel
  obtain ⟨⟨roots, schemas, H⟩, hx, h⟩ := Option.map_eq_some_iff.mp this
  simp only [Bool.and_eq_true] at h
  obtain ⟨⟨⟨⟨⟨⟨⟨ho, hr⟩, hd⟩, hf⟩, hl⟩, ht⟩, hh⟩, hdecls⟩ := h
  have hf := of_decide_eq_true hf
  have hl := of_decide_eq_true hl
  have hdecls := of_decide_eq_true hdecls
  cases hroots : pairRoots with
  | none => rw [pairTypes, hroots] at hx; cases hx
  | some roots' =>
    rw [pairTypes, hroots] at hx
    dsimp only [Option.bind_some] at hx
    cases hp : parseSchemas testEnv Xsd.inOrder roots' with
    | ok r =>
      rw [hp] at hx
      cases hx
      obtain ⟨cfg', H', code, hg, hall⟩ := hfull asciiEnv (Sorter.byKey fun s => s) (Sorter.byKey fun s => s) 10
        (fun _ => parseSchemas testEnv Xsd.inOrder roots) testEnv Xsd.inOrder roots { namespaces := [b!"urn:u"] } [] schemas H rfl hp (orderly_of ho)
        (regular_of hr) (derivable_of hd) (untouched_none rfl) (unaltered_none rfl) (by decide : [b!"urn:u"].Nodup) hf hl
      cases hin : simpleIn roots ⟨b!"urn:u", b!"t"⟩ with
      | none => rw [hin] at ht; cases ht
      | some y =>
        obtain ⟨r, e, el⟩ := y
        obtain ⟨hr', he, hn, hk, href⟩ := simpleIn_spec hin
        rw [hin] at ht
        have hloc : el.name.loc = b!"list" := of_decide_eq_true ht
        have hsp := (orderly_of ho).spaces r hr' _ (Or.inl (List.mem_append_left _ (List.mem_map_of_mem (List.mem_append_right _ he))))
        rw [hn] at hsp
        have hpub : publicName asciiEnv { namespaces := [b!"urn:u"] } ⟨b!"urn:u", b!"t"⟩ = b!"T" := by decide +kernel
        obtain ⟨doc, d, hdecl, has⟩ := hall r hr' (by rw [← hsp]; exact List.mem_singleton_self _) e he el hk href
          ⟨fun m e => (nomatch e), fun f e => (nomatch e)⟩ (by rw [hn]; decide) (by
            intro k helper hk
            rw [hn, hpub]
            exact of_decide_eq_true (List.all_eq_true.mp hh _ (get_some_mem hk)))
        have hslice : isSlice d = true := by
          rcases has with ⟨-, x, -, rfl⟩ | ⟨g, -⟩ | ⟨g, -⟩
          · rfl
          · rw [hloc] at g; exact absurd g (by decide)
          · rw [hloc] at g; exact absurd g (by decide)
        unfold pairDecls at hdecls
        rw [hg] at hdecls
        dsimp only at hdecls
        have hmem : (b!"T", isSlice d) ∈ [(b!"T", false)] := by
          rw [← Option.some.inj hdecls]
          refine List.mem_map.mpr ⟨(b!"T", d), List.mem_filterMap.mpr ⟨_, hdecl, ?_⟩, rfl⟩
          rw [hn, hpub]
        rw [hslice] at hmem
        revert hmem
        decide
    | _ => rw [hp] at hx; cases hx

end GoXml.Xsdgen
