import Verif.Proofs.XsdgenGiven
import Verif.Props.XsdgenEnds
import Verif.Props.XsdgenSimple
set_option autoImplicit false

/-! C158: when `GenCode` gives an error. -/

namespace GoXml.Xsdgen
open Xsd GoMap
open Wsdl (attrNamed allNamed below defines refersTo)

theorem BuiltinUnder.ancestor {H : THeap} {t : Ty} {b : Builtin} (h : BuiltinUnder H t b) : Ancestor H t (.builtin b) := by
  induction h with
  | here b => exact .self _
  | step hb _ ih => exact .base hb ih

/-- If code is generated for a list, it is a list of items of a built-in type that there is a codec for. -/
theorem gen_codec {env : Env} {srt : Sorter strLt} {cfg : Config} {n : Nat} {primaries deps : List Schema} {H : THeap} {r : THeap × Code × Config}
    (hpre : Untouched cfg H primaries) (hl : Linked H) (hown : OwnNames H) (htop : ∀ s ∈ primaries, ∀ e ∈ s.types, ∀ m, e.2 ≠ .link m)
    (hg : gen env srt cfg n primaries deps H = .ok r) {s : Schema} (hs : s ∈ primaries) {k : XName} {id : Nat} (he : (k, Ty.obj id) ∈ s.types)
    {t : SimpleT} (ht : H[id]? = some (.simple t)) (hlist : t.list = true) (hsk : skipped cfg t.name = false)
    (hone : ∀ j, xmlName H (.obj j) = t.name → j = id) :
    ∃ b codec, BuiltinUnder H (.obj id) b ∧ listCodec b = some codec ∧ codec ≠ .bools := by
  rw [gen_untouched hpre] at hg
  obtain ⟨q, hq, hg⟩ := bind_ok hg
  split at hg
  · cases hg
  · rename_i hflag
    obtain ⟨G, r', hk, ⟨s1, hs1, hflat⟩, hr'⟩ := genSchemas_given _ H q t hl (.refl _ H) hown (by
      intro types ht t htt
      obtain ⟨s, hs, rfl⟩ := List.mem_map.mp ht
      obtain ⟨e, he, rfl⟩ := List.mem_map.mp htt
      have := htop s hs e he
      cases he2 : e.2 with
      | link m => exact absurd he2 (this m)
      | _ => trivial) ht (Or.inl hlist) hsk hone hq (by simpa using hflag) _ (List.mem_map.mpr ⟨s, hs, rfl⟩) (List.mem_map.mpr ⟨_, he, rfl⟩)
    obtain ⟨o, ho, hko⟩ := hk.objs id _ hs1
    rw [ht] at ho
    cases ho
    obtain ⟨-, k2, -, -⟩ := hko
    have hl1 : s1.list = true := by rw [k2]; exact hlist
    simp only [genTypeSpec, hs1] at hr'
    obtain ⟨ss, hss, -⟩ := bind_ok hr'
    cases hb : s1.base with
    | none =>
      simp only [genSimpleType, hl1, if_true, genSimpleListSpec, hb] at hss
      cases hss
    | some t1 =>
      obtain ⟨b, rfl⟩ := hflat t1 hb
      obtain ⟨item, codec, -, h2, h3, -⟩ := genSimpleType_list hl1 hb hss
      have hbelow : Below H id (.builtin b) := hk.bases.some_ id _ (by simp only [baseOf, hs1]; exact hb)
      exact ⟨b, codec, hbelow.builtinUnder (fun e => by subst e; cases h2), h2, h3⟩

/-- There are codecs for the types that xsdgen makes lists of only. -/
theorem codec_listed (b : Builtin) (hb : InSchema b) {codec : ListCodec} (h : listCodec b = some codec) (hne : codec ≠ .bools) :
    (builtinName b).loc ∉ unlisted := by
  have key : ∀ i ∈ List.range 50, (listCodec (Int.ofNat i)).all (fun c => decide (c = .bools)) = true ∨ (builtinName (Int.ofNat i)).loc ∉ unlisted := by
    decide +kernel
  obtain ⟨i, rfl⟩ := Int.eq_ofNat_of_zero_le hb.1
  rcases key i (List.mem_range.mpr (Int.ofNat_lt.mp hb.2.1)) with h1 | h1
  · rw [show listCodec (Int.ofNat i) = some codec from h] at h1
    exact absurd (of_decide_eq_true h1) hne
  · exact h1

/-- C158: a selected list of items of a type that xsdgen makes no lists of is the reason for an error. -/
theorem C158_unlisted (env : Env) (srt : Sorter strLt) (n : Nat) (parse : List Doc → Outcome (List Schema × THeap)) (penv : ParseEnv)
    (ord : MapOrder) (roots : List Element) (cfg : Config) (docs : List Doc) (schemas : List Schema) (H : THeap)
    (hparse : parse docs = parseSchemas penv ord roots) (hp : parseSchemas penv ord roots = .ok (schemas, H)) (ho : Orderly roots)
    (hr : Regular roots) (hg : Grounded roots) (hpre : Untouched cfg H schemas) (hd : (wanted cfg docs).Nodup)
    (hf : ∀ x ∈ wanted cfg docs, ∃ r ∈ roots, target r = x) (hn : H.length + 3 ≤ n)
    (r e : Element) (hrr : r ∈ roots) (hns : target r ∈ wanted cfg docs) (he : e ∈ allNamed r w3cSchemaNS b!"simpleType")
    (hlist : ∃ c ∈ e.children, c.name = ⟨w3cSchemaNS, b!"list"⟩) (hsel : Selected cfg (defines (target r) e))
    (hloc : (defines (target r) e).loc ≠ [])
    (hun : ∀ b, InSchema b → ComesFrom roots (defines (target r) e) (builtinName b) → (builtinName b).loc ∈ unlisted) :
    ∃ cfg', genCode env srt n parse cfg docs = (cfg', .done .error) := by
  obtain ⟨hc, h2, -⟩ := parse_grounded ho hr hg hp
  rcases genCode_ends env srt (hparse.trans hp) hc hn h2 hpre (cfg := cfg)
    with ⟨cfg', ⟨H', code⟩, hgen⟩ | ⟨cfg', ns, -, hmiss⟩ | ⟨cfg', hgen, -⟩
  · exfalso
    rw [genCode_wanted] at hgen
    obtain ⟨s, hs, hst, id, t, f, m, hget, hid, htn, hpt, hf'⟩ := declared_simple ho hp hrr he
    obtain ⟨h1, h2, h3, -⟩ := parse_orderly ho hp
    have hself := simple_named ho hrr he
    have hname : xmlName H (.obj id) = defines (target r) e := by simp only [xmlName, hid]; exact htn
    obtain ⟨ns, primaries, r', hgn, -, -, -, hne, hmem⟩ := genCode_ok (hparse.trans hp) hgen
    have hns' : ns = wanted cfg docs := hne (fun e => by rw [show wanted cfg docs = [] from e] at hns; cases hns)
    have hlt : t.list = true := by
      obtain ⟨-, -, hl, -⟩ := C82_simple penv _ e t hpt
      obtain ⟨c, hc1, hc2⟩ := hlist
      exact hl.mpr (List.ne_nil_of_mem (a := c) (List.mem_filter.mpr ⟨hc1, decide_eq_true (by rw [hc2]; exact ⟨rfl, List.mem_singleton_self _⟩)⟩))
    obtain ⟨b, codec, hb, hcod, hne⟩ := gen_codec (cfg := addStandardHelpers { cfg with namespaces := ns }) (t := { t with base := t.base.map f, union := t.union.map f })
      (hpre.some_of fun s hs => ((hmem s).mp hs).1) h1.linked h2 (fun s hs => h3 s ((hmem s).mp hs).1) hgn ((hmem s).mpr ⟨hs, by rw [hns', hst]; exact hns⟩) (get_some_mem hget) hid hlt
      ((skipped_iff _ _).mpr ⟨by rw [htn]; exact hself, by rw [htn]; exact hsel⟩) (by
        intro j hj
        simp only [xmlName] at hj
        split at hj
        · rename_i o hjo
          exact hc.named j id _ _ hjo hid hj
        · rw [htn] at hj
          exact absurd (by rw [← hj]) hloc)
    have ha := hb.ancestor
    obtain ⟨-, hcf⟩ := ancestor_comes ho hr hg hp ha (by rw [hname]; exact hself)
    rw [hname] at hcf
    have hpres : Present H (.builtin b) := anc_present hc ha (Or.inr ⟨id, rfl, (List.getElem?_eq_some_iff.mp hid).1⟩)
    rcases hpres with ⟨i, e1, hi⟩ | ⟨j, e1, -⟩
    · cases e1
      exact codec_listed b hi hcod hne (hun b hi hcf)
    · cases e1
  · obtain ⟨l, hl, -⟩ := selectSchemas_found (ss := schemas) hd (by
      intro x hx
      obtain ⟨r, hr', rfl⟩ := hf x hx
      obtain ⟨s, hs, hn, -⟩ := parse_linked ho.targets ho.types ho.unnamed hp r hr'
      exact ⟨s, hs, hn⟩)
    rw [hl] at hmiss
    cases hmiss
  · exact ⟨cfg', hgen⟩

/-- The list of booleans meets the conditions: there is an error. -/
example : ∃ roots schemas H, Orderly roots ∧ Regular roots ∧ Grounded roots ∧ parseSchemas testEnv Xsd.inOrder roots = .ok (schemas, H) ∧
    ∀ env srt, ∃ cfg', genCode env srt 6 (fun _ => parseSchemas testEnv Xsd.inOrder roots) { namespaces := [b!"urn:u"] } [] = (cfg', .done .error) := by
  have : (typesOf switchesDoc).map (fun (x : List Element × List Schema × THeap) => orderlyOk x.1 && regularOk x.1 &&
      groundedOk (fun n => if n.space = w3cSchemaNS then 0 else if n.loc = b!"S" then 1 else 2) x.1 && decide (x.2.2.length = 3) &&
      (x.1.any fun r => decide (target r = b!"urn:u") && (allNamed r w3cSchemaNS b!"simpleType").any fun e => decide (defines (target r) e = ⟨b!"urn:u", b!"S"⟩) &&
        e.children.any fun c => decide (c.name = ⟨w3cSchemaNS, b!"list"⟩)) &&
      x.1.all fun r => (typeDecls r).all fun e => (derivedNames e).all fun n =>
        decide (defines (target r) e = ⟨b!"urn:u", b!"S"⟩ → n = ⟨w3cSchemaNS, b!"boolean"⟩)) = some true := by decide +kernel
  obtain ⟨⟨roots, schemas, H⟩, hx, h⟩ := Option.map_eq_some_iff.mp this
  simp only [Bool.and_eq_true, List.any_eq_true, List.all_eq_true, decide_eq_true_eq] at h
  obtain ⟨⟨⟨⟨⟨h1, h2⟩, h3⟩, h4⟩, r, hr, ht, e, he, hd, c, hc, hn⟩, hall⟩ := h
  have hp := typesOf_parse hx
  refine ⟨roots, schemas, H, orderly_of h1, regular_of h2, grounded_of h3, hp, fun env srt => ?_⟩
  refine C158_unlisted env srt 6 _ testEnv Xsd.inOrder roots { namespaces := [b!"urn:u"] } [] schemas H rfl hp (orderly_of h1) (regular_of h2) (grounded_of h3)
    (untouched_none rfl) (by decide : [b!"urn:u"].Nodup) (fun x hx => ⟨r, hr, by rw [ht, List.mem_singleton.mp hx]⟩) (le_of_eq (by rw [h4])) r e hr
    (by rw [ht]; exact List.mem_singleton_self _) he ⟨c, hc, hn⟩ ⟨fun m e => (nomatch e), fun f e => (nomatch e)⟩ (by rw [hd]; decide) ?_
  intro b _ hcf
  rw [hd] at hcf
  generalize hm : (⟨b!"urn:u", b!"S"⟩ : XName) = m at hcf
  generalize hb : builtinName b = k at hcf
  cases hcf with
  | self =>
    exact absurd (hd.trans (hm.trans hb.symm)) ((orderly_of h1).own r hr _ (Or.inl (List.mem_append_left _ (List.mem_map_of_mem (List.mem_append_right _ he)))) b)
  | step hr' he' hd' hc' =>
    have := hall _ hr' _ he' _ (mem_derivedNames hd') hm.symm
    subst this
    generalize hq : (⟨w3cSchemaNS, b!"boolean"⟩ : XName) = q at hc'
    cases hc' with
    | self => subst hb; rw [← hq]; decide
    | step hr2 he2 _ _ =>
      exact absurd hq.symm (fun e => (orderly_of h1).own _ hr2 _ (Or.inl (List.mem_append_left _ (List.mem_map_of_mem he2))) 14 (e.trans rfl))

end GoXml.Xsdgen
