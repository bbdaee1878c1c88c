import Verif.Proofs.XsdPanic
import Verif.Props.XsdSchema
import Verif.Props.XsdMixed
set_option autoImplicit false

/-! Helper lemmas: when the order in which maps are visited does not matter. -/

namespace GoXml.Xsd
open Wsdl (attrNamed allNamed searchEl below defines refersTo)

theorem collectTypes_mem (H : THeap) (ts : List Ty) : ∀ (m : GoMap XName Ty) (n : XName),
    m.get n ≠ none ∨ (∃ t ∈ ts, xmlName H t = n) → (collectTypes H m ts).get n ≠ none := by
  induction ts with
  | nil => intro m n h; simpa [collectTypes] using h
  | cons u ts ih =>
    intro m n h
    rw [collectTypes]
    apply ih
    rw [GoMap.get_set]
    by_cases hu : xmlName H u = n
    · left; rw [if_pos hu]; simp
    · rw [if_neg hu]
      rcases h with h | ⟨t, ht, hn⟩
      · exact Or.inl h
      · rcases List.mem_cons.mp ht with rfl | ht
        · exact absurd hn hu
        · exact Or.inr ⟨t, ht, hn⟩

theorem collectAll_mem (ord : MapOrder) (H : THeap) (ss : List Schema) : ∀ (m : GoMap XName Ty) (j : Nat) (n : XName),
    m.get n ≠ none ∨ (∃ s ∈ ss, ∃ t ∈ s.types.map (·.2), xmlName H t = n) → (collectAll ord H m j ss).get n ≠ none := by
  induction ss with
  | nil => intro m j n h; simpa [collectAll] using h
  | cons s ss ih =>
    intro m j n h
    rw [collectAll]
    apply ih
    rcases h with h | ⟨s', hs', t, ht, hn⟩
    · exact Or.inl (collectTypes_mem H _ m n (Or.inl h))
    · rcases List.mem_cons.mp hs' with rfl | hs'
      · exact Or.inl (collectTypes_mem H _ m n (Or.inr ⟨t, (ord.perm 1 j _).mem_iff.mpr ht, hn⟩))
      · exact Or.inr ⟨s', hs', t, ht, hn⟩

/-- Types of the parsed schemas have distinct names. -/
def DistinctNames (p0 : GoMap Str Schema) (H0 : THeap) : Prop :=
  ∀ k s n t k' s' n' t', p0.get k = some s → s.types.get n = some t → p0.get k' = some s' → s'.types.get n' = some t' →
    xmlName H0 t = xmlName H0 t' → t = t'

theorem ext_order {ord ord' : MapOrder} {p0 : GoMap Str Schema} {H0 : THeap} (hp : Parsed p0 H0) (hd : DistinctNames p0 H0) (n : XName) :
    (extOf ord p0 H0).get n = (extOf ord' p0 H0).get n := by
  have key : ∀ (o o' : MapOrder) t, (extOf o p0 H0).get n = some t → (extOf o' p0 H0).get n = some t := by
    intro o o' t ht
    obtain ⟨hn, k, s, n', hk, hs⟩ := ext_good hp ht
    have : (extOf o' p0 H0).get n ≠ none := by
      apply collectAll_mem
      refine Or.inr ⟨s, (o'.perm 0 0 _).mem_iff.mpr (List.mem_map.mpr ⟨(k, s), GoMap.get_some_mem hk, rfl⟩), t,
        List.mem_map.mpr ⟨(n', t), GoMap.get_some_mem hs, rfl⟩, hn.symm⟩
    obtain ⟨t', ht'⟩ := Option.ne_none_iff_exists'.mp this
    obtain ⟨hn2, k2, s2, n2, hk2, hs2⟩ := ext_good hp ht'
    rw [ht', hd k s n' t k2 s2 n2 t' hk hs hk2 hs2 (hn.symm.trans hn2)]
  cases h : (extOf ord p0 H0).get n with
  | some t => exact (key ord ord' t h).symm
  | none =>
    cases h' : (extOf ord' p0 H0).get n with
    | none => rfl
    | some t => rw [key ord' ord t h'] at h; cases h

theorem lookupType_congr {own ext ext' : GoMap XName Ty} (h : ∀ n, ext.get n = ext'.get n) : lookupType own ext = lookupType own ext' := by
  funext n
  unfold lookupType
  rw [h n]

theorem addAliases_congr {tns : Str} {ext ext' : GoMap XName Ty} (h : ∀ n, ext.get n = ext'.get n) (els : List Element) :
    ∀ types, addAliases tns ext types els = addAliases tns ext' types els := by
  induction els with
  | nil => intro types; rfl
  | cons el els ih =>
    intro types
    simp only [addAliases, lookupType_congr h, ih]

/-- Once a base is not a link, it stays. -/
theorem finishRoots_bases {ord : MapOrder} {p0 : GoMap Str Schema} {H0 : THeap} (hp : Parsed p0 H0) {roots : List Element} (rs : List Element) :
    ∀ (done : List Str) (parsed : GoMap Str Schema) (H : THeap) (j : Nat) (parsed' : GoMap Str Schema) (H' : THeap),
    (∀ r ∈ rs, r ∈ roots ∧ p0.get (target r) ≠ none) → Inv p0 H0 roots done parsed H →
    finishRoots ord (extOf ord p0 H0) parsed H j rs = .ok (parsed', H') →
    H'.length = H.length ∧ ∀ (id : Nat) o b, H[id]? = some o → o.base = b → (∀ n, b ≠ some (.link n)) → ∃ o', H'[id]? = some o' ∧ o'.base = b := by
  classical
  induction rs with
  | nil =>
    intro done parsed H j parsed' H' _ hi h
    simp only [finishRoots, Outcome.ok.injEq, Prod.mk.injEq] at h
    obtain ⟨rfl, rfl⟩ := h
    exact ⟨rfl, fun id o b ho hb _ => ⟨o, ho, hb⟩⟩
  | cons r rs ih =>
    intro done parsed H j parsed' H' hrs hi h
    rw [finishRoots] at h
    simp only [Wsdl.attr_eq] at h
    split at h
    · cases h
    · rename_i H1 h1
      split at h
      · cases h
      · rename_i types h2
        split at h
        · cases h
        · rename_i H2 h3
          have i1 := inv_resolve (ord := ord) hp hi _ _ rfl _ (ord.perm 2 j _) h1
          obtain ⟨i2, _⟩ := inv_aliases hp i1 r (hrs r (by simp)).1 _ (hrs r (by simp)).2 rfl types h2
          have hsame := propagateAll_same _ _ _ h3
          have i3 := inv_same i2 hsame
          obtain ⟨l, hb⟩ := ih _ _ _ _ _ _ (fun r' hr' => hrs r' (by simp [hr'])) i3 h
          have hlk : ∀ n t, lookupType ((parsed.get (target r)).getD {}).types (extOf ord p0 H0) n = some t → t.isLink = false := by
            intro n t ht
            refine good_not_link hp (lookupType_good hp ?_ n t ht)
            intro n t hn
            cases hg : parsed.get (target r) with
            | none => rw [hg] at hn; cases hn
            | some s' => rw [hg] at hn; exact hi.vals _ _ hg n t hn
          obtain ⟨l1, s1⟩ := resolveTypes_some _ hlk _ H H1 h1
          refine ⟨by rw [l, hsame.1, l1], ?_⟩
          intro id o b ho hob hnl
          have ho1 := s1 id o ho
          obtain ⟨m, ho2⟩ := hsame.2 id _ ho1
          refine hb id _ b ho2 ?_ hnl
          rw [withMixed_base]
          split
          · have : (o.mapTy (linkTo (lookupType ((parsed.get (target r)).getD {}).types (extOf ord p0 H0)))).base =
                o.base.map (linkTo (lookupType ((parsed.get (target r)).getD {}).types (extOf ord p0 H0))) := by cases o <;> rfl
            refine this.trans ?_
            rw [hob]
            cases b with
            | none => rfl
            | some t =>
              rw [Option.map_some, linkTo_of_not_link]
              cases t with
              | link n => exact absurd rfl (hnl n)
              | builtin b => rfl
              | obj i => rfl
          · exact hob

theorem chain_back {G : Ty → Prop} {H H' : THeap} (hc : BaseClosed G H)
    (hb : ∀ (id : Nat) o b, H[id]? = some o → o.base = b → (∀ n, b ≠ some (.link n)) → ∃ o', H'[id]? = some o' ∧ o'.base = b)
    {n : Nat} {t : Ty} (h : Chain H' n t) : G t → Chain H n t := by
  induction h with
  | builtin n b => intro _; exact .builtin n b
  | @last n id o ho hn =>
    intro hG
    obtain ⟨o1, ho1, hcl⟩ := (hc _ hG).2 id rfl
    cases hbase : o1.base with
    | none => exact .last ho1 hbase
    | some b =>
      exfalso
      obtain ⟨o', ho', hb'⟩ := hb id o1 _ ho1 hbase (by
        intro n he
        cases he
        have := (hc _ (hcl _ hbase)).1
        cases this)
      rw [ho] at ho'; cases ho'
      rw [hn] at hb'; cases hb'
  | @step n id o b ho hbo _ ih =>
    intro hG
    obtain ⟨o1, ho1, hcl⟩ := (hc _ hG).2 id rfl
    cases hbase : o1.base with
    | none =>
      exfalso
      obtain ⟨o', ho', hb'⟩ := hb id o1 _ ho1 hbase (by simp)
      rw [ho] at ho'; cases ho'
      rw [hbo] at hb'; cases hb'
    | some b1 =>
      obtain ⟨o', ho', hb'⟩ := hb id o1 _ ho1 hbase (by
        intro n he
        cases he
        have := (hc _ (hcl _ hbase)).1
        cases this)
      rw [ho] at ho'; cases ho'
      rw [hbo] at hb'; cases hb'
      exact .step ho1 hbase (ih (hcl _ hbase))

/-- In a schema with a target namespace, types are entered under their names. -/
theorem parseTypes_names {env : ParseEnv} {r : Element} {Hr Hr' H0 : THeap} {s : Schema} (h : parseTypes env r Hr = some (s, Hr'))
    (hpre : Hr' <+: H0) (ht : target r ≠ []) {n : XName} {t : Ty} (hn : s.types.get n = some t) : xmlName H0 t = n ∧ HasType r n := by
  obtain ⟨os, self, ho1, ho2, rfl, hs4, hs5⟩ := parseTypes_eq h
  obtain ⟨hlen, hget⟩ := List.forall₂_iff_get.mp ((mapOpt_some_iff _ _ _).mp ho1)
  rw [hs5, get_enter] at hn
  obtain ⟨j, hj1, _, hid⟩ := hn
  cases hid
  have hlt := (List.getElem?_eq_some_iff.mp hj1).1
  simp only [List.length_append, List.length_map, List.length_singleton] at hlt
  obtain ⟨rest, rfl⟩ := hpre
  by_cases hj : j < os.length
  · rw [List.getElem?_append_left (by simpa using hj), List.getElem?_map, List.getElem?_eq_getElem hj] at hj1
    simp only [Option.map_some, Option.some.injEq] at hj1
    refine ⟨?_, Or.inl ⟨_, List.getElem_mem _, hj1.symm.trans (parseDecl_header (hget j (by omega) hj)).1⟩⟩
    simp only [xmlName]
    rw [List.append_assoc, List.append_assoc, List.getElem?_append_right (by omega), Nat.add_sub_cancel_left,
        List.getElem?_append_left hj, List.getElem?_eq_getElem hj]
    exact hj1
  · have : j = os.length := by omega
    subst this
    obtain ⟨h1, _⟩ := selfTree_header ho2
    rw [if_pos ht] at h1
    rw [List.getElem?_append_right (by simp)] at hj1
    simp at hj1
    have hn : n = selfName r := hj1.symm
    subst hn
    refine ⟨?_, Or.inr (by rw [if_pos ht])⟩
    simp only [xmlName]
    rw [List.append_assoc, List.append_assoc, List.getElem?_append_right (by omega), Nat.add_sub_cancel_left,
        List.getElem?_append_right (by omega), Nat.sub_self]
    exact h1

theorem distinctNames_of_plain {env : ParseEnv} {roots : List Element} {p0 : GoMap Str Schema} {H0 : THeap}
    (h0 : parseRoots env [] [] roots = some (p0, H0))
    (hplain : ∀ r ∈ roots, target r ≠ [] ∧ ∀ e ∈ typeDecls r, (58 : UInt8) ∉ attrNamed e b!"name") : DistinctNames p0 H0 := by
  obtain ⟨hp, _, hout, hin⟩ := parsed_roots roots parsed_nil h0
  have key : ∀ k s n t, p0.get k = some s → s.types.get n = some t → xmlName H0 t = n ∧ n.space = k := by
    intro k s n t hk hn
    have hm : k ∈ roots.map target := by
      by_contra hm
      have := hout k hm
      rw [hk] at this; cases this
    obtain ⟨r, hr, rfl, s', Hr, Hr', hs', hpt, hpre⟩ := hin k hm
    have : s' = s := Option.some.inj (hs'.symm.trans hk)
    subst this
    obtain ⟨h1, h2⟩ := parseTypes_names hpt hpre (hplain r hr).1 hn
    refine ⟨h1, ?_⟩
    rcases h2 with ⟨e, he, rfl⟩ | h2
    · unfold defines
      rw [if_pos ⟨(hplain r hr).1, (hplain r hr).2 e he⟩]
    · rw [if_pos (hplain r hr).1] at h2
      rw [h2]; rfl
  intro k s n t k' s' n' t' hk hn hk' hn' he
  obtain ⟨h1, h2⟩ := key k s n t hk hn
  obtain ⟨h3, h4⟩ := key k' s' n' t' hk' hn'
  have hnn : n = n' := by rw [← h1, ← h3, he]
  subst hnn
  have : k = k' := by rw [← h2, ← h4]
  subst this
  rw [hk] at hk'; cases hk'
  rw [hn] at hn'; cases hn'
  rfl

theorem finishRoots_order {env : ParseEnv} {ord ord' : MapOrder} {roots : List Element} {p0 : GoMap Str Schema} {H0 : THeap}
    (h0 : parseRoots env [] [] roots = some (p0, H0)) (hnd : (roots.map target).Nodup) (hord : InOrder roots) (hdn : DistinctNames p0 H0)
    (rs : List Element) :
    ∀ (pre : List Element) (done : List Str) (parsed : GoMap Str Schema) (H : THeap) (j : Nat) (parsed' : GoMap Str Schema) (H' : THeap),
      roots = pre ++ rs → Inv p0 H0 roots done parsed H →
      Inv2 p0 H0 (pre.map target) parsed H → finishRoots ord (extOf ord p0 H0) parsed H j rs = .ok (parsed', H') →
      (∀ id < H'.length, Chain H' 1001 (.obj id)) →
      finishRoots ord' (extOf ord' p0 H0) parsed H j rs = .ok (parsed', H') := by
  obtain ⟨hp, _, _, hin⟩ := parsed_roots roots parsed_nil h0
  have hsome : ∀ r ∈ roots, p0.get (target r) ≠ none := by
    intro r hr
    obtain ⟨_, _, _, s, _, _, hs, _⟩ := hin _ (List.mem_map.mpr ⟨r, hr, rfl⟩)
    rw [hs]; simp
  induction rs with
  | nil => intro pre done parsed H j parsed' H' _ _ _ h _; exact h
  | cons r rs ih =>
    intro pre done parsed H j parsed' H' hroots hi hi2 h hch
    have hrm : r ∈ roots := by rw [hroots]; simp
    obtain ⟨s0, hpg⟩ := inv2_get h0 hnd hroots hi2
    rw [finishRoots] at h ⊢
    simp only [Wsdl.attr_eq] at h ⊢
    rw [show attrNamed r b!"targetNamespace" = target r from rfl, hpg] at h ⊢
    simp only [Option.getD_some] at h ⊢
    have hext : ∀ n, (extOf ord p0 H0).get n = (extOf ord' p0 H0).get n := fun n => ext_order hp hdn n
    have hgown : ∀ n t, s0.types.get n = some t → Good p0 t := fun n t hn => hi.vals _ _ hpg n t hn
    have hres : resolveTypes (lookupType s0.types (extOf ord' p0 H0)) H (ord'.run 2 j (s0.types.map (·.2))) =
        resolveTypes (lookupType s0.types (extOf ord p0 H0)) H (ord.run 2 j (s0.types.map (·.2))) := by
      rw [lookupType_congr fun n => (hext n).symm]
      apply C37_order
      · intro n t ht; exact good_not_link hp (Or.inr (ext_good hp ht).2)
      · intro n t ht; exact good_not_link hp (hgown n t ht)
      · intro t ht
        obtain ⟨⟨n', t'⟩, hm', rfl⟩ := List.mem_map.mp ((ord'.perm 2 j _).mem_iff.mp ht)
        have hg := hgown n' t' (GoMap.get_of_mem (hi.wf _ _ hpg) hm')
        refine ⟨good_not_link hp hg, ?_⟩
        intro id he
        simp only at he
        subst he
        rw [hi.len]; exact good_addr hp hg
      · intro t
        rw [(ord'.perm 2 j _).mem_iff, (ord.perm 2 j _).mem_iff]
    rw [hres, ← addAliases_congr hext]
    split at h
    · cases h
    · rename_i H1 h1
      split at h
      · cases h
      · rename_i types h2
        obtain ⟨hclosed, htypes, hnext⟩ := inv2_step h0 hnd hord hroots hi2 hpg h1 h2
        split at h
        · cases h
        · rename_i H2 h3
          have i1 := inv_resolve (ord := ord) hp hi (target r) s0 (by rw [hpg]; rfl) _ (ord.perm 2 j _) h1
          obtain ⟨i2, _⟩ := inv_aliases hp i1 r hrm s0 (hsome r hrm) (by rw [hpg]; rfl) types h2
          have hsame := propagateAll_same _ _ _ h3
          have i3 := inv_same i2 hsame
          have hrs : ∀ r' ∈ rs, r' ∈ roots ∧ p0.get (target r') ≠ none := by
            intro r' hr'
            have : r' ∈ roots := by rw [hroots]; simp [hr']
            exact ⟨this, hsome r' this⟩
          obtain ⟨l, hb⟩ := finishRoots_bases hp rs _ _ _ _ _ _ hrs i3 h
          have hprop : propagateAll H1 (ord'.run 3 j (types.map (·.2))) = some H2 := by
            rw [← h3]
            apply C39_order
            · exact (ord'.perm 3 j _).trans (ord.perm 3 j _).symm
            · intro t ht
              have hin := htypes t ((ord'.perm 3 j _).mem_iff.mp ht)
              cases t with
              | builtin b => exact .builtin _ b
              | link n => have := good_not_link hp (inDone_good hin); cases this
              | obj id =>
                refine chain_back hclosed ?_ (hch id ?_) hin
                · intro id o b ho hob hnl
                  obtain ⟨m, hm⟩ := hsame.2 id o ho
                  exact hb id _ b hm (by rw [withMixed_base]; exact hob) hnl
                · rw [l, i3.len]; exact good_addr hp (inDone_good hin)
          rw [hprop]
          simp only
          exact ih (pre ++ [r]) _ _ _ _ _ _ (by rw [hroots]; simp) i3 (hnext H2 hsame) h hch

end GoXml.Xsd
