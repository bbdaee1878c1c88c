import Verif.Proofs.XsdDecl
set_option autoImplicit false

/-! Helper lemmas: schemas in order of dependency are linked without a panic. -/

namespace GoXml.Xsd
open Wsdl (attrNamed allNamed searchEl below defines refersTo)

/-- A built-in type or a type of a schema with one of the given target namespaces. -/
def InDone (p0 : GoMap Str Schema) (done : List Str) (t : Ty) : Prop :=
  (∃ b, t = .builtin b) ∨ ∃ k ∈ done, ∃ s n, p0.get k = some s ∧ s.types.get n = some t

theorem inDone_mono {p0 : GoMap Str Schema} {d d' : List Str} (h : ∀ k ∈ d, k ∈ d') {t : Ty} (ht : InDone p0 d t) : InDone p0 d' t := by
  rcases ht with ht | ⟨k, hk, h'⟩
  · exact Or.inl ht
  · exact Or.inr ⟨k, h k hk, h'⟩

theorem inDone_good {p0 : GoMap Str Schema} {d : List Str} {t : Ty} (ht : InDone p0 d t) : Good p0 t := by
  rcases ht with ht | ⟨k, hk, s, n, h'⟩
  · exact Or.inl ht
  · exact Or.inr ⟨k, s, n, h'⟩

structure Inv2 (p0 : GoMap Str Schema) (H0 : THeap) (done : List Str) (parsed : GoMap Str Schema) (H : THeap) : Prop where
  len : H.length = H0.length
  base : ∀ id, InDone p0 done (.obj id) → ∀ o, H[id]? = some o → ∀ b, o.base = some b → InDone p0 done b
  untouched : ∀ k, k ∉ done → parsed.get k = p0.get k
  fresh : ∀ (id : Nat) o0, H0[id]? = some o0 → ¬ InDone p0 done (.obj id) → ∃ m, H[id]? = some (o0.withMixed m)

/-- The objects of a parsed schema. -/
theorem parseTypes_objects {env : ParseEnv} {r : Element} {Hr Hr' H0 : THeap} {s : Schema} (h : parseTypes env r Hr = some (s, Hr'))
    (hpre : Hr' <+: H0) {n : XName} {id : Nat} (hn : s.types.get n = some (.obj id)) :
    ∃ o0, H0[id]? = some o0 ∧ HasType r o0.name ∧ ∀ m, o0.base = some (.link m) → NamesType r m := by
  obtain ⟨os, self, ho1, ho2, rfl, hs4, hs5⟩ := parseTypes_eq h
  obtain ⟨hlen, hget⟩ := List.forall₂_iff_get.mp ((mapOpt_some_iff _ _ _).mp ho1)
  rw [hs5, get_enter] at hn
  obtain ⟨j, hj1, _, hid⟩ := hn
  cases hid
  have hlt := (List.getElem?_eq_some_iff.mp hj1).1
  simp only [List.length_append, List.length_map, List.length_singleton] at hlt
  obtain ⟨rest, rfl⟩ := hpre
  by_cases hj : j < os.length
  · refine ⟨os[j], ?_, ?_, ?_⟩
    · rw [List.append_assoc, List.append_assoc, List.getElem?_append_right (by omega), Nat.add_sub_cancel_left,
        List.getElem?_append_left hj, List.getElem?_eq_getElem hj]
    · exact Or.inl ⟨_, List.getElem_mem _, (parseDecl_header (hget j (by omega) hj)).1⟩
    · intro m hm
      obtain ⟨d, hd, hd'⟩ := (parseDecl_header (hget j (by omega) hj)).2 m hm
      exact Or.inl ⟨d, below_below _ _ _ (typeDecls_below (List.getElem_mem _)) hd, hd'⟩
  · have : j = os.length := by omega
    subst this
    obtain ⟨h1, h2⟩ := selfTree_header ho2
    refine ⟨.complex self, ?_, Or.inr h1, fun m hm => Or.inr (Or.inr (h2 m hm))⟩
    rw [List.append_assoc, List.append_assoc, List.getElem?_append_right (by omega), Nat.add_sub_cancel_left,
        List.getElem?_append_right (by omega), Nat.sub_self]
    rfl

theorem not_done {roots pre rs : List Element} {r : Element} (hnd : (roots.map target).Nodup) (hroots : roots = pre ++ r :: rs) :
    target r ∉ pre.map target := by
  rw [hroots, List.map_append, List.nodup_append] at hnd
  intro hm
  exact hnd.2.2 _ hm _ (by simp) rfl

theorem inv2_get {env : ParseEnv} {roots : List Element} {p0 : GoMap Str Schema} {H0 : THeap}
    (h0 : parseRoots env [] [] roots = some (p0, H0)) (hnd : (roots.map target).Nodup)
    {pre rs : List Element} {r : Element} (hroots : roots = pre ++ r :: rs) {parsed : GoMap Str Schema} {H : THeap}
    (hi : Inv2 p0 H0 (pre.map target) parsed H) : ∃ s0, parsed.get (target r) = some s0 := by
  obtain ⟨_, _, _, hin⟩ := parsed_roots roots parsed_nil h0
  obtain ⟨_, _, _, s0, _, _, hs0, _⟩ := hin (target r) (List.mem_map.mpr ⟨r, by rw [hroots]; simp, rfl⟩)
  exact ⟨s0, by rw [hi.untouched _ (not_done hnd hroots)]; exact hs0⟩

/-- One round: names that the schema uses are types of this schema or an earlier one. -/
theorem inv2_step {env : ParseEnv} {ord : MapOrder} {roots : List Element} {p0 : GoMap Str Schema} {H0 : THeap}
    (h0 : parseRoots env [] [] roots = some (p0, H0)) (hnd : (roots.map target).Nodup) (hord : InOrder roots)
    {pre rs : List Element} {r : Element} (hroots : roots = pre ++ r :: rs) {parsed : GoMap Str Schema} {H H1 : THeap} {j : Nat}
    (hi : Inv2 p0 H0 (pre.map target) parsed H) {s0 : Schema} (hpg : parsed.get (target r) = some s0) {types : GoMap XName Ty}
    (hres : resolveTypes (lookupType s0.types (extOf ord p0 H0)) H (ord.run 2 j (s0.types.map (·.2))) = some H1)
    (hal : addAliases s0.targetNS (extOf ord p0 H0) s0.types r.children = some types) :
    BaseClosed (InDone p0 (target r :: pre.map target)) H1 ∧
    (∀ t ∈ types.map (·.2), InDone p0 (target r :: pre.map target) t) ∧
    ∀ H2, SameButMixed H1 H2 →
      Inv2 p0 H0 ((pre ++ [r]).map target) (parsed.set (target r) { s0 with types := types }) H2 := by
  classical
  obtain ⟨hp, _, hout, hin⟩ := parsed_roots roots parsed_nil h0
  -- every object of a schema comes from the root with that target namespace
  have hobj : ∀ r ∈ roots, ∀ s n id, p0.get (target r) = some s → s.types.get n = some (.obj id) →
      ∃ o0, H0[id]? = some o0 ∧ HasType r o0.name ∧ ∀ m, o0.base = some (.link m) → NamesType r m := by
    intro r hr s n id hs hn
    obtain ⟨r', hr', he, s', Hr, Hr', hs', hpt, hpre⟩ := hin (target r) (List.mem_map.mpr ⟨r, hr, rfl⟩)
    have := List.inj_on_of_nodup_map hnd hr hr' he
    subst this
    have : s' = s := Option.some.inj (hs'.symm.trans hs)
    subst this
    exact parseTypes_objects hpt hpre hn
  have hkey : ∀ k s, p0.get k = some s → ∃ r ∈ roots, k = target r := by
    intro k s hk
    by_contra hcon
    have : k ∉ roots.map target := by
      intro hm
      obtain ⟨r, hr, he⟩ := List.mem_map.mp hm
      exact hcon ⟨r, hr, he.symm⟩
    have := hout k this
    rw [hk] at this; cases this
  have hrm : r ∈ roots := by rw [hroots]; simp
  have hridx : roots[pre.length]? = some r := by rw [hroots]; simp
  have hnotin : target r ∉ pre.map target := by
    rw [hroots, List.map_append, List.nodup_append] at hnd
    intro hm
    exact hnd.2.2 _ hm _ (by simp) rfl
  have hs0 : p0.get (target r) = some s0 := by rw [← hi.untouched _ hnotin]; exact hpg
  -- a name that this schema uses means a type of this schema or an earlier one
  have hlook : ∀ own : GoMap XName Ty, (∀ n t, own.get n = some t → InDone p0 (target r :: pre.map target) t) →
      ∀ n, NamesType r n → ∀ t, lookupType own (extOf ord p0 H0) n = some t → InDone p0 (target r :: pre.map target) t := by
    intro own hown n hn t ht
    unfold lookupType at ht
    split at ht
    · cases ht; exact Or.inl ⟨_, rfl⟩
    · split at ht
      · rename_i t' ht'
        cases ht
        obtain ⟨hname, k, s, n', hk, hn'⟩ := ext_good hp ht'
        obtain ⟨rj, hrj, rfl⟩ := hkey k s hk
        obtain ⟨id, rfl, _⟩ := hp.addr _ _ _ _ hk hn'
        obtain ⟨o0, ho0, hht, _⟩ := hobj rj hrj s n' id hk hn'
        have hxn : n = o0.name := by rw [hname]; simp only [xmlName, ho0]
        obtain ⟨jx, hjx⟩ := List.mem_iff_getElem?.mp hrj
        have hle : ¬ pre.length < jx := fun hlt => hord _ _ r rj hlt hridx hjx n hn (hxn ▸ hht)
        refine Or.inr ⟨target rj, ?_, s, n', hk, hn'⟩
        rcases Nat.lt_or_ge jx pre.length with hlt | hge
        · rw [hroots, List.getElem?_append_left hlt] at hjx
          exact List.mem_cons_of_mem _ (List.mem_map.mpr ⟨rj, List.mem_of_getElem? hjx, rfl⟩)
        · have : jx = pre.length := by omega
          subst this
          rw [hridx] at hjx
          cases hjx
          exact List.mem_cons_self
      · exact hown n t ht
  have hown : ∀ n t, s0.types.get n = some t → InDone p0 (target r :: pre.map target) t :=
    fun n t hn => Or.inr ⟨target r, List.mem_cons_self, s0, n, hs0, hn⟩
  have hlk : ∀ n t, lookupType s0.types (extOf ord p0 H0) n = some t → t.isLink = false := fun n t ht =>
    good_not_link hp (lookupType_good hp (fun n t hn => inDone_good (hown n t hn)) n t ht)
  obtain ⟨r1, r2⟩ := resolveTypes_some _ hlk _ H H1 hres
  have hmem : ∀ id, Ty.obj id ∈ ord.run 2 j (s0.types.map (·.2)) ↔ ∃ n, s0.types.get n = some (.obj id) := by
    intro id
    rw [(ord.perm 2 j _).mem_iff, List.mem_map]
    constructor
    · rintro ⟨⟨n, t⟩, hm, rfl⟩
      exact ⟨n, GoMap.get_of_mem (hp.typesWF _ _ hs0) hm⟩
    · rintro ⟨n, hn⟩
      exact ⟨(n, .obj id), GoMap.get_some_mem hn, rfl⟩
  have back : ∀ (id : Nat) o, H1[id]? = some o → ∃ o', H[id]? = some o' ∧
      o = if Ty.obj id ∈ ord.run 2 j (s0.types.map (·.2)) then o'.mapTy (linkTo (lookupType s0.types (extOf ord p0 H0))) else o' := by
    intro id o ho
    have hlt : id < H.length := by rw [← r1]; exact (List.getElem?_eq_some_iff.mp ho).1
    refine ⟨_, List.getElem?_eq_getElem hlt, ?_⟩
    have := r2 id _ (List.getElem?_eq_getElem hlt)
    rw [ho] at this
    cases this; rfl
  have mapBase : ∀ (f : Ty → Ty) (o : TObj), (o.mapTy f).base = o.base.map f := by intro f o; cases o <;> rfl
  have i1 : Inv2 p0 H0 (target r :: pre.map target) (parsed.set (target r) s0) H1 := by
    refine ⟨by rw [r1, hi.len], ?_, ?_, ?_⟩
    · intro id hid o ho b hb
      obtain ⟨o', ho', rfl⟩ := back id o ho
      by_cases hdone : InDone p0 (pre.map target) (.obj id)
      · have hbase := hi.base id hdone o' ho'
        split at hb
        · rw [mapBase, Option.map_eq_some_iff] at hb
          obtain ⟨b', hb', rfl⟩ := hb
          have := hbase b' hb'
          rw [linkTo_of_not_link _ _ (good_not_link hp (inDone_good this))]
          exact inDone_mono (fun k hk => List.mem_cons_of_mem _ hk) this
        · exact inDone_mono (fun k hk => List.mem_cons_of_mem _ hk) (hbase b hb)
      · obtain ⟨n, hn⟩ : ∃ n, s0.types.get n = some (.obj id) := by
          rcases hid with ⟨b, hb⟩ | ⟨k, hk, s, n, hks, hn⟩
          · cases hb
          · rcases List.mem_cons.mp hk with rfl | hk
            · have : s = s0 := Option.some.inj (hks.symm.trans hs0)
              subst this
              exact ⟨n, hn⟩
            · exact absurd (Or.inr ⟨k, hk, s, n, hks, hn⟩) hdone
        obtain ⟨o0, ho0, _, hnames⟩ := hobj r hrm s0 n id hs0 hn
        obtain ⟨m, hm⟩ := hi.fresh id o0 ho0 hdone
        rw [hm] at ho'; cases ho'
        rw [if_pos ((hmem id).mpr ⟨n, hn⟩), mapBase, withMixed_base, Option.map_eq_some_iff] at hb
        obtain ⟨b', hb', rfl⟩ := hb
        have hb'' : b' ∈ o0.tys := by
          cases o0 with
          | complex c => have : c.base = some b' := hb'; simp [TObj.tys, this]
          | simple c => have : c.base = some b' := hb'; simp [TObj.tys, this]
        rcases hp.raw id o0 ho0 b' hb'' with hl | ⟨bb, rfl⟩
        · cases b' with
          | builtin b => cases hl
          | obj i => cases hl
          | link nm =>
            cases hlt : lookupType s0.types (extOf ord p0 H0) nm with
            | some t =>
              simp only [linkTo, hlt, Option.getD_some]
              exact hlook _ hown nm (hnames nm hb') t hlt
            | none =>
              have hall : ∀ t ∈ ord.run 2 j (s0.types.map (·.2)), t.isLink = false ∧ ∀ id, t = .obj id → id < H.length := by
                intro t ht
                obtain ⟨⟨n', t'⟩, hm', rfl⟩ := List.mem_map.mp ((ord.perm 2 j _).mem_iff.mp ht)
                have hg := inDone_good (hown n' t' (GoMap.get_of_mem (hp.typesWF _ _ hs0) hm'))
                refine ⟨good_not_link hp hg, ?_⟩
                intro id he
                simp only at he
                subst he
                rw [hi.len]; exact good_addr hp hg
              have := (resolveTypes_none _ hlk _ H hall).mpr ⟨id, _, nm, (hmem id).mpr ⟨n, hn⟩, hm, by rw [withMixed_tys]; exact hb'', hlt⟩
              rw [hres] at this; cases this
        · exact Or.inl ⟨bb, rfl⟩
    · intro k hk
      rw [GoMap.get_set, if_neg (fun x => hk (by rw [← x]; exact List.mem_cons_self))]
      exact hi.untouched k fun hm => hk (List.mem_cons_of_mem _ hm)
    · intro id o0 ho0 hnd'
      obtain ⟨m, hm⟩ := hi.fresh id o0 ho0 (fun hd => hnd' (inDone_mono (fun k hk => List.mem_cons_of_mem _ hk) hd))
      have := r2 id _ hm
      rw [if_neg] at this
      · exact ⟨m, this⟩
      · intro hm'
        obtain ⟨n, hn⟩ := (hmem id).mp hm'
        exact hnd' (hown n _ hn)
  obtain ⟨t1, t2, _, _⟩ := addAliases_get _ (extOf ord p0 H0) (InDone p0 (target r :: pre.map target)) _ (by
    intro own ho el hel hname t ht
    refine hlook own ho _ ?_ t ht
    refine Or.inr (Or.inl ⟨el, hel, hname, ?_⟩)
    rw [Wsdl.attr_eq, Wsdl.resolve_eq]; rfl) _ _ (hp.typesWF _ _ hs0) hown hal
  have hclosed : BaseClosed (InDone p0 (target r :: pre.map target)) H1 := by
    intro t ht
    refine ⟨good_not_link hp (inDone_good ht), ?_⟩
    intro id he
    subst he
    have hlt : id < H1.length := by rw [i1.len]; exact good_addr hp (inDone_good ht)
    exact ⟨_, List.getElem?_eq_getElem hlt, i1.base id ht _ (List.getElem?_eq_getElem hlt)⟩
  have hperm : ∀ t, InDone p0 ((pre ++ [r]).map target) t ↔ InDone p0 (target r :: pre.map target) t := by
    intro t
    constructor <;> exact fun ht => inDone_mono (fun k hk => by simpa [or_comm] using hk) ht
  refine ⟨hclosed, ?_, ?_⟩
  · intro t ht
    obtain ⟨⟨n, t'⟩, hm, rfl⟩ := List.mem_map.mp ht
    exact t2 n t' (GoMap.get_of_mem t1 hm)
  intro H2 hsame
  refine ⟨by rw [hsame.1, i1.len], ?_, ?_, ?_⟩
  · intro id hid o ho b hb
    rw [hperm] at hid ⊢
    have hlt : id < H1.length := by rw [← hsame.1]; exact (List.getElem?_eq_some_iff.mp ho).1
    obtain ⟨m, hm⟩ := hsame.2 id _ (List.getElem?_eq_getElem hlt)
    rw [ho] at hm; cases hm
    rw [withMixed_base] at hb
    exact i1.base id hid _ (List.getElem?_eq_getElem hlt) b hb
  · intro k hk
    rw [GoMap.get_set, if_neg (fun x => hk (by rw [← x]; simp))]
    exact hi.untouched k fun hm => hk (by
      rw [List.map_append]; exact List.mem_append_left _ hm)
  · intro id o0 ho0 hn
    rw [hperm] at hn
    obtain ⟨m, hm⟩ := i1.fresh id o0 ho0 hn
    obtain ⟨m', hm'⟩ := hsame.2 id _ hm
    exact ⟨m', by rw [hm', withMixed_withMixed]⟩

theorem finishRoots_no_panic {env : ParseEnv} {ord : MapOrder} {roots : List Element} {p0 : GoMap Str Schema} {H0 : THeap}
    (h0 : parseRoots env [] [] roots = some (p0, H0)) (hnd : (roots.map target).Nodup) (hord : InOrder roots) (rs : List Element) :
    ∀ (pre : List Element) (parsed : GoMap Str Schema) (H : THeap) (j : Nat), roots = pre ++ rs →
      Inv2 p0 H0 (pre.map target) parsed H → finishRoots ord (extOf ord p0 H0) parsed H j rs ≠ .panic := by
  induction rs with
  | nil => intro pre parsed H j _ _ h; cases h
  | cons r rs ih =>
    intro pre parsed H j hroots hi h
    obtain ⟨s0, hpg⟩ := inv2_get h0 hnd hroots hi
    rw [finishRoots] at h
    simp only [Wsdl.attr_eq] at h
    rw [show attrNamed r b!"targetNamespace" = target r from rfl, hpg] at h
    simp only [Option.getD_some] at h
    split at h
    · cases h
    · rename_i H1 hres
      split at h
      · cases h
      · rename_i types hal
        obtain ⟨hclosed, htypes, hnext⟩ := inv2_step h0 hnd hord hroots hi hpg hres hal
        obtain ⟨H2, hH2⟩ := propagateAll_no_panic (ord.run 3 j (types.map (·.2))) H1 hclosed (by
          intro t ht
          exact htypes t ((ord.perm 3 j _).mem_iff.mp ht))
        rw [hH2] at h
        exact ih (pre ++ [r]) _ H2 (j + 1) (by rw [hroots]; simp) (hnext H2 (propagateAll_same _ _ _ hH2)) h

end GoXml.Xsd
