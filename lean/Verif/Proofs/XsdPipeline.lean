import Verif.Proofs.XsdSchema
set_option autoImplicit false

/-! Helper lemmas about `Parse` as a whole: what is kept from one step to the next. -/

namespace GoXml.Xsd
open Wsdl (attrNamed allNamed searchEl)

theorem withMixed_tys (m : Bool) (o : TObj) : (o.withMixed m).tys = o.tys := by cases o <;> rfl

theorem withMixed_name (m : Bool) (o : TObj) : (o.withMixed m).name = o.name := by cases o <;> rfl

theorem mapTy_name (f : Ty → Ty) (o : TObj) : (o.mapTy f).name = o.name := by cases o <;> rfl

theorem mapTy_withMixed (f : Ty → Ty) (m : Bool) (o : TObj) : (o.withMixed m).mapTy f = (o.mapTy f).withMixed m := by
  cases o <;> rfl

theorem withMixed_withMixed (m m' : Bool) (o : TObj) : (o.withMixed m).withMixed m' = o.withMixed m' := by cases o <;> rfl

theorem mapTy_mapTy (f g : Ty → Ty) (o : TObj) : (o.mapTy f).mapTy g = o.mapTy (fun t => g (f t)) := by
  cases o with
  | complex c => simp [TObj.mapTy, Function.comp_def]
  | simple s => simp [TObj.mapTy, Function.comp_def]

def TObj.mixedFlag : TObj → Bool
  | .complex c => c.mixed
  | .simple _ => false

theorem withMixed_flag (o : TObj) : o.withMixed o.mixedFlag = o := by cases o <;> rfl

theorem evolved_refl (o : TObj) : Evolved o o :=
  ⟨id, o.mixedFlag, fun _ _ => rfl, by rw [mapTy_id id o (fun _ _ => rfl), withMixed_flag]⟩

theorem evolved_mapTy {o0 o : TObj} (h : Evolved o0 o) (f : Ty → Ty) (hf : ∀ t, t.isLink = false → f t = t) : Evolved o0 (o.mapTy f) := by
  obtain ⟨g, m, hg, rfl⟩ := h
  refine ⟨fun t => f (g t), m, fun t ht => by simp only [hg t ht, hf t ht], ?_⟩
  rw [mapTy_withMixed, mapTy_mapTy]

theorem evolved_withMixed {o0 o : TObj} (h : Evolved o0 o) (m : Bool) : Evolved o0 (o.withMixed m) := by
  obtain ⟨g, m', hg, rfl⟩ := h
  exact ⟨g, m, hg, by rw [withMixed_withMixed]⟩

theorem evolved_name {o0 o : TObj} (h : Evolved o0 o) : o.name = o0.name := by
  obtain ⟨g, m', hg, rfl⟩ := h
  rw [withMixed_name, mapTy_name]

/-! ### Propagation only changes flags -/

/-- The same objects up to the flag for mixed content. -/
def SameButMixed (H H' : THeap) : Prop :=
  H'.length = H.length ∧ ∀ (id : Nat) o, H[id]? = some o → ∃ m, H'[id]? = some (o.withMixed m)

theorem sameButMixed_refl (H : THeap) : SameButMixed H H := ⟨rfl, fun _ o h => ⟨o.mixedFlag, by rw [withMixed_flag]; exact h⟩⟩

theorem sameButMixed_trans {H1 H2 H3 : THeap} (h1 : SameButMixed H1 H2) (h2 : SameButMixed H2 H3) : SameButMixed H1 H3 := by
  refine ⟨by rw [h2.1, h1.1], fun id o h => ?_⟩
  obtain ⟨m, hm⟩ := h1.2 id o h
  obtain ⟨m', hm'⟩ := h2.2 id _ hm
  exact ⟨m', by rw [hm', withMixed_withMixed]⟩

theorem mixStep_same {H : THeap} {c c' : ComplexT} {b : Ty} (h : mixStep H c b = some c') : ∃ m, c' = { c with mixed := m } := by
  unfold mixStep at h
  split at h
  · cases h
    split
    · exact ⟨_, rfl⟩
    · exact ⟨c.mixed, rfl⟩
  · split at h
    · cases h
      split
      · exact ⟨_, rfl⟩
      · exact ⟨c.mixed, rfl⟩
    · cases h; exact ⟨_, rfl⟩
    · cases h
  · cases h

theorem propagateMixed_same (fuel : Nat) : ∀ (H : THeap) (t : Ty) (b : Option Ty) (H' : THeap),
    propagateMixed fuel H t b = some H' → SameButMixed H H' := by
  induction fuel with
  | zero => intro H t b H' h; simp only [propagateMixed, Option.some.injEq] at h; subst h; exact sameButMixed_refl H
  | succ fuel ih =>
    intro H t b H' h
    cases b with
    | none => simp only [propagateMixed, Option.some.injEq] at h; subst h; exact sameButMixed_refl H
    | some b =>
      rw [propagateMixed] at h
      split at h
      · cases h
      · rename_i H1 h1
        have s1 := ih _ _ _ _ h1
        apply sameButMixed_trans s1
        split at h
        · rename_i id
          split at h
          · rename_i c hc
            split at h
            · cases h; exact sameButMixed_refl _
            · rw [Option.map_eq_some_iff] at h
              obtain ⟨c', hc', rfl⟩ := h
              obtain ⟨m, rfl⟩ := mixStep_same hc'
              refine ⟨by simp, fun i o ho => ?_⟩
              by_cases hi : id = i
              · subst hi
                rw [hc] at ho; cases ho
                refine ⟨m, ?_⟩
                rw [List.getElem?_set_self (List.getElem?_eq_some_iff.mp hc).1]
                rfl
              · rw [List.getElem?_set_ne hi]
                exact (sameButMixed_refl H1).2 i o ho
          · cases h; exact sameButMixed_refl _
        · cases h; exact sameButMixed_refl _

theorem propagateAll_same (ts : List Ty) : ∀ (H H' : THeap), propagateAll H ts = some H' → SameButMixed H H' := by
  induction ts with
  | nil => intro H H' h; cases h; exact sameButMixed_refl _
  | cons t ts ih =>
    intro H H' h
    rw [propagateAll] at h
    split at h
    · cases h
    · rename_i H1 h1
      exact sameButMixed_trans (propagateMixed_same _ _ _ _ _ h1) (ih _ _ h)

/-- From a set of types that is closed under bases, and which contains no links, propagation does not panic. -/
def BaseClosed (G : Ty → Prop) (H : THeap) : Prop :=
  ∀ t, G t → t.isLink = false ∧ ∀ id, t = .obj id → ∃ o, H[id]? = some o ∧ ∀ b, o.base = some b → G b

theorem baseClosed_same {G : Ty → Prop} {H H' : THeap} (hc : BaseClosed G H) (hs : SameButMixed H H') : BaseClosed G H' := by
  intro t ht
  obtain ⟨h1, h2⟩ := hc t ht
  refine ⟨h1, fun id he => ?_⟩
  obtain ⟨o, ho, hb⟩ := h2 id he
  obtain ⟨m, hm⟩ := hs.2 id o ho
  exact ⟨_, hm, fun b hb' => hb b (by rw [withMixed_base] at hb'; exact hb')⟩

theorem propagateMixed_no_panic {G : Ty → Prop} (fuel : Nat) : ∀ (H : THeap), BaseClosed G H → ∀ t, G t →
    ∃ H', propagateMixed fuel H t (baseOf H t) = some H' := by
  induction fuel with
  | zero => intro H _ t _; exact ⟨H, rfl⟩
  | succ fuel ih =>
    intro H hc t ht
    cases hb : baseOf H t with
    | none => exact ⟨H, rfl⟩
    | some b =>
      cases t with
      | builtin b => cases hb
      | link n => cases hb
      | obj id =>
        obtain ⟨o, ho, hgb⟩ := (hc _ ht).2 id rfl
        have hob : o.base = some b := by simpa [baseOf, ho] using hb
        have hG := hgb b hob
        obtain ⟨H1, h1⟩ := ih H hc b hG
        have s1 := propagateMixed_same _ _ _ _ _ h1
        have hc1 := baseClosed_same hc s1
        rw [propagateMixed, h1]
        simp only
        obtain ⟨m, hm⟩ := s1.2 id o ho
        cases o with
        | simple s => rw [hm]; exact ⟨_, rfl⟩
        | complex c =>
          rw [hm]
          simp only [TObj.withMixed]
          split
          · exact ⟨_, rfl⟩
          · have : ∃ c', mixStep H1 { c with mixed := m } b = some c' := by
              unfold mixStep
              cases b with
              | builtin b => exact ⟨_, rfl⟩
              | link n => have := (hc1 _ hG).1; cases this
              | obj j =>
                obtain ⟨oj, hoj, _⟩ := (hc1 _ hG).2 j rfl
                simp only [hoj]
                cases oj <;> exact ⟨_, rfl⟩
            obtain ⟨c', hc'⟩ := this
            rw [hc']
            exact ⟨_, rfl⟩

theorem propagateAll_no_panic {G : Ty → Prop} (ts : List Ty) : ∀ H : THeap, BaseClosed G H → (∀ t ∈ ts, G t) →
    ∃ H', propagateAll H ts = some H' := by
  induction ts with
  | nil => intro H _ _; exact ⟨H, rfl⟩
  | cons t ts ih =>
    intro H hc hts
    obtain ⟨H1, h1⟩ := propagateMixed_no_panic 1001 H hc t (hts t (by simp))
    rw [propagateAll, h1]
    exact ih H1 (baseClosed_same hc (propagateMixed_same _ _ _ _ _ h1)) fun u hu => hts u (by simp [hu])

/-! ### The first loop -/

/-- The facts about the parsed schemas before linking. -/
structure Parsed (p0 : GoMap Str Schema) (H0 : THeap) : Prop where
  wf : p0.WF
  typesWF : ∀ k s, p0.get k = some s → s.types.WF
  key : ∀ k s, p0.get k = some s → s.targetNS = k
  addr : ∀ k s n t, p0.get k = some s → s.types.get n = some t → ∃ id, t = .obj id ∧ id < H0.length
  raw : ∀ (id : Nat) o, H0[id]? = some o → ∀ t ∈ o.tys, Raw t

theorem parsed_nil : Parsed [] [] :=
  ⟨GoMap.wf_nil, by simp [GoMap.get_nil], by simp [GoMap.get_nil], by simp [GoMap.get_nil], by simp⟩

theorem parsed_types {env : ParseEnv} {root : Element} {p0 : GoMap Str Schema} {H H' : THeap} {s : Schema} (hp : Parsed p0 H)
    (h : parseTypes env root H = some (s, H')) : Parsed (p0.set (target root) s) H' := by
  obtain ⟨os, self, h1, h2, rfl, h4, h5⟩ := parseTypes_eq h
  refine ⟨GoMap.wf_set hp.wf _ _, ?_, ?_, ?_, ?_⟩
  · intro k s' hk
    rw [GoMap.get_set] at hk
    split at hk
    · cases hk; rw [h5]; exact enter_wf _ _ _ GoMap.wf_nil
    · exact hp.typesWF k s' hk
  · intro k s' hk
    rw [GoMap.get_set] at hk
    split at hk
    · rename_i he; cases hk; rw [h4]; exact he
    · exact hp.key k s' hk
  · intro k s' n t hk hn
    rw [GoMap.get_set] at hk
    split at hk
    · cases hk
      rw [h5, get_enter] at hn
      obtain ⟨i, hi, _, rfl⟩ := hn
      refine ⟨_, rfl, ?_⟩
      have := (List.getElem?_eq_some_iff.mp hi).1
      simp only [List.length_append, List.length_map, List.length_singleton] at this ⊢
      omega
    · obtain ⟨id, he, hl⟩ := hp.addr k s' n t hk hn
      exact ⟨id, he, by simp only [List.length_append]; omega⟩
  · intro id o ho t ht
    have hm := List.mem_of_getElem? ho
    simp only [List.mem_append, List.mem_singleton] at hm
    rcases hm with (hm | hm) | rfl
    · obtain ⟨i, hi⟩ := List.mem_iff_getElem?.mp hm
      exact hp.raw i o hi t ht
    · have hf := (mapOpt_some_iff _ _ _).mp h1
      obtain ⟨hl, hg⟩ := List.forall₂_iff_get.mp hf
      obtain ⟨i, hi, rfl⟩ := List.getElem_of_mem hm
      exact parseDecl_raw (hg i (by omega) hi) t ht
    · exact raw_complexType h2 t ht

theorem parsed_roots {env : ParseEnv} (rs : List Element) : ∀ {p0 p1 : GoMap Str Schema} {H0 H1 : THeap}, Parsed p0 H0 →
    parseRoots env p0 H0 rs = some (p1, H1) →
    Parsed p1 H1 ∧ H0 <+: H1 ∧
    (∀ k, k ∉ rs.map (fun r => target r) → p1.get k = p0.get k) ∧
    (∀ k ∈ rs.map (fun r => target r), ∃ r ∈ rs, k = target r ∧ ∃ s Hr Hr',
      p1.get k = some s ∧ parseTypes env r Hr = some (s, Hr') ∧ Hr' <+: H1) := by
  induction rs with
  | nil =>
    intro p0 p1 H0 H1 hp h
    simp only [parseRoots, Option.some.injEq, Prod.mk.injEq] at h
    obtain ⟨rfl, rfl⟩ := h
    exact ⟨hp, List.prefix_refl _, fun _ _ => rfl, fun k hk => by simp at hk⟩
  | cons r rs ih =>
    intro p0 p1 H0 H1 hp h
    rw [parseRoots] at h
    split at h
    · cases h
    · rename_i s H h1
      rw [Wsdl.attr_eq] at h
      obtain ⟨i1, i2, i3, i4⟩ := ih (parsed_types hp h1) h
      have hpre : H0 <+: H := by
        obtain ⟨os, self, _, _, rfl, _, _⟩ := parseTypes_eq h1
        exact ⟨os ++ [.complex self], by simp⟩
      refine ⟨i1, hpre.trans i2, ?_, ?_⟩
      · intro k hk
        simp only [List.map_cons, List.mem_cons, not_or] at hk
        rw [i3 k hk.2, GoMap.get_set, if_neg (Ne.symm hk.1)]
      · intro k hk
        by_cases hin : k ∈ rs.map (fun r => target r)
        · obtain ⟨r', hr', h2⟩ := i4 k hin
          exact ⟨r', by simp [hr'], h2⟩
        · simp only [List.map_cons, List.mem_cons] at hk
          rcases hk with rfl | hk
          · exact ⟨r, by simp, rfl, s, H0, H, by rw [i3 _ hin, GoMap.get_set, if_pos rfl], h1, i2⟩
          · exact absurd hk hin

/-! ### Types that may be referred to -/

/-- A built-in type or one of the types of a parsed schema. -/
def Good (p0 : GoMap Str Schema) (t : Ty) : Prop :=
  (∃ b, t = .builtin b) ∨ ∃ k s n, p0.get k = some s ∧ s.types.get n = some t

theorem collectTypes_get (H : THeap) (ts : List Ty) : ∀ (m : GoMap XName Ty) (n : XName) (t : Ty),
    (collectTypes H m ts).get n = some t → m.get n = some t ∨ t ∈ ts ∧ n = xmlName H t := by
  induction ts with
  | nil => intro m n t h; exact Or.inl h
  | cons u ts ih =>
    intro m n t h
    rw [collectTypes] at h
    rcases ih _ n t h with h | ⟨h, hn⟩
    · rw [GoMap.get_set] at h
      split at h
      · rename_i he; cases h; exact Or.inr ⟨by simp, he.symm⟩
      · exact Or.inl h
    · exact Or.inr ⟨by simp [h], hn⟩

theorem collectAll_get (ord : MapOrder) (H : THeap) (ss : List Schema) : ∀ (m : GoMap XName Ty) (j : Nat) (n : XName) (t : Ty),
    (collectAll ord H m j ss).get n = some t → m.get n = some t ∨ ∃ s ∈ ss, t ∈ s.types.map (·.2) ∧ n = xmlName H t := by
  induction ss with
  | nil => intro m j n t h; exact Or.inl h
  | cons s ss ih =>
    intro m j n t h
    rw [collectAll] at h
    rcases ih _ _ n t h with h | ⟨s', hs', h⟩
    · rcases collectTypes_get H _ m n t h with h | ⟨h, hn⟩
      · exact Or.inl h
      · exact Or.inr ⟨s, by simp, (ord.perm 1 j _).mem_iff.mp h, hn⟩
    · exact Or.inr ⟨s', by simp [hs'], h⟩

/-- The table of all types. -/
def extOf (ord : MapOrder) (p0 : GoMap Str Schema) (H0 : THeap) : GoMap XName Ty :=
  collectAll ord H0 [] 0 (ord.run 0 0 (p0.map (·.2)))

theorem ext_good {ord : MapOrder} {p0 : GoMap Str Schema} {H0 : THeap} (hp : Parsed p0 H0) {n : XName} {t : Ty}
    (h : (extOf ord p0 H0).get n = some t) :
    n = xmlName H0 t ∧ ∃ k s n', p0.get k = some s ∧ s.types.get n' = some t := by
  rcases collectAll_get ord H0 _ [] 0 n t h with h | ⟨s, hs, ht, hn⟩
  · cases h
  · refine ⟨hn, ?_⟩
    have hs := (ord.perm 0 0 _).mem_iff.mp hs
    obtain ⟨⟨k, s⟩, hks, rfl⟩ := List.mem_map.mp hs
    have hk := GoMap.get_of_mem hp.wf hks
    obtain ⟨⟨n', t⟩, hnt, rfl⟩ := List.mem_map.mp ht
    exact ⟨k, s, n', hk, GoMap.get_of_mem (hp.typesWF k s hk) hnt⟩

theorem good_not_link {p0 : GoMap Str Schema} {H0 : THeap} (hp : Parsed p0 H0) {t : Ty} (h : Good p0 t) : t.isLink = false := by
  rcases h with ⟨b, rfl⟩ | ⟨k, s, n, hk, hn⟩
  · rfl
  · obtain ⟨id, rfl, _⟩ := hp.addr k s n t hk hn; rfl

theorem good_addr {p0 : GoMap Str Schema} {H0 : THeap} (hp : Parsed p0 H0) {id : Nat} (h : Good p0 (.obj id)) : id < H0.length := by
  rcases h with ⟨b, h⟩ | ⟨k, s, n, hk, hn⟩
  · cases h
  · obtain ⟨id', h, hl⟩ := hp.addr k s n _ hk hn; cases h; exact hl

theorem lookupType_good {ord : MapOrder} {p0 : GoMap Str Schema} {H0 : THeap} (hp : Parsed p0 H0) {own : GoMap XName Ty}
    (hown : ∀ n t, own.get n = some t → Good p0 t) (n : XName) (t : Ty) (h : lookupType own (extOf ord p0 H0) n = some t) : Good p0 t := by
  unfold lookupType at h
  split at h
  · cases h; exact Or.inl ⟨_, rfl⟩
  · split at h
    · rename_i t' ht'
      cases h
      exact Or.inr (ext_good hp ht').2
    · exact hown n t h

theorem addAliases_get (tns : Str) (ext : GoMap XName Ty) (G : Ty → Prop)
    (els : List Element) (hlk : ∀ own : GoMap XName Ty, (∀ n t, own.get n = some t → G t) → ∀ el ∈ els, el.name = ⟨schemaNS, b!"element"⟩ →
      ∀ t, lookupType own ext (resolve el.scope (el.attr [] b!"type")) = some t → G t) :
    ∀ (types types' : GoMap XName Ty), types.WF → (∀ n t, types.get n = some t → G t) → addAliases tns ext types els = some types' →
      types'.WF ∧ (∀ n t, types'.get n = some t → G t) ∧ (∀ n t, types.get n = some t → types'.get n = some t) ∧
      ∀ n t, types'.get n = some t → types.get n = some t ∨ ∃ el ∈ els, el.name = ⟨schemaNS, b!"element"⟩ ∧
        n = resolveDefault el.scope (el.attr [] b!"name") tns ∧ n.loc ≠ [] ∧ (resolve el.scope (el.attr [] b!"type")).loc ≠ [] := by
  induction els with
  | nil =>
    intro types types' hw hg h
    simp only [addAliases, Option.some.injEq] at h
    subst h
    exact ⟨hw, hg, fun _ _ h => h, fun _ _ h => Or.inl h⟩
  | cons el els ih =>
    intro types types' hw hg h
    simp only [addAliases] at h
    have weaken : ∀ {types}, addAliases tns ext types els = some types' → types.WF → (∀ n t, types.get n = some t → G t) →
        types'.WF ∧ (∀ n t, types'.get n = some t → G t) ∧ (∀ n t, types.get n = some t → types'.get n = some t) ∧
      ∀ n t, types'.get n = some t → types.get n = some t ∨ ∃ el' ∈ el :: els, el'.name = ⟨schemaNS, b!"element"⟩ ∧
        n = resolveDefault el'.scope (el'.attr [] b!"name") tns ∧ n.loc ≠ [] ∧ (resolve el'.scope (el'.attr [] b!"type")).loc ≠ [] := by
      intro types h hw hg
      obtain ⟨h1, h2, h3, h4⟩ := ih (fun own ho e he => hlk own ho e (by simp [he])) types types' hw hg h
      refine ⟨h1, h2, h3, fun n t hn => ?_⟩
      rcases h4 n t hn with h | ⟨e, he, hr⟩
      · exact Or.inl h
      · exact Or.inr ⟨e, by simp [he], hr⟩
    split at h
    · exact weaken h hw hg
    · rename_i hname
      split at h
      · exact weaken h hw hg
      · rename_i hloc
        split at h
        · exact weaken h hw hg
        · rename_i hnone
          split at h
          · cases h
          · rename_i t ht
            have hGt := hlk types hg el (by simp) (not_not.mp hname) t ht
            obtain ⟨h1, h2, h3, h4⟩ := weaken h (GoMap.wf_set hw _ _) (by
              intro n t' hn
              rw [GoMap.get_set] at hn
              split at hn
              · cases hn; exact hGt
              · exact hg n t' hn)
            refine ⟨h1, h2, ?_, ?_⟩
            · intro n t' hn
              apply h3
              rw [GoMap.get_set]
              split
              · rename_i he; subst he; rw [hnone] at hn; cases hn
              · exact hn
            · intro n t' hn
              rcases h4 n t' hn with h | h
              · rw [GoMap.get_set] at h
                split at h
                · rename_i he
                  exact Or.inr ⟨el, by simp, not_not.mp hname, he.symm, by rw [← he]; exact fun x => hloc (Or.inr x), fun x => hloc (Or.inl x)⟩
                · exact Or.inl h
              · exact Or.inr h

/-! ### The second loop -/

structure Inv (p0 : GoMap Str Schema) (H0 : THeap) (roots : List Element) (done : List Str) (parsed : GoMap Str Schema) (H : THeap) : Prop where
  keys : ∀ k s0, p0.get k = some s0 → ∃ s, parsed.get k = some s ∧ s.targetNS = s0.targetNS ∧
    ∀ n t, s0.types.get n = some t → s.types.get n = some t
  wf : ∀ k s, parsed.get k = some s → s.types.WF
  vals : ∀ k s, parsed.get k = some s → ∀ n t, s.types.get n = some t → Good p0 t
  names : ∀ k s, parsed.get k = some s → ∀ n t, s.types.get n = some t →
    (∃ s0, p0.get k = some s0 ∧ s0.types.get n = some t) ∨ ∃ r ∈ roots, target r = k ∧ Alias r n
  len : H.length = H0.length
  evo : ∀ (id : Nat) o, H[id]? = some o → ∃ o0, H0[id]? = some o0 ∧ Evolved o0 o
  raw : ∀ (id : Nat) o, H[id]? = some o → ∀ t ∈ o.tys, t.isLink = true ∨ Good p0 t
  done : ∀ k ∈ done, ∀ s0, p0.get k = some s0 → ∀ (n : XName) (id : Nat), s0.types.get n = some (.obj id) →
    ∀ o, H[id]? = some o → ∀ t ∈ o.tys, Good p0 t

theorem inv_start {p0 : GoMap Str Schema} {H0 : THeap} (hp : Parsed p0 H0) (roots : List Element) : Inv p0 H0 roots [] p0 H0 where
  keys := fun k s0 h => ⟨s0, h, rfl, fun _ _ h => h⟩
  wf := hp.typesWF
  vals := fun k s hk n t hn => Or.inr ⟨k, s, n, hk, hn⟩
  names := fun k s hk n t hn => Or.inl ⟨s, hk, hn⟩
  len := rfl
  evo := fun id o h => ⟨o, h, evolved_refl o⟩
  raw := fun id o h t ht => (hp.raw id o h t ht).imp_right Or.inl
  done := fun k hk => by simp at hk

theorem linkTo_of_not_link (lk : XName → Option Ty) (t : Ty) (h : t.isLink = false) : linkTo lk t = t := by
  cases t with
  | link n => cases h
  | builtin b => rfl
  | obj i => rfl

/-- One round, up to the point where flags are propagated. -/
theorem inv_resolve {ord : MapOrder} {p0 : GoMap Str Schema} {H0 : THeap} (hp : Parsed p0 H0) {roots : List Element} {done : List Str}
    {parsed : GoMap Str Schema} {H H1 : THeap} (hi : Inv p0 H0 roots done parsed H) (tns : Str) (s : Schema)
    (hs : s = (parsed.get tns).getD {}) (ts : List Ty) (hts : ts.Perm (s.types.map (·.2)))
    (h : resolveTypes (lookupType s.types (extOf ord p0 H0)) H ts = some H1) : Inv p0 H0 roots (tns :: done) parsed H1 := by
  classical
  have hown : ∀ n t, s.types.get n = some t → Good p0 t := by
    intro n t hn
    cases hg : parsed.get tns with
    | none => rw [hg] at hs; subst hs; cases hn
    | some s' => rw [hg] at hs; cases hs; exact hi.vals tns _ hg n t hn
  have hgood := lookupType_good (ord := ord) hp hown
  have hlk : ∀ n t, lookupType s.types (extOf ord p0 H0) n = some t → t.isLink = false :=
    fun n t h => good_not_link hp (hgood n t h)
  obtain ⟨r1, r2⟩ := resolveTypes_some _ hlk ts H H1 h
  have back : ∀ (id : Nat) o, H1[id]? = some o → ∃ o', H[id]? = some o' ∧
      o = if Ty.obj id ∈ ts then o'.mapTy (linkTo (lookupType s.types (extOf ord p0 H0))) else o' := by
    intro id o ho
    have hlt : id < H.length := by rw [← r1]; exact (List.getElem?_eq_some_iff.mp ho).1
    refine ⟨_, List.getElem?_eq_getElem hlt, ?_⟩
    have := r2 id _ (List.getElem?_eq_getElem hlt)
    rw [ho] at this
    cases this; rfl
  refine ⟨hi.keys, hi.wf, hi.vals, hi.names, by rw [r1, hi.len], ?_, ?_, ?_⟩
  · intro id o ho
    obtain ⟨o', ho', rfl⟩ := back id o ho
    obtain ⟨o0, h0, he⟩ := hi.evo id o' ho'
    refine ⟨o0, h0, ?_⟩
    split
    · exact evolved_mapTy he _ fun t => linkTo_of_not_link _ t
    · exact he
  · intro id o ho t ht
    obtain ⟨o', ho', rfl⟩ := back id o ho
    split at ht
    · rw [tys_mapTy, List.mem_map] at ht
      obtain ⟨u, hu, rfl⟩ := ht
      rcases hi.raw id o' ho' u hu with hl | hg
      · cases u with
        | builtin b => cases hl
        | obj i => cases hl
        | link n =>
          simp only [linkTo]
          cases hn : lookupType s.types (extOf ord p0 H0) n with
          | none => exact Or.inl rfl
          | some t => exact Or.inr (hgood n t hn)
      · rw [linkTo_of_not_link _ _ (good_not_link hp hg)]; exact Or.inr hg
    · exact hi.raw id o' ho' t ht
  · intro k hk s0 h0 n id hn o ho t ht
    obtain ⟨o', ho', rfl⟩ := back id o ho
    by_cases hkd : k ∈ done
    · have hd := hi.done k hkd s0 h0 n id hn o' ho'
      split at ht
      · rw [tys_mapTy, List.mem_map] at ht
        obtain ⟨u, hu, rfl⟩ := ht
        rw [linkTo_of_not_link _ _ (good_not_link hp (hd u hu))]
        exact hd u hu
      · exact hd t ht
    · have hk : k = tns := by
        rcases List.mem_cons.mp hk with h | h
        · exact h
        · exact absurd h hkd
      subst hk
      obtain ⟨s', hs', _, hsub⟩ := hi.keys k s0 h0
      rw [hs'] at hs
      cases hs
      have hin : Ty.obj id ∈ ts := hts.mem_iff.mpr (List.mem_map.mpr ⟨(n, .obj id), GoMap.get_some_mem (hsub n _ hn), rfl⟩)
      rw [if_pos hin, tys_mapTy, List.mem_map] at ht
      obtain ⟨u, hu, rfl⟩ := ht
      rcases hi.raw id o' ho' u hu with hl | hg
      · cases u with
        | builtin b => cases hl
        | obj i => cases hl
        | link m =>
          have hne : resolveTypes (lookupType s'.types (extOf ord p0 H0)) H ts ≠ none := by
            simp only [Option.getD_some] at h
            rw [h]; simp
          simp only [linkTo, Option.getD_some]
          cases hm : lookupType s'.types (extOf ord p0 H0) m with
          | some t => exact hgood m t hm
          | none =>
            exfalso
            apply hne
            refine (resolveTypes_none _ hlk ts H ?_).mpr ⟨id, o', m, hin, ho', hu, hm⟩
            intro t ht
            obtain ⟨⟨n', t'⟩, hmem, rfl⟩ := List.mem_map.mp (hts.mem_iff.mp ht)
            have hg := hown n' t' (GoMap.get_of_mem (hi.wf k _ hs') hmem)
            refine ⟨good_not_link hp hg, ?_⟩
            intro id he
            simp only at he
            subst he
            rw [hi.len]; exact good_addr hp hg
      · rw [linkTo_of_not_link _ _ (good_not_link hp hg)]; exact hg

theorem inv_same {p0 : GoMap Str Schema} {H0 : THeap} {roots : List Element} {done : List Str}
    {parsed : GoMap Str Schema} {H H1 : THeap} (hi : Inv p0 H0 roots done parsed H) (h : SameButMixed H H1) : Inv p0 H0 roots done parsed H1 := by
  have back : ∀ (id : Nat) o, H1[id]? = some o → ∃ o' m, H[id]? = some o' ∧ o = o'.withMixed m := by
    intro id o ho
    have hlt : id < H.length := by rw [← h.1]; exact (List.getElem?_eq_some_iff.mp ho).1
    obtain ⟨m, hm⟩ := h.2 id _ (List.getElem?_eq_getElem hlt)
    rw [ho] at hm
    cases hm
    exact ⟨_, m, List.getElem?_eq_getElem hlt, rfl⟩
  refine ⟨hi.keys, hi.wf, hi.vals, hi.names, by rw [h.1, hi.len], ?_, ?_, ?_⟩
  · intro id o ho
    obtain ⟨o', m, ho', rfl⟩ := back id o ho
    obtain ⟨o0, h0, he⟩ := hi.evo id o' ho'
    exact ⟨o0, h0, evolved_withMixed he m⟩
  · intro id o ho t ht
    obtain ⟨o', m, ho', rfl⟩ := back id o ho
    rw [withMixed_tys] at ht
    exact hi.raw id o' ho' t ht
  · intro k hk s0 h0 n id hn o ho t ht
    obtain ⟨o', m, ho', rfl⟩ := back id o ho
    rw [withMixed_tys] at ht
    exact hi.done k hk s0 h0 n id hn o' ho' t ht

theorem inv_aliases {ord : MapOrder} {p0 : GoMap Str Schema} {H0 : THeap} (hp : Parsed p0 H0) {roots : List Element} {done : List Str}
    {parsed : GoMap Str Schema} {H : THeap} (hi : Inv p0 H0 roots done parsed H) (r : Element) (hr : r ∈ roots) (s : Schema)
    (hmem : p0.get (target r) ≠ none)
    (hs : s = (parsed.get (target r)).getD {}) (types : GoMap XName Ty)
    (h : addAliases s.targetNS (extOf ord p0 H0) s.types r.children = some types) :
    Inv p0 H0 roots done (parsed.set (target r) { s with types := types }) H ∧
    ∀ n t, types.get n = some t → Good p0 t := by
  obtain ⟨s0, hs0⟩ := Option.ne_none_iff_exists'.mp hmem
  obtain ⟨s', hs', htns, hsub⟩ := hi.keys _ s0 hs0
  rw [hs'] at hs
  cases hs
  simp only [Option.getD_some] at *
  obtain ⟨h1, h2, h3, h4⟩ := addAliases_get _ (extOf ord p0 H0) (Good p0) _
    (fun own hown el _ _ t => lookupType_good (ord := ord) hp hown _ t) _ _ (hi.wf _ _ hs') (hi.vals _ _ hs') h
  have hkey := hp.key _ _ hs0
  refine ⟨⟨?_, ?_, ?_, ?_, hi.len, hi.evo, hi.raw, hi.done⟩, h2⟩
  · intro k s1 hk
    rw [GoMap.get_set]
    split
    · rename_i he
      subst he
      rw [hs0] at hk; cases hk
      exact ⟨_, rfl, htns, fun n t hn => h3 n t (hsub n t hn)⟩
    · exact hi.keys k s1 hk
  · intro k s1 hk
    rw [GoMap.get_set] at hk
    split at hk
    · cases hk; exact h1
    · exact hi.wf k s1 hk
  · intro k s1 hk
    rw [GoMap.get_set] at hk
    split at hk
    · cases hk; exact h2
    · exact hi.vals k s1 hk
  · intro k s1 hk n t hn
    rw [GoMap.get_set] at hk
    split at hk
    · rename_i he
      cases hk
      rcases h4 n t hn with hn | ⟨el, hel, hname, hn', hloc, htype⟩
      · rcases hi.names _ s' hs' n t hn with h | h
        · exact Or.inl (he ▸ h)
        · exact Or.inr (he ▸ h)
      · refine Or.inr ⟨r, hr, he, el, hel, hname, ?_, hloc, ?_⟩
        · rw [hn', htns, hkey, Wsdl.resolveDefault_eq]
        · rw [Wsdl.attr_eq, Wsdl.resolve_eq] at htype
          exact htype
    · exact hi.names k s1 hk n t hn

theorem finishRoots_inv {ord : MapOrder} {p0 : GoMap Str Schema} {H0 : THeap} (hp : Parsed p0 H0) {roots : List Element} (rs : List Element) :
    ∀ (done : List Str) (parsed : GoMap Str Schema) (H : THeap) (j : Nat) (parsed' : GoMap Str Schema) (H' : THeap),
    (∀ r ∈ rs, r ∈ roots ∧ p0.get (target r) ≠ none) → Inv p0 H0 roots done parsed H →
    finishRoots ord (extOf ord p0 H0) parsed H j rs = .ok (parsed', H') →
    ∃ done', Inv p0 H0 roots done' parsed' H' ∧ (∀ k ∈ done, k ∈ done') ∧ ∀ r ∈ rs, target r ∈ done' := by
  induction rs with
  | nil =>
    intro done parsed H j parsed' H' _ hi h
    simp only [finishRoots, Outcome.ok.injEq, Prod.mk.injEq] at h
    obtain ⟨rfl, rfl⟩ := h
    exact ⟨done, hi, fun _ h => h, by simp⟩
  | cons r rs ih =>
    intro done parsed H j parsed' H' hrs hi h
    rw [finishRoots] at h
    simp only [Wsdl.attr_eq] at h
    split at h
    · cases h
    · rename_i H1 h1
      split at h
      · cases h
      · rename_i types h2
        split at h
        · cases h
        · rename_i H2 h3
          have i1 := inv_resolve (ord := ord) hp hi _ _ rfl _ (ord.perm 2 j _) h1
          obtain ⟨i2, _⟩ := inv_aliases hp i1 r (hrs r (by simp)).1 _ (hrs r (by simp)).2 rfl types h2
          have i3 := inv_same i2 (propagateAll_same _ _ _ h3)
          obtain ⟨done', d1, d2, d3⟩ := ih _ _ _ _ _ _ (fun r' hr' => hrs r' (by simp [hr'])) i3 h
          refine ⟨done', d1, fun k hk => d2 k (by simp [hk]), ?_⟩
          intro r' hr'
          rcases List.mem_cons.mp hr' with rfl | hr'
          · exact d2 _ List.mem_cons_self
          · exact d3 r' hr'

/-- What is known of the result of `Parse`. -/
theorem parseSchemas_inv {env : ParseEnv} {ord : MapOrder} {roots : List Element} {ss : List Schema} {H : THeap}
    (h : parseSchemas env ord roots = .ok (ss, H)) :
    ∃ p0 H0 parsed, parseRoots env [] [] roots = some (p0, H0) ∧ Parsed p0 H0 ∧
      Inv p0 H0 roots (roots.map fun r => target r) parsed H ∧
      (∀ k, p0.get k ≠ none → k ∈ roots.map fun r => target r) ∧
      (∀ r ∈ roots, p0.get (target r) ≠ none) ∧
      ss = roots.map (fun r => (parsed.get (target r)).getD {}) ++ [builtinSchema] := by
  unfold parseSchemas at h
  split at h
  · cases h
  · rename_i p0 H0 h0
    obtain ⟨hp, _, hout, hin⟩ := parsed_roots roots parsed_nil h0
    have hsome : ∀ r ∈ roots, p0.get (target r) ≠ none := by
      intro r hr
      obtain ⟨_, _, _, s, _, _, hs, _⟩ := hin _ (List.mem_map.mpr ⟨r, hr, rfl⟩)
      rw [hs]; simp
    split at h
    · cases h
    · cases h
    · rename_i parsed H' h1
      simp only [Wsdl.attr_eq] at h
      cases h
      obtain ⟨done', d1, _, d3⟩ := finishRoots_inv hp roots [] p0 H0 0 parsed _ (fun r hr => ⟨hr, hsome r hr⟩) (inv_start hp roots) h1
      refine ⟨p0, H0, parsed, h0, hp, ?_, ?_, hsome, rfl⟩
      · refine { d1 with done := fun k hk => ?_ }
        obtain ⟨r, hr, rfl⟩ := List.mem_map.mp hk
        exact d1.done _ (d3 r hr)
      · intro k hk
        by_contra hno
        exact hk (by rw [hout k hno]; rfl)

end GoXml.Xsd
