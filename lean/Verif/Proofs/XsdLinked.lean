import Verif.Spec.XsdLinked
import Verif.Proofs.XsdgenDocuments
import Verif.Props.XsdDecls
import Verif.Props.XsdParse
set_option autoImplicit false

/-! Links are replaced by the types of those names. -/

namespace GoXml.Xsd
open Wsdl (attrNamed allNamed denoted defines refersTo)

/-- Types are replaced by types of the same name, and only links are. -/
def Renames (H0 : THeap) (f : Ty → Ty) : Prop :=
  (∀ t, t.isLink = false → f t = t) ∧ (∀ t, xmlName H0 (f t) = xmlName H0 t) ∧ ∀ t b, f t = .builtin b → t = .builtin b ∨ 0 ≤ b ∧ b < 50

/-- `Evolved`, by types of the same names. -/
def Reached (H0 : THeap) (o0 o : TObj) : Prop := ∃ f m, Renames H0 f ∧ o = (o0.mapTy f).withMixed m

theorem reached_refl (H0 : THeap) (o : TObj) : Reached H0 o o :=
  ⟨id, o.mixedFlag, ⟨fun _ _ => rfl, fun _ => rfl, fun _ _ h => Or.inl h⟩, by rw [mapTy_id id o (fun _ _ => rfl), withMixed_flag]⟩

theorem reached_mapTy {H0 : THeap} {o0 o : TObj} (h : Reached H0 o0 o) {f : Ty → Ty} (hf : Renames H0 f) : Reached H0 o0 (o.mapTy f) := by
  obtain ⟨g, m, hg, rfl⟩ := h
  refine ⟨fun t => f (g t), m, ⟨fun t ht => by simp only [hg.1 t ht, hf.1 t ht], fun t => (hf.2.1 _).trans (hg.2.1 t),
    fun t b h => (hf.2.2 _ b h).elim (hg.2.2 t b) Or.inr⟩, ?_⟩
  rw [mapTy_withMixed, mapTy_mapTy]

theorem reached_withMixed {H0 : THeap} {o0 o : TObj} (h : Reached H0 o0 o) (m : Bool) : Reached H0 o0 (o.withMixed m) := by
  obtain ⟨g, m', hg, rfl⟩ := h
  exact ⟨g, m, hg, by rw [withMixed_withMixed]⟩

theorem linkTo_renames {H0 : THeap} {lk : XName → Option Ty} (h : ∀ n t, lk n = some t → xmlName H0 t = n)
    (hb : ∀ n b, lk n = some (.builtin b) → 0 ≤ b ∧ b < 50) : Renames H0 (linkTo lk) := by
  refine ⟨linkTo_of_not_link lk, fun t => ?_, fun t b e => ?_⟩
  · cases t with
    | builtin b => rfl
    | obj i => rfl
    | link n =>
      simp only [linkTo]
      cases hn : lk n with
      | none => rfl
      | some t => exact h n t hn
  · cases t with
    | builtin b' => exact Or.inl e
    | obj i => cases e
    | link n =>
      simp only [linkTo] at e
      cases hn : lk n with
      | none => rw [hn] at e; cases e
      | some t =>
        rw [hn] at e
        refine Or.inr (hb n b ?_)
        rw [hn, ← e]
        rfl

theorem lookupType_builtin {ord : MapOrder} {p0 : GoMap Str Schema} {H0 : THeap} (hp : Parsed p0 H0) {own : GoMap XName Ty}
    (hown : ∀ n t, own.get n = some t → ∃ id, t = .obj id) (n : XName) (b : Builtin)
    (h : lookupType own (extOf ord p0 H0) n = some (.builtin b)) : 0 ≤ b ∧ b < 50 := by
  unfold lookupType at h
  split at h
  · rename_i b' hb
    cases h
    have := (C26_parse_only n b).mp hb
    exact ⟨this.1, this.2.1⟩
  · split at h
    · rename_i t' ht'
      cases h
      obtain ⟨-, k, s, n', hk, hn'⟩ := ext_good hp ht'
      obtain ⟨id, he, -⟩ := hp.addr k s n' _ hk hn'
      cases he
    · obtain ⟨id, he⟩ := hown n _ h
      cases he

theorem lookupType_named {ord : MapOrder} {p0 : GoMap Str Schema} {H0 : THeap} (hp : Parsed p0 H0) {own : GoMap XName Ty}
    (hown : ∀ n t, own.get n = some t → xmlName H0 t = n) (n : XName) (t : Ty) (h : lookupType own (extOf ord p0 H0) n = some t) :
    xmlName H0 t = n := by
  unfold lookupType at h
  split at h
  · rename_i b hb
    cases h
    exact ((C26_parse_only n b).mp hb).2.2
  · split at h
    · rename_i t' ht'
      cases h
      exact (ext_good hp ht').1.symm
    · exact hown n t h

theorem finishRoots_reached {ord : MapOrder} {p0 : GoMap Str Schema} {H0 : THeap} (hp : Parsed p0 H0)
    (hown : ∀ k s n t, p0.get k = some s → s.types.get n = some t → xmlName H0 t = n) (rs : List Element) :
    ∀ (parsed : GoMap Str Schema) (H : THeap) (j : Nat) (parsed' : GoMap Str Schema) (H' : THeap), (rs.map target).Nodup →
    (∀ r ∈ rs, parsed.get (target r) = p0.get (target r)) → (∀ (id : Nat) o, H[id]? = some o → ∃ o0, H0[id]? = some o0 ∧ Reached H0 o0 o) →
    finishRoots ord (extOf ord p0 H0) parsed H j rs = .ok (parsed', H') →
    ∀ (id : Nat) o, H'[id]? = some o → ∃ o0, H0[id]? = some o0 ∧ Reached H0 o0 o := by
  classical
  induction rs with
  | nil =>
    intro parsed H j parsed' H' _ _ hg h
    simp only [finishRoots, Outcome.ok.injEq, Prod.mk.injEq] at h
    obtain ⟨rfl, rfl⟩ := h
    exact hg
  | cons r rs ih =>
    intro parsed H j parsed' H' hd hsame hg h
    rw [List.map_cons, List.nodup_cons] at hd
    rw [finishRoots] at h
    simp only [Wsdl.attr_eq] at h
    split at h
    · cases h
    · rename_i H1 h1
      split at h
      · cases h
      · rename_i types h2
        split at h
        · cases h
        · rename_i H2 h3
          have hs : parsed.get (target r) = p0.get (target r) := hsame r (by simp)
          have hown' : ∀ n t, ((parsed.get (target r)).getD {}).types.get n = some t → ∃ s, p0.get (target r) = some s ∧ s.types.get n = some t := by
            intro n t hn
            rw [hs] at hn
            cases hk : p0.get (target r) with
            | none => rw [hk] at hn; cases hn
            | some s => rw [hk] at hn; exact ⟨s, rfl, hn⟩
          have hlk := lookupType_good (ord := ord) hp (own := ((parsed.get (target r)).getD {}).types) (by
            intro n t hn
            obtain ⟨s, hk, hn⟩ := hown' n t hn
            exact Or.inr ⟨_, s, n, hk, hn⟩)
          have hnm := lookupType_named (ord := ord) hp (own := ((parsed.get (target r)).getD {}).types) (by
            intro n t hn
            obtain ⟨s, hk, hn⟩ := hown' n t hn
            exact hown _ s n t hk hn)
          have hbt := lookupType_builtin (ord := ord) hp (own := ((parsed.get (target r)).getD {}).types) (by
            intro n t hn
            obtain ⟨s, hk, hn⟩ := hown' n t hn
            obtain ⟨id, he, -⟩ := hp.addr _ s n t hk hn
            exact ⟨id, he⟩)
          obtain ⟨r1, r2⟩ := resolveTypes_some _ (fun n t h => good_not_link hp (hlk n t h)) _ H H1 h1
          have g1 : ∀ (id : Nat) o, H1[id]? = some o → ∃ o0, H0[id]? = some o0 ∧ Reached H0 o0 o := by
            intro id o ho
            have hlt : id < H.length := by rw [← r1]; exact (List.getElem?_eq_some_iff.mp ho).1
            have he := r2 id _ (List.getElem?_eq_getElem hlt)
            rw [ho] at he
            obtain ⟨o0, h0, hgo⟩ := hg id _ (List.getElem?_eq_getElem hlt)
            refine ⟨o0, h0, ?_⟩
            rw [Option.some.inj he]
            split
            · exact reached_mapTy hgo (linkTo_renames hnm hbt)
            · exact hgo
          have hsm := propagateAll_same _ _ _ h3
          refine ih _ _ _ _ _ hd.2 ?_ ?_ h
          · intro r' hr'
            rw [GoMap.get_set, if_neg]
            · exact hsame r' (by simp [hr'])
            · exact fun e => hd.1 (List.mem_map.mpr ⟨r', hr', e.symm⟩)
          · intro id o ho
            have hlt : id < H1.length := by rw [← hsm.1]; exact (List.getElem?_eq_some_iff.mp ho).1
            obtain ⟨m, hm⟩ := hsm.2 id _ (List.getElem?_eq_getElem hlt)
            rw [ho] at hm
            cases hm
            obtain ⟨o0, h0, hgo⟩ := g1 id _ (List.getElem?_eq_getElem hlt)
            exact ⟨o0, h0, reached_withMixed hgo m⟩

/-- An object of the result, the one that was read, and what became of the types that it mentions. -/
def Joined (ss : List Schema) (H : THeap) (o0 o : TObj) : Prop :=
  ∃ f m, o = (o0.mapTy f).withMixed m ∧ (∀ b, f (.builtin b) = .builtin b) ∧ ∀ t ∈ o0.tys, ∀ n, Named n t → Denotes ss H n (f t)

/-- Everything that was read has its links replaced by the types of those names. -/
theorem parse_linked {env : ParseEnv} {ord : MapOrder} {roots : List Element} {ss : List Schema} {H : THeap} (hd : (roots.map target).Nodup)
    (ht : ∀ r ∈ roots, (typeNames r).Nodup) (hu : ∀ r ∈ roots, target r = [] → denoted r.scope b!"_self" = selfName r)
    (h : parseSchemas env ord roots = .ok (ss, H)) : ∀ r ∈ roots, ∃ s ∈ ss, s.targetNS = target r ∧
      (∀ e ∈ typeDecls r, ∃ (id : Nat) (o0 o : TObj), s.types.get (defines (target r) e) = some (.obj id) ∧ H[id]? = some o ∧
        parseDecl env (target r) e = some o0 ∧ Joined ss H o0 o) ∧
      ∃ (id : Nat) (self : ComplexT) (o : TObj), s.types.get (selfName r) = some (.obj id) ∧ H[id]? = some o ∧
        parseComplexType env (target r) (selfTree r) = some self ∧ Joined ss H (.complex self) o := by
  obtain ⟨p0, H0, parsed, h0, h1, rfl⟩ := parseSchemas_run h
  have hc : Cov roots p0 H0 := parseRoots_cov roots [] p0 [] H0 (fun r hr => ⟨hr, rfl, ht r hr, hu r hr⟩) hd
    ⟨by simp, by simp [GoMap.get_nil], by simp [GoMap.get_nil]⟩ h0
  obtain ⟨hp, _, hout, hin⟩ := parsed_roots roots parsed_nil h0
  have hsome : ∀ r ∈ roots, p0.get (target r) ≠ none := by
    intro r hr
    obtain ⟨_, _, _, s, _, _, hs, _⟩ := hin _ (List.mem_map.mpr ⟨r, hr, rfl⟩)
    rw [hs]; simp
  obtain ⟨done, hi, -, hdone⟩ := finishRoots_inv hp roots [] p0 H0 0 parsed H (fun r hr => ⟨hr, hsome r hr⟩) (inv_start hp roots) h1
  have hrel := finishRoots_reached hp (by
    intro k s n t hk hn
    obtain ⟨id, o, rfl, hid, rfl⟩ := hc.named k s n t hk hn
    simp only [xmlName, hid]) roots p0 H0 0 parsed H hd (fun _ _ => rfl) (fun id o ho => ⟨o, ho, reached_refl H0 o⟩) h1
  -- what a type of the first loop is in the result
  have hfinal : ∀ t n, Good p0 t → xmlName H0 t = n → (∀ b : Int, 0 ≤ b → b < 50 → builtinName b ≠ n) → (∀ b, t ≠ .builtin b) →
      Denotes (roots.map (fun r => (parsed.get (target r)).getD {}) ++ [builtinSchema]) H n t := by
    intro t n hg hn hb hnb
    rcases hg with ⟨b, rfl⟩ | ⟨k, s0, n', hk, hn'⟩
    · exact absurd rfl (hnb b)
    · obtain ⟨id, o, rfl, hid, rfl⟩ := hc.named k s0 n' t hk hn'
      simp only [xmlName, hid] at hn
      subst hn
      obtain ⟨r, hr, rfl, -⟩ := hc.from_ k s0 hk
      obtain ⟨s, hs, -, hsub⟩ := hi.keys _ s0 hk
      have hlt : id < H.length := by rw [hi.len]; exact (List.getElem?_eq_some_iff.mp hid).1
      obtain ⟨o0, ho0, hev⟩ := hi.evo _ _ (List.getElem?_eq_getElem hlt)
      rw [hid] at ho0
      cases ho0
      refine Or.inr ⟨hb, s, ?_, id, _, hsub _ _ hn', List.getElem?_eq_getElem hlt, evolved_name hev, rfl⟩
      refine List.mem_append_left _ (List.mem_map.mpr ⟨r, hr, ?_⟩)
      rw [hs]; rfl
  have hlinked : ∀ r ∈ roots, ∀ s0, p0.get (target r) = some s0 → ∀ (n : XName) (id : Nat), s0.types.get n = some (.obj id) → ∀ o0, H0[id]? = some o0 →
      ∃ o, H[id]? = some o ∧ Joined (roots.map (fun r => (parsed.get (target r)).getD {}) ++ [builtinSchema]) H o0 o := by
    intro r hr s0 hs0 n id hn o0 ho0
    have hlt : id < H.length := by rw [hi.len]; exact (List.getElem?_eq_some_iff.mp ho0).1
    obtain ⟨o0', ho0', f, m, hf, he⟩ := hrel id _ (List.getElem?_eq_getElem hlt)
    rw [ho0] at ho0'
    cases ho0'
    refine ⟨_, List.getElem?_eq_getElem hlt, f, m, he, fun b => hf.1 _ rfl, ?_⟩
    intro t htm n' hnm
    rcases hnm with ⟨b, b1, b2, b3, rfl⟩ | ⟨hb, rfl⟩
    · rw [hf.1 _ rfl]
      exact Or.inl ⟨b, b1, b2, b3, rfl⟩
    · have hgood := hi.done _ (hdone r hr) s0 hs0 n id hn _ (List.getElem?_eq_getElem hlt) (f (.link n')) (by
        rw [he, withMixed_tys, tys_mapTy]
        exact List.mem_map_of_mem htm)
      have hx := hf.2.1 (.link n')
      refine hfinal _ n' hgood hx hb ?_
      intro b eb
      rw [eb] at hx
      rcases hf.2.2 _ b eb with e1 | ⟨b1, b2⟩
      · cases e1
      · exact hb b b1 b2 hx
  intro r hr
  obtain ⟨r', hr', he, s0, Hr, Hr', hs0, hpt, hpre⟩ := hin (target r) (List.mem_map.mpr ⟨r, hr, rfl⟩)
  cases List.inj_on_of_nodup_map hd hr' hr he.symm
  obtain ⟨s, hs, htns, hsub⟩ := hi.keys _ s0 hs0
  obtain ⟨os, self, ho1, ho2, rfl, hs4, hs5⟩ := parseTypes_eq hpt
  have hforall := (mapOpt_some_iff _ _ _).mp ho1
  obtain ⟨hlen, hget⟩ := List.forall₂_iff_get.mp hforall
  have hname : ∀ j (hj : j < os.length), os[j].name = defines (target r) ((typeDecls r)[j]'(by omega)) := fun j hj =>
    (parseDecl_header (hget j (by omega) hj)).1
  have hnames : os.map (·.name) = (typeDecls r).map (defines (target r)) := by
    refine List.ext_getElem (by simp [hlen]) fun j h1 h2 => ?_
    simp only [List.getElem_map]
    exact hname j (by simpa using h1)
  have hs5' : s0.types = enter [] Hr.length (typeNames r) := by rw [hs5, hnames]; rfl
  refine ⟨s, ?_, by rw [htns, hs4]; rfl, ?_, ?_⟩
  · refine List.mem_append_left _ (List.mem_map.mpr ⟨r, hr, ?_⟩)
    rw [hs]; rfl
  · intro e hem
    obtain ⟨j, hj, rfl⟩ := List.getElem_of_mem hem
    have hjo : j < os.length := by omega
    have hg0 : s0.types.get (defines (target r) (typeDecls r)[j]) = some (.obj (Hr.length + j)) := by
      rw [hs5', get_enter_nodup (ht r hr)]
      refine ⟨j, ?_, rfl⟩
      unfold typeNames
      rw [List.getElem?_append_left (by simpa using hj), List.getElem?_map, List.getElem?_eq_getElem hj]
      rfl
    have hH0 : H0[Hr.length + j]? = some os[j] := by
      obtain ⟨rest, rfl⟩ := hpre
      rw [List.append_assoc, List.append_assoc, List.getElem?_append_right (by omega), Nat.add_sub_cancel_left,
        List.getElem?_append_left hjo, List.getElem?_eq_getElem hjo]
    obtain ⟨o, ho, hl⟩ := hlinked r hr s0 hs0 _ _ hg0 _ hH0
    exact ⟨_, _, o, hsub _ _ hg0, ho, hget j hj hjo, hl⟩
  · have hg0 : s0.types.get (selfName r) = some (.obj (Hr.length + os.length)) := by
      rw [hs5', get_enter_nodup (ht r hr)]
      refine ⟨os.length, ?_, rfl⟩
      unfold typeNames
      rw [List.getElem?_append_right (by simp [hlen])]
      simp [hlen]
    have hH0 : H0[Hr.length + os.length]? = some (.complex self) := by
      obtain ⟨rest, rfl⟩ := hpre
      rw [List.append_assoc, List.append_assoc, List.getElem?_append_right (by omega), Nat.add_sub_cancel_left,
        List.getElem?_append_right (by omega)]
      simp
    obtain ⟨o, ho, hl⟩ := hlinked r hr s0 hs0 _ _ hg0 _ hH0
    exact ⟨_, _, o, hsub _ _ hg0, ho, ho2, hl⟩

end GoXml.Xsd
