import Verif.Spec.XsdMissing
import Verif.Proofs.XsdErrors
import Verif.Proofs.XsdPipeline
import Verif.Proofs.XsdOrder
set_option autoImplicit false

/-! Lemmas about the errors for types that are not defined. -/

namespace GoXml.Xsd
open Wsdl (attrNamed)

theorem firstMissing_none {α : Type} (lk : XName → Option Ty) (type : α → Ty) (text : α → XName → Str) (as : List α) :
    firstMissing lk type text as = none ↔ ∀ a ∈ as, ∀ n, type a = .link n → lk n ≠ none := by
  induction as with
  | nil => simp [firstMissing]
  | cons a as ih =>
    rw [firstMissing]
    cases ha : type a with
    | link n => cases hn : lk n with
      | none =>
        simp only [hn, reduceCtorEq, false_iff]
        exact fun h => h a (by simp) n ha hn
      | some t => simp only [ih, List.mem_cons, forall_eq_or_imp, ha, Ty.link.injEq, forall_eq', hn, ne_eq, reduceCtorEq, not_false_eq_true, true_and]
    | builtin b => simp [ih, ha]
    | obj i => simp [ih, ha]

theorem firstMissing_some {α : Type} {lk : XName → Option Ty} {type : α → Ty} {text : α → XName → Str} {as : List α} {x : Str}
    (h : firstMissing lk type text as = some x) : ∃ a ∈ as, ∃ n, type a = .link n ∧ lk n = none ∧ x = text a n := by
  induction as with
  | nil => cases h
  | cons a as ih =>
    have step : firstMissing lk type text as = some x → ∃ b ∈ a :: as, ∃ n, type b = .link n ∧ lk n = none ∧ x = text b n := fun h =>
      let ⟨b, hb, r⟩ := ih h
      ⟨b, List.mem_cons_of_mem _ hb, r⟩
    rw [firstMissing] at h
    cases ha : type a with
    | link n =>
      rw [ha] at h
      cases hn : lk n with
      | none => simp only [hn, Option.some.injEq] at h; exact ⟨a, by simp, n, ha, hn, h.symm⟩
      | some t => simp only [hn] at h; exact step h
    | builtin b => rw [ha] at h; exact step h
    | obj i => rw [ha] at h; exact step h

theorem missingIn_none (quote : Str → Str) (lk : XName → Option Ty) (o : TObj) :
    missingIn quote lk o = none ↔ ¬ ∃ n, Ty.link n ∈ o.tys ∧ lk n = none := by
  cases o with
  | complex c =>
    rw [missingIn, or_none, or_none, firstMissing_none, firstMissing_none, firstMissing_none]
    simp only [TObj.tys, List.mem_append, List.mem_map, not_exists, not_and, id]
    constructor
    · rintro ⟨h1, h2, h3⟩ n ((h | ⟨e, he, h⟩) | ⟨a, ha, h⟩)
      · exact h1 _ h n rfl
      · exact h2 e he n h
      · exact h3 a ha n h
    · intro h
      exact ⟨fun a ha n hn => h n (Or.inl (Or.inl (hn ▸ ha))), fun e he n hn => h n (Or.inl (Or.inr ⟨e, he, hn⟩)),
        fun a ha n hn => h n (Or.inr ⟨a, ha, hn⟩)⟩
  | simple s =>
    rw [missingIn, or_none, firstMissing_none, firstMissing_none]
    simp only [TObj.tys, List.mem_append, not_exists, not_and, id]
    constructor
    · rintro ⟨h1, h2⟩ n (h | h)
      · exact h1 _ h n rfl
      · exact h2 _ h n rfl
    · intro h
      exact ⟨fun a ha n hn => h n (Or.inl (hn ▸ ha)), fun a ha n hn => h n (Or.inr (hn ▸ ha))⟩

theorem missingIn_some {quote : Str → Str} {lk : XName → Option Ty} {o : TObj} {x : Str} (h : missingIn quote lk o = some x) :
    ∃ n, TellsUse quote o n x ∧ lk n = none := by
  cases o with
  | complex c =>
    rw [missingIn] at h
    rcases or_some h with h | h
    · obtain ⟨a, ha, n, hn, hl, rfl⟩ := firstMissing_some h
      exact ⟨n, .base (by rw [Option.mem_toList] at ha; rw [show c.base = some a from ha]; exact congrArg some hn), hl⟩
    rcases or_some h with h | h
    · obtain ⟨a, ha, n, hn, hl, rfl⟩ := firstMissing_some h
      exact ⟨n, .element ha hn, hl⟩
    · obtain ⟨a, ha, n, hn, hl, rfl⟩ := firstMissing_some h
      exact ⟨n, .attr ha hn, hl⟩
  | simple s =>
    rw [missingIn] at h
    rcases or_some h with h | h
    · obtain ⟨a, ha, n, hn, hl, rfl⟩ := firstMissing_some h
      exact ⟨n, .simpleBase (by rw [Option.mem_toList] at ha; rw [show s.base = some a from ha]; exact congrArg some hn), hl⟩
    · obtain ⟨a, ha, n, hn, hl, rfl⟩ := firstMissing_some h
      exact ⟨n, .member (hn ▸ ha), hl⟩

/-! ### Objects on the way -/

/-- `o` is `o0` with some links replaced by types, and perhaps another flag. -/
def Later (o0 o : TObj) : Prop := ∃ (f : Ty → Ty) (m : Bool), (∀ t, f t = t ∨ (f t).isLink = false) ∧ o = (o0.mapTy f).withMixed m

theorem later_refl (o : TObj) : Later o o :=
  ⟨id, o.mixedFlag, fun _ => Or.inl rfl, by rw [mapTy_id id o (fun _ _ => rfl), withMixed_flag]⟩

theorem later_mixed {o0 o : TObj} (h : Later o0 o) (m : Bool) : Later o0 (o.withMixed m) := by
  obtain ⟨f, m', hf, rfl⟩ := h
  exact ⟨f, m, hf, by cases o0 <;> rfl⟩

theorem later_map {o0 o : TObj} (h : Later o0 o) (g : Ty → Ty) (hg : ∀ t, g t = t ∨ (g t).isLink = false) : Later o0 (o.mapTy g) := by
  obtain ⟨f, m, hf, rfl⟩ := h
  refine ⟨g ∘ f, m, fun t => ?_, ?_⟩
  · rcases hf t with h | h
    · rw [Function.comp, h]; exact hg t
    · rcases hg (f t) with h' | h'
      · rw [Function.comp, h']; exact Or.inr h
      · exact Or.inr h'
  · cases o0 with
    | complex c => simp [TObj.mapTy, TObj.withMixed, List.map_map, Function.comp_def, Option.map_map]
    | simple s => simp [TObj.mapTy, TObj.withMixed, List.map_map, Function.comp_def, Option.map_map]

theorem linkTo_later (lk : XName → Option Ty) (hlk : ∀ n t, lk n = some t → t.isLink = false) (t : Ty) :
    linkTo lk t = t ∨ (linkTo lk t).isLink = false := by
  cases t with
  | builtin b => exact Or.inl rfl
  | obj i => exact Or.inl rfl
  | link n =>
    cases h : lk n with
    | none => exact Or.inl (by simp [linkTo, h])
    | some t => exact Or.inr (by simpa [linkTo, h] using hlk n t h)

theorem link_back {f : Ty → Ty} (hf : ∀ t, f t = t ∨ (f t).isLink = false) {t : Ty} {n : XName} (h : f t = .link n) : t = .link n := by
  rcases hf t with h' | h'
  · exact h'.symm.trans h
  · rw [h] at h'; cases h'

/-- What a later object refers to was referred to before. -/
theorem tells_later {quote : Str → Str} {o0 o : TObj} {n : XName} {x : Str} (hl : Later o0 o) (h : TellsUse quote o n x) :
    TellsUse quote o0 n x := by
  obtain ⟨f, m, hf, rfl⟩ := hl
  cases o0 with
  | complex c =>
    generalize hc : ((TObj.complex c).mapTy f).withMixed m = o at h
    cases h with
    | base h =>
      cases hc
      simp only [Option.map_eq_some_iff] at h
      obtain ⟨t, ht, he⟩ := h
      exact .base (by rw [ht, link_back hf he])
    | element h1 h2 =>
      cases hc
      obtain ⟨e, he, rfl⟩ := List.mem_map.mp h1
      exact .element (e := e) he (link_back hf h2)
    | attr h1 h2 =>
      cases hc
      obtain ⟨e, he, rfl⟩ := List.mem_map.mp h1
      exact .attr (a := e) he (link_back hf h2)
    | simpleBase h => cases hc
    | member h => cases hc
  | simple s =>
    generalize hc : ((TObj.simple s).mapTy f).withMixed m = o at h
    cases h with
    | simpleBase h =>
      cases hc
      simp only [Option.map_eq_some_iff] at h
      obtain ⟨t, ht, he⟩ := h
      exact .simpleBase (by rw [ht, link_back hf he])
    | member h =>
      cases hc
      obtain ⟨t, ht, he⟩ := List.mem_map.mp h
      exact .member (link_back hf he ▸ ht)
    | base h => cases hc
    | element h => cases hc
    | attr h => cases hc

/-! ### The loops -/

def AllLater (H0 H : THeap) : Prop := ∀ (id : Nat) o, H[id]? = some o → ∃ o0, H0[id]? = some o0 ∧ Later o0 o

theorem resolveFault_iff (quote : Str → Str) (lk : XName → Option Ty) (ts : List Ty) :
    ∀ H : THeap, (∀ t ∈ ts, t.isLink = false ∧ ∀ id, t = .obj id → id < H.length) →
      (resolveTypes lk H ts = none ↔ resolveFault quote lk H ts ≠ none) := by
  classical
  induction ts with
  | nil => intro H _; simp [resolveTypes, resolveFault]
  | cons t ts ih =>
    intro H hv
    have hv' : ∀ t ∈ ts, t.isLink = false ∧ ∀ id, t = .obj id → id < H.length := fun t ht => hv t (by simp [ht])
    cases t with
    | builtin b => rw [resolveTypes, resolveFault]; exact ih H hv'
    | link n => exact absurd (hv (.link n) (by simp)).1 (by simp [Ty.isLink])
    | obj i =>
      have hlt := (hv (.obj i) (by simp)).2 i rfl
      obtain ⟨o, ho⟩ : ∃ o, H[i]? = some o := ⟨_, List.getElem?_eq_getElem hlt⟩
      rw [resolveTypes, resolveFault, ho]
      simp only
      rw [resolveObj_eq]
      have hm := missingIn_none quote lk o
      cases hmi : missingIn quote lk o with
      | none =>
        rw [if_neg (hm.mp hmi)]
        simp only
        apply ih
        intro t ht
        refine ⟨(hv' t ht).1, fun id he => ?_⟩
        rw [List.length_set]
        exact (hv' t ht).2 id he
      | some x =>
        have : ∃ n, Ty.link n ∈ o.tys ∧ lk n = none := by
          by_contra hn
          rw [hm.mpr hn] at hmi; cases hmi
        rw [if_pos this]
        simp

theorem resolveFault_some {quote : Str → Str} {lk : XName → Option Ty} (hlk : ∀ n t, lk n = some t → t.isLink = false) {H0 : THeap}
    (ts : List Ty) : ∀ (H : THeap) (x : Str), AllLater H0 H → resolveFault quote lk H ts = some x →
      ∃ (id : Nat) (o0 : TObj) (n : XName), Ty.obj id ∈ ts ∧ H0[id]? = some o0 ∧ TellsUse quote o0 n x ∧ lk n = none := by
  classical
  induction ts with
  | nil => intro H x _ h; cases h
  | cons t ts ih =>
    intro H x hl h
    have step : ∀ H, AllLater H0 H → resolveFault quote lk H ts = some x →
        ∃ (id : Nat) (o0 : TObj) (n : XName), Ty.obj id ∈ t :: ts ∧ H0[id]? = some o0 ∧ TellsUse quote o0 n x ∧ lk n = none :=
      fun H hl h => let ⟨id, o0, n, h1, h2⟩ := ih H x hl h; ⟨id, o0, n, List.mem_cons_of_mem _ h1, h2⟩
    cases t with
    | builtin b => rw [resolveFault] at h; exact step H hl h
    | link n => cases h
    | obj i =>
      rw [resolveFault] at h
      split at h
      · cases h
      · rename_i o ho
        obtain ⟨o0, h0, hlo⟩ := hl i o ho
        split at h
        · rename_i x' hx
          cases h
          obtain ⟨n, h1, h2⟩ := missingIn_some hx
          exact ⟨i, o0, n, by simp, h0, tells_later hlo h1, h2⟩
        · split at h
          · cases h
          · rename_i o' ho'
            refine step _ ?_ h
            rw [resolveObj_eq] at ho'
            split at ho'
            · cases ho'
            · cases ho'
              intro id o1 h1
              rw [List.getElem?_set] at h1
              split at h1
              · rename_i hid
                subst hid
                split at h1
                · cases h1; exact ⟨o0, h0, later_map hlo _ (linkTo_later lk hlk)⟩
                · cases h1
              · exact hl id o1 h1

theorem aliasFault_iff (tns : Str) (ext : GoMap XName Ty) (els : List Element) : ∀ types : GoMap XName Ty,
    addAliases tns ext types els = none ↔ aliasFault tns ext types els ≠ none := by
  induction els with
  | nil => intro types; simp [addAliases, aliasFault]
  | cons el els ih =>
    intro types
    simp only [addAliases, aliasFault]
    split
    · exact ih types
    · split
      · exact ih types
      · cases types.get (resolveDefault el.scope (el.attr [] b!"name") tns) with
        | some t => exact ih types
        | none =>
          simp only
          cases lookupType types ext (resolve el.scope (el.attr [] b!"type")) with
          | none => simp
          | some t => exact ih _

theorem aliasFault_some {tns : Str} {ext : GoMap XName Ty} {els : List Element} : ∀ {types : GoMap XName Ty} {x : Str},
    aliasFault tns ext types els = some x → ∃ (own : GoMap XName Ty) (n : XName), lookupType own ext n = none ∧
      ∃ el ∈ els, el.name = ⟨w3cSchemaNS, b!"element"⟩ ∧ n = Wsdl.refersTo el b!"type" ∧
        x = b!"could not lookup type " ++ prefixOf el.scope n ++ b!" for element " ++ prefixOf el.scope (Wsdl.defines tns el) := by
  induction els with
  | nil => intro types x h; cases h
  | cons el els ih =>
    intro types x h
    have step : ∀ types, aliasFault tns ext types els = some x → ∃ (own : GoMap XName Ty) (n : XName), lookupType own ext n = none ∧
      ∃ el' ∈ el :: els, el'.name = ⟨w3cSchemaNS, b!"element"⟩ ∧ n = Wsdl.refersTo el' b!"type" ∧
        x = b!"could not lookup type " ++ prefixOf el'.scope n ++ b!" for element " ++ prefixOf el'.scope (Wsdl.defines tns el') :=
      fun types h => let ⟨own, n, h1, e, he, h2⟩ := ih (types := types) h; ⟨own, n, h1, e, List.mem_cons_of_mem _ he, h2⟩
    simp only [aliasFault] at h
    split at h
    · exact step _ h
    · rename_i hname
      split at h
      · exact step _ h
      · split at h
        · exact step _ h
        · split at h
          · rename_i hlk
            cases h
            refine ⟨types, _, hlk, el, by simp, not_not.mp hname, ?_, ?_⟩
            · rw [Wsdl.attr_eq, Wsdl.resolve_eq]; rfl
            · rw [Wsdl.resolveDefault_eq]
          · exact step _ h

/-- A name that is not found is not defined. -/
theorem undefined_of {ord : MapOrder} {p0 : GoMap Str Schema} {H0 : THeap} {own : GoMap XName Ty} {n : XName}
    (h : lookupType own (extOf ord p0 H0) n = none) : Undefined p0 H0 n := by
  have hm : ∀ t, ¬ Meaning (extOf ord p0 H0).get own.get n t := fun t ht => by
    rw [(lookupType_iff own _ n t).mpr ht] at h; cases h
  have hb : ∀ b : Int, 0 ≤ b → b < 50 → builtinName b ≠ n := fun b h1 h2 he => hm (.builtin b) (Or.inl ⟨b, h1, h2, he, rfl⟩)
  refine ⟨hb, fun k s m t hk hs he => ?_⟩
  have : (extOf ord p0 H0).get n ≠ none := by
    apply collectAll_mem
    exact Or.inr ⟨s, (ord.perm 0 0 _).mem_iff.mpr (List.mem_map.mpr ⟨(k, s), GoMap.get_some_mem hk, rfl⟩), t,
        List.mem_map.mpr ⟨(m, t), GoMap.get_some_mem hs, rfl⟩, he⟩
  obtain ⟨t', ht'⟩ := Option.ne_none_iff_exists'.mp this
  exact hm t' (Or.inr ⟨hb, Or.inl ht'⟩)

/-- The error of the second loop. -/
theorem finishFault_spec {quote : Str → Str} {ord : MapOrder} {p0 : GoMap Str Schema} {H0 : THeap} (hp : Parsed p0 H0) {roots : List Element}
    (rs : List Element) : ∀ (done : List Str) (parsed : GoMap Str Schema) (H : THeap) (j : Nat),
    (∀ r ∈ rs, r ∈ roots ∧ p0.get (target r) ≠ none) → Inv p0 H0 roots done parsed H → AllLater H0 H →
    (finishRoots ord (extOf ord p0 H0) parsed H j rs = .error ↔ finishFault quote ord (extOf ord p0 H0) parsed H j rs ≠ none) ∧
    ∀ x, finishFault quote ord (extOf ord p0 H0) parsed H j rs = some x →
      ∃ n, Undefined p0 H0 n ∧ ((∃ k s m id o, p0.get k = some s ∧ s.types.get m = some (.obj id) ∧ H0[id]? = some o ∧ TellsUse quote o n x) ∨
        ∃ r ∈ rs, TellsElement (target r) r n x) := by
  induction rs with
  | nil => intro done parsed H j _ _ _; simp [finishRoots, finishFault]
  | cons r rs ih =>
    intro done parsed H j hrs hi hl
    rw [finishRoots, finishFault]
    simp only [Wsdl.attr_eq]
    have hmem := (hrs r (by simp)).2
    obtain ⟨s0, hs0⟩ := Option.ne_none_iff_exists'.mp hmem
    obtain ⟨s, hs, htns, hsub⟩ := hi.keys _ s0 hs0
    have hs' : (parsed.get (attrNamed r b!"targetNamespace")).getD {} = s := by
      rw [show attrNamed r b!"targetNamespace" = target r from rfl, hs]; rfl
    rw [hs']
    have hown := hi.vals _ s hs
    have hgood := lookupType_good (ord := ord) hp hown
    have hlk : ∀ n t, lookupType s.types (extOf ord p0 H0) n = some t → t.isLink = false := fun n t h => good_not_link hp (hgood n t h)
    have hobj : ∀ t ∈ ord.run 2 j (s.types.map (·.2)), Good p0 t := by
      intro t ht
      obtain ⟨⟨n', t'⟩, hm', rfl⟩ := List.mem_map.mp ((ord.perm 2 j _).mem_iff.mp ht)
      exact hown n' t' (GoMap.get_of_mem (hi.wf _ _ hs) hm')
    have hall : ∀ t ∈ ord.run 2 j (s.types.map (·.2)), t.isLink = false ∧ ∀ id, t = .obj id → id < H.length := by
      intro t ht
      refine ⟨good_not_link hp (hobj t ht), fun id he => ?_⟩
      rw [hi.len]; exact good_addr hp (he ▸ hobj t ht)
    have hiff := resolveFault_iff quote (lookupType s.types (extOf ord p0 H0)) _ H hall
    cases hrf : resolveFault quote (lookupType s.types (extOf ord p0 H0)) H (ord.run 2 j (s.types.map (·.2))) with
    | some x =>
      rw [hiff.mpr (by simp [hrf])]
      refine ⟨by simp, fun y hy => ?_⟩
      cases hy
      obtain ⟨id, o, n, h1, h2, h3, h4⟩ := resolveFault_some hlk _ H x hl hrf
      refine ⟨n, undefined_of h4, Or.inl ?_⟩
      rcases hobj _ h1 with ⟨b, hb⟩ | ⟨k, s1, m, hk, hm⟩
      · cases hb
      · exact ⟨k, s1, m, id, o, hk, hm, h2, h3⟩
    | none =>
      cases hrt : resolveTypes (lookupType s.types (extOf ord p0 H0)) H (ord.run 2 j (s.types.map (·.2))) with
      | none => exact absurd hrf (hiff.mp hrt)
      | some H1 =>
        simp only
        have i1 := inv_resolve (ord := ord) hp hi (target r) s hs'.symm _ (ord.perm 2 j _) hrt
        have l1 : AllLater H0 H1 := by
          classical
          obtain ⟨r1, r2⟩ := resolveTypes_some _ hlk _ H H1 hrt
          intro id o ho
          have hlt : id < H.length := by rw [← r1]; exact (List.getElem?_eq_some_iff.mp ho).1
          have := r2 id _ (List.getElem?_eq_getElem hlt)
          rw [ho] at this
          obtain ⟨o0, h0, hlo⟩ := hl id _ (List.getElem?_eq_getElem hlt)
          refine ⟨o0, h0, ?_⟩
          split at this
          · cases this; exact later_map hlo _ (linkTo_later _ hlk)
          · cases this; exact hlo
        have hai := aliasFault_iff s.targetNS (extOf ord p0 H0) r.children s.types
        cases haf : aliasFault s.targetNS (extOf ord p0 H0) s.types r.children with
        | some x =>
          rw [hai.mpr (by simp [haf])]
          refine ⟨by simp, fun y hy => ?_⟩
          cases hy
          obtain ⟨own, n, h1, el, h2, h3, h4, h5⟩ := aliasFault_some haf
          have : s.targetNS = target r := htns.trans (hp.key _ _ hs0)
          exact ⟨n, undefined_of h1, Or.inr ⟨r, by simp, el, h2, h3, h4, this ▸ h5⟩⟩
        | none =>
          cases hat : addAliases s.targetNS (extOf ord p0 H0) s.types r.children with
          | none => exact absurd haf (hai.mp hat)
          | some types =>
            simp only
            cases hpr : propagateAll H1 (ord.run 3 j (types.map (·.2))) with
            | none => simp
            | some H2 =>
              simp only
              obtain ⟨i2, _⟩ := inv_aliases hp i1 r (hrs r (by simp)).1 s hmem hs'.symm types hat
              have hsm := propagateAll_same _ _ _ hpr
              have i3 := inv_same i2 hsm
              have l2 : AllLater H0 H2 := by
                intro id o ho
                have hlt : id < H1.length := by rw [← hsm.1]; exact (List.getElem?_eq_some_iff.mp ho).1
                obtain ⟨m, hm⟩ := hsm.2 id _ (List.getElem?_eq_getElem hlt)
                rw [ho] at hm
                cases hm
                obtain ⟨o0, h0, hlo⟩ := l1 id _ (List.getElem?_eq_getElem hlt)
                exact ⟨o0, h0, later_mixed hlo m⟩
              obtain ⟨a1, a2⟩ := ih _ _ _ (j + 1) (fun r' hr' => hrs r' (by simp [hr'])) i3 l2
              refine ⟨a1, fun x hx => ?_⟩
              obtain ⟨n, hn, h⟩ := a2 x hx
              refine ⟨n, hn, h.imp_right ?_⟩
              rintro ⟨r', hr', h⟩
              exact ⟨r', List.mem_cons_of_mem _ hr', h⟩

end GoXml.Xsd
