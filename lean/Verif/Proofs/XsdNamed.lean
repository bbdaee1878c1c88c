import Verif.Proofs.XsdgenDocuments
import Verif.Spec.WsdlgenFile
set_option autoImplicit false

/-! Helper lemmas: the types that the declarations of a schema mention. -/

namespace GoXml.Xsd
open Wsdl (attrNamed allNamed searchEl below belows defines refersTo)

/-- The base is fine, and so are the types of elements and attributes. -/
structure FineName (P B : Ty → Prop) (c : ComplexT) : Prop where
  base : ∀ b, c.base = some b → B b
  elements : ∀ e ∈ c.elements, P e.type
  attributes : ∀ a ∈ c.attributes, P a.type

theorem refers_eq (el : Element) (loc : Str) : resolve el.scope (el.attr [] loc) = refersTo el loc := by
  rw [Wsdl.attr_eq, Wsdl.resolve_eq]; rfl

/-- A declaration whose type is looked up. -/
def UsesType (d : Element) : Prop :=
  d.name = ⟨schemaNS, b!"attribute"⟩ ∨ (d.name = ⟨schemaNS, b!"element"⟩ ∨ d.name = ⟨schemaNS, b!"any"⟩) ∧ attrNamed d b!"type" ≠ []

/-- A derivation whose base is looked up. -/
def UsesBase (d : Element) : Prop := d.name = ⟨schemaNS, b!"extension"⟩ ∨ d.name = ⟨schemaNS, b!"restriction"⟩

theorem uses_search {el d : Element} {loc : Str} (h : d ∈ searchEl el schemaNS loc) : d ∈ below el ∧ d.name = ⟨schemaNS, loc⟩ := by
  rw [Wsdl.searchEl_eq _ _ _ (by decide)] at h
  exact ⟨(List.mem_filter.mp h).1, of_decide_eq_true (List.mem_filter.mp h).2⟩

theorem walkFold_inv_ns {σ : Type} (P : σ → Prop) (f : σ → Element → Option σ) (es : List Element) :
    ∀ s r, (∀ s e s', e ∈ es → e.name.space = schemaNS → P s → f s e = some s' → P s') → P s → walkFold f s es = some r → P r := by
  induction es with
  | nil => intro s r _ hs h; cases h; exact hs
  | cons e es ih =>
    intro s r hf hs h
    rw [walkFold] at h
    split at h
    · exact ih s r (fun s e s' he => hf s e s' (by simp [he])) hs h
    · rename_i hns
      split at h
      · cases h
      · rename_i s' hs'
        exact ih s' r (fun s e s' he => hf s e s' (by simp [he])) (hf s e s' (by simp) (not_not.mp hns) hs hs') h

theorem xname_of {n : XName} {s l : Str} (h1 : n.space = s) (h2 : n.loc = l) : n = ⟨s, l⟩ := by
  cases n; cases h1; cases h2; rfl

theorem fine_parseElement {P : Ty → Prop} {env : ParseEnv} {ns : Str} {el : Element} {e : XElem} (h0 : P (.builtin AnyType))
    (h1 : attrNamed el b!"type" ≠ [] → P (parseType (refersTo el b!"type"))) (h : parseElement env ns el = some e) : P e.type := by
  unfold parseElement at h
  split at h
  · cases h
    simp only
    split
    · exact h0
    · rename_i ht
      rw [refers_eq]
      rw [Wsdl.attr_eq] at ht
      exact h1 ht
  · cases h

theorem fine_attributes {P : Ty → Prop} {env : ParseEnv} {ns : Str} {els : List Element} {as : List XAttr}
    (h1 : ∀ el ∈ els, P (parseType (refersTo el b!"type"))) (h : mapOpt (parseAttribute env ns) els = some as) : ∀ a ∈ as, P a.type := by
  intro a ha
  obtain ⟨el, hel, he⟩ := (List.forall₂_iff_get.mp (mapOpt_forall₂ h) |> fun ⟨hl, hg⟩ => by
    obtain ⟨i, hi, rfl⟩ := List.getElem_of_mem ha
    exact ⟨els[i]'(by omega), List.getElem_mem _, hg i (by omega) hi⟩ : ∃ el ∈ els, parseAttribute env ns el = some a)
  unfold parseAttribute at he
  split at he
  · cases he
  · cases he
    simp only
    rw [refers_eq]
    exact h1 el hel

theorem fine_elementLoop {P : Ty → Prop} (env : ParseEnv) (ns : Str) (h0 : P (.builtin AnyType)) (vs : List Element)
    (h1 : ∀ v ∈ vs, attrNamed v b!"type" ≠ [] → P (parseType (refersTo v b!"type"))) : ∀ (used : GoMap XName Nat) (elements out : List XElem),
    (∀ e ∈ elements, P e.type) → elementLoop env ns used elements vs = some out → ∀ e ∈ out, P e.type := by
  induction vs with
  | nil => intro used elements out he h; cases h; exact he
  | cons v vs ih =>
    intro used elements out he h
    have ih := ih fun v hv => h1 v (by simp [hv])
    rw [elementLoop] at h
    split at h
    · cases h
    · rename_i elt helt
      split at h
      · apply ih _ _ out _ h
        intro e hm
        rcases List.mem_append.mp hm with hm | hm
        · exact he e hm
        · simp only [List.mem_singleton] at hm
          subst hm; exact fine_parseElement h0 (h1 v (by simp)) helt
      · rename_i i _
        apply ih _ _ out _ h
        intro e hm
        obtain ⟨j, hj⟩ := List.mem_iff_getElem?.mp hm
        rw [List.getElem?_modify] at hj
        cases hx : elements[j]? with
        | none => rw [hx] at hj; cases hj
        | some x =>
          have hxm := he x (List.mem_of_getElem? hx)
          rw [hx] at hj
          simp only [Option.map_eq_map, Option.map_some, Option.some.injEq] at hj
          split at hj
          · subst hj; exact hxm
          · subst hj; exact hxm

theorem searchEl_below {el d : Element} {loc : Str} (h : d ∈ searchEl el schemaNS loc) : d ∈ below el := by
  rw [Wsdl.searchEl_eq _ _ _ (by decide)] at h
  exact (List.mem_filter.mp h).1

theorem fine_derivation {P B : Ty → Prop} {env : ParseEnv} {ns : Str} {ext : Bool} {t t' : ComplexT} {el : Element} (h0 : P (.builtin AnyType))
    (h1 : ∀ d ∈ below el, UsesType d → P (parseType (refersTo d b!"type"))) (h2 : B (parseType (refersTo el b!"base"))) (ht : FineName P B t)
    (h : complexDerivation env ns ext t el = some t') : FineName P B t' := by
  unfold complexDerivation at h
  split at h
  · cases h
  · rename_i any hany
    split at h
    · cases h
    · rename_i elements hels
      split at h
      · cases h
      · rename_i attrs hattrs
        cases h
        refine ⟨fun b hb => by cases hb; rw [refers_eq]; exact h2, ?_, ?_⟩
        · refine fine_elementLoop env ns h0 _ (fun v hv ht => h1 v (searchEl_below hv) (.inr ⟨.inl (uses_search hv).2, ht⟩)) _ _ elements ?_ hels
          intro e he
          rcases List.mem_append.mp he with he | he
          · exact ht.elements e he
          · cases hs : searchEl el schemaNS b!"any" with
            | nil => rw [hs] at hany; cases hany; cases he
            | cons v vs =>
              rw [hs, parseAny, Option.map_eq_some_iff] at hany
              obtain ⟨w, hw, rfl⟩ := hany
              simp only [List.mem_singleton] at he
              subst he
              unfold parseAnyElement at hw
              split at hw
              · cases hw
              · cases hw
                simp only
                split
                · rename_i ht
                  rw [refers_eq]
                  rw [Wsdl.attr_eq] at ht
                  have hv : v ∈ searchEl el schemaNS b!"any" := by rw [hs]; simp
                  exact h1 v (searchEl_below hv) (.inr ⟨.inr (uses_search hv).2, ht⟩)
                · exact h0
        · intro a ha
          rcases List.mem_append.mp ha with ha | ha
          · exact ht.attributes a ha
          · exact fine_attributes (fun v hv => h1 v (searchEl_below hv) (.inl (uses_search hv).2)) hattrs a ha

theorem fine_complexContent {P B : Ty → Prop} {env : ParseEnv} {ns : Str} {t t' : ComplexT} {el : Element} (h0 : P (.builtin AnyType))
    (h1 : ∀ d ∈ below el, UsesType d → P (parseType (refersTo d b!"type"))) (h2 : ∀ d ∈ el.children, UsesBase d → B (parseType (refersTo d b!"base"))) (ht : FineName P B t)
    (h : parseComplexContent env ns t el = some t') : FineName P B t' := by
  unfold parseComplexContent at h
  split at h
  · cases h
  · rw [Option.map_eq_some_iff] at h
    obtain ⟨r, h, rfl⟩ := h
    have := walkFold_inv_ns (fun s : ComplexT × Str => FineName P B s.1) _ _ _ r (by
      intro s e s' he hns hs hf
      split at hf
      · rename_i hl
        rw [Option.map_eq_some_iff] at hf
        obtain ⟨t1, h3, rfl⟩ := hf
        exact fine_derivation h0 (fun d hd => h1 d (mem_below_trans he hd)) (h2 e he (.inl (xname_of hns hl))) hs h3
      · split at hf
        · rename_i hl
          rw [Option.map_eq_some_iff] at hf
          obtain ⟨t1, h3, rfl⟩ := hf
          exact fine_derivation h0 (fun d hd => h1 d (mem_below_trans he hd)) (h2 e he (.inr (xname_of hns hl))) hs h3
        · split at hf
          · rw [Option.map_eq_some_iff] at hf
            obtain ⟨t1, h3, rfl⟩ := hf
            exact hs
          · cases hf) (by exact ⟨ht.base, ht.elements, ht.attributes⟩) h
    exact ⟨this.base, this.elements, this.attributes⟩

theorem fine_simpleContent {P B : Ty → Prop} {env : ParseEnv} {ns : Str} {t t' : ComplexT} {el : Element}
    (h1 : ∀ d ∈ below el, UsesType d → P (parseType (refersTo d b!"type"))) (h2 : ∀ d ∈ el.children, UsesBase d → B (parseType (refersTo d b!"base"))) (ht : FineName P B t)
    (h : parseSimpleContent env ns t el = some t') : FineName P B t' := by
  unfold parseSimpleContent at h
  rw [Option.map_eq_some_iff] at h
  obtain ⟨r, h, rfl⟩ := h
  have := walkFold_inv_ns (fun s : ComplexT × Str => FineName P B s.1) _ _ _ r (by
    intro s e s' he hns hs hf
    split at hf
    · rw [Option.map_eq_some_iff] at hf
      obtain ⟨t1, h3, rfl⟩ := hf
      exact hs
    · split at hf
      · rename_i hl
        cases hf
        exact ⟨fun b hb => by cases hb; rw [refers_eq]; exact h2 e he (.inr (xname_of hns hl)), hs.elements, hs.attributes⟩
      · split at hf
        · rename_i hl
          rw [Option.map_eq_some_iff] at hf
          obtain ⟨as, h3, rfl⟩ := hf
          refine ⟨fun b hb => by cases hb; rw [refers_eq]; exact h2 e he (.inl (xname_of hns hl)), hs.elements, ?_⟩
          intro a ha
          rcases List.mem_append.mp ha with ha | ha
          · exact hs.attributes a ha
          · exact fine_attributes (fun v hv => h1 v (mem_below_trans he (searchEl_below hv)) (.inl (uses_search hv).2)) h3 a ha
        · cases hf; exact hs) (by exact ⟨ht.base, ht.elements, ht.attributes⟩) h
  exact ⟨this.base, this.elements, this.attributes⟩

theorem fine_complexType {P B : Ty → Prop} {env : ParseEnv} {ns : Str} {t : ComplexT} {el : Element} (h0 : P (.builtin AnyType))
    (h1 : ∀ d ∈ below el, UsesType d → P (parseType (refersTo d b!"type")))
    (h2 : ∀ c ∈ el.children, c.name = ⟨schemaNS, b!"simpleContent"⟩ ∨ c.name = ⟨schemaNS, b!"complexContent"⟩ → ∀ d ∈ c.children, UsesBase d → B (parseType (refersTo d b!"base")))
    (h : parseComplexType env ns el = some t) : FineName P B t := by
  unfold parseComplexType at h
  split at h
  · rw [Option.map_eq_some_iff] at h
    obtain ⟨r, h, rfl⟩ := h
    have := walkFold_inv_ns (fun s : ComplexT × Str => FineName P B s.1) _ _ _ r (by
      intro s e s' he hns hs hf
      split at hf
      · rw [Option.map_eq_some_iff] at hf
        obtain ⟨t1, h3, rfl⟩ := hf
        exact hs
      · split at hf
        · rename_i hl
          rw [Option.map_eq_some_iff] at hf
          obtain ⟨t1, h3, rfl⟩ := hf
          exact fine_simpleContent (fun d hd => h1 d (mem_below_trans he hd)) (h2 e he (.inl (xname_of hns hl))) hs h3
        · split at hf
          · rename_i hl
            rw [Option.map_eq_some_iff] at hf
            obtain ⟨t1, h3, rfl⟩ := hf
            exact fine_complexContent h0 (fun d hd => h1 d (mem_below_trans he hd)) (h2 e he (.inr (xname_of hns hl))) hs h3
          · cases hf) (by exact ⟨by simp, by simp, by simp⟩) h
    exact ⟨this.base, this.elements, this.attributes⟩
  · cases h

theorem fine_simpleType {B : Ty → Prop} {env : ParseEnv} {ns : Str} {t : SimpleT} {el : Element} (h0 : B (.builtin AnySimpleType))
    (h1 : ∀ c ∈ el.children, (c.name = ⟨schemaNS, b!"restriction"⟩ → B (parseType (refersTo c b!"base"))) ∧ (c.name = ⟨schemaNS, b!"list"⟩ → B (parseType (refersTo c b!"itemType"))))
    (h : parseSimpleType env ns el = some t) : ∀ b, t.base = some b → B b := by
  unfold parseSimpleType at h
  rw [Option.map_eq_some_iff] at h
  obtain ⟨r, h, rfl⟩ := h
  exact walkFold_inv_ns (fun s : SimpleT × Str => ∀ b, s.1.base = some b → B b) _ _ _ r (by
    intro s e s' he hns hs hf
    unfold simpleStep at hf
    split at hf
    · rename_i hl
      rw [Option.map_eq_some_iff] at hf
      obtain ⟨t1, h3, rfl⟩ := hf
      intro b hb
      cases hb
      rw [refers_eq]
      exact (h1 e he).1 (xname_of hns hl)
    · split at hf
      · rename_i hl
        cases hf
        intro b hb
        cases hb
        rw [refers_eq]
        exact (h1 e he).2 (xname_of hns hl)
      · split at hf
        · cases hf
          intro b hb
          simp only at hb
          split at hb
          · exact hs b hb
          · cases hb; exact h0
        · split at hf
          · rw [Option.map_eq_some_iff] at hf
            obtain ⟨t1, h3, rfl⟩ := hf
            exact hs
          · cases hf; exact hs) (by simp) h

/-! ### Simple types have bases -/

theorem simpleStep_keeps {env : ParseEnv} {s s' : SimpleT × Str} {el : Element} (hs : s.1.base ≠ none) (h : simpleStep env s el = some s') :
    s'.1.base ≠ none := by
  unfold simpleStep at h
  split at h
  · rw [Option.map_eq_some_iff] at h
    obtain ⟨t1, h3, rfl⟩ := h
    simp
  · split at h
    · cases h; simp
    · split at h
      · cases h
        simp only
        split
        · exact hs
        · simp
      · split at h
        · rw [Option.map_eq_some_iff] at h
          obtain ⟨t1, h3, rfl⟩ := h
          exact hs
        · cases h; exact hs

theorem fieldsLoop_nil {s : Str} : ∀ {cur : Str}, fieldsLoop cur s = [] → cur = [] ∧ ∀ c ∈ s, isSpace c = true := by
  induction s with
  | nil =>
    intro cur h
    simp only [fieldsLoop] at h
    split at h
    · rename_i hc
      exact ⟨hc, by simp⟩
    · cases h
  | cons c cs ih =>
    intro cur h
    simp only [fieldsLoop] at h
    split at h
    · rename_i hsp
      split at h
      · rename_i hc
        refine ⟨hc, ?_⟩
        intro x hx
        rcases List.mem_cons.mp hx with rfl | hx
        · exact hsp
        · exact (ih h).2 x hx
      · cases h
    · exact absurd (ih h).1 (by simp)

theorem fields_some {s : Str} {x : UInt8} (hx : x ∈ s) (hs : isSpace x = false) : fields s ≠ [] := by
  intro h
  have := (fieldsLoop_nil h).2 x hx
  rw [hs] at this
  cases this

theorem simpleStep_sets {env : ParseEnv} {s s' : SimpleT × Str} {el : Element} (hel : GivesBase el) (h : simpleStep env s el = some s') :
    s'.1.base ≠ none := by
  unfold simpleStep at h
  split at h
  · rw [Option.map_eq_some_iff] at h
    obtain ⟨t1, h3, rfl⟩ := h
    simp
  · rename_i hr
    split at h
    · cases h; simp
    · rename_i hl
      rcases hel with hel | hel | ⟨hel, hm⟩
      · exact absurd (by rw [hel]) hr
      · exact absurd (by rw [hel]) hl
      · rw [if_pos (by rw [hel])] at h
        cases h
        simp only
        rw [if_neg]
        · simp
        · rw [Wsdl.attr_eq]
          obtain ⟨x, hx, hne⟩ := hm
          intro he
          have := List.map_eq_nil_iff.mp he
          exact fields_some hx (by simpa [isSpace, and_assoc] using hne) this

theorem simpleType_based {env : ParseEnv} {ns : Str} {t : SimpleT} {el : Element} (hel : ∃ c ∈ el.children, GivesBase c)
    (h : parseSimpleType env ns el = some t) : t.base ≠ none := by
  unfold parseSimpleType at h
  rw [Option.map_eq_some_iff] at h
  obtain ⟨r, h, rfl⟩ := h
  have key : ∀ (cs : List Element) (s r : SimpleT × Str), (s.1.base ≠ none ∨ ∃ c ∈ cs, GivesBase c) → walkFold (simpleStep env) s cs = some r → r.1.base ≠ none := by
    intro cs
    induction cs with
    | nil =>
      intro s r hs h
      cases h
      rcases hs with hs | ⟨c, hc, -⟩
      · exact hs
      · cases hc
    | cons c cs ih =>
      intro s r hs h
      rw [walkFold] at h
      split at h
      · rename_i hsp
        refine ih s r ?_ h
        rcases hs with hs | ⟨c', hc, hg⟩
        · exact Or.inl hs
        · rcases List.mem_cons.mp hc with rfl | hc
          · refine absurd ?_ hsp
            rcases hg with hg | hg | ⟨hg, -⟩ <;> rw [hg] <;> rfl
          · exact Or.inr ⟨c', hc, hg⟩
      · split at h
        · cases h
        · rename_i s' hs'
          refine ih s' r ?_ h
          rcases hs with hs | ⟨c', hc, hg⟩
          · exact Or.inl (simpleStep_keeps hs hs')
          · rcases List.mem_cons.mp hc with rfl | hc
            · exact Or.inl (simpleStep_sets hg hs')
            · exact Or.inr ⟨c', hc, hg⟩
  exact key _ _ r (Or.inr hel) h

/-! ### The types that objects mention, before and after links are replaced -/

/-- A built-in type that is one of XML Schema. -/
def ofSchema (b : Builtin) : Prop := 0 ≤ b ∧ b < 50 ∧ (builtinName b).space = schemaNS

/-- A type that others may be derived from. -/
def Sound : Ty → Prop
  | .builtin b => ofSchema b
  | .link n => ∀ b, parseBuiltin n = some b → ofSchema b
  | .obj _ => True

/-- What an object mentions is fine. -/
def FineO (P B : Ty → Prop) : TObj → Prop
  | .complex c => FineName P B c
  | .simple s => ∀ b, s.base = some b → B b

theorem fineO_withMixed {P B : Ty → Prop} {o : TObj} (h : FineO P B o) (m : Bool) : FineO P B (o.withMixed m) := by
  cases o with
  | complex c => exact ⟨h.base, h.elements, h.attributes⟩
  | simple s => exact h

theorem fineO_mapTy {P B : Ty → Prop} {f : Ty → Ty} (hP : ∀ t, P t → P (f t)) (hB : ∀ t, B t → B (f t)) {o : TObj} (h : FineO P B o) :
    FineO P B (o.mapTy f) := by
  cases o with
  | complex c =>
    refine ⟨?_, ?_, ?_⟩
    · intro b hb
      obtain ⟨b0, h0, rfl⟩ := Option.map_eq_some_iff.mp hb
      exact hB _ (h.base b0 h0)
    · intro e he
      obtain ⟨e0, h0, rfl⟩ := List.mem_map.mp he
      exact hP _ (h.elements e0 h0)
    · intro a ha
      obtain ⟨a0, h0, rfl⟩ := List.mem_map.mp ha
      exact hP _ (h.attributes a0 h0)
  | simple s =>
    intro b hb
    obtain ⟨b0, h0, rfl⟩ := Option.map_eq_some_iff.mp hb
    exact hB _ (h b0 h0)

theorem linkTo_prop {Q : Ty → Prop} {lk : XName → Option Ty} (h : ∀ n t, Q (.link n) → lk n = some t → Q t) (t : Ty) (ht : Q t) : Q (linkTo lk t) := by
  cases t with
  | builtin b => exact ht
  | obj i => exact ht
  | link n =>
    simp only [linkTo]
    cases hn : lk n with
    | none => exact ht
    | some t => exact h n t ht hn

/-- The types that stand under names are not derived from attributes of XML, unless the name is that of a document. -/
def SoundTypes (types : GoMap XName Ty) : Prop := ∀ n t, types.get n = some t → n.loc ≠ b!"_self" → Sound t

theorem lookupType_sound {ord : MapOrder} {p0 : GoMap Str Schema} {H0 : THeap} (hp : Parsed p0 H0) {own : GoMap XName Ty} (hown : SoundTypes own)
    {n : XName} {t : Ty} (hn : n.loc ≠ b!"_self") (hs : Sound (.link n)) (h : lookupType own (extOf ord p0 H0) n = some t) : Sound t := by
  unfold lookupType at h
  split at h
  · rename_i b hb
    cases h
    exact hs b hb
  · split at h
    · rename_i t' ht'
      cases h
      obtain ⟨-, k, s, n', hk, hn'⟩ := ext_good hp ht'
      obtain ⟨id, rfl, -⟩ := hp.addr k s n' _ hk hn'
      trivial
    · exact hown n t h hn

theorem addAliases_sound {ord : MapOrder} {p0 : GoMap Str Schema} {H0 : THeap} (hp : Parsed p0 H0) (tns : Str) (els : List Element)
    (hels : ∀ el ∈ els, el.name = ⟨w3cSchemaNS, b!"element"⟩ → (refersTo el b!"type").loc ≠ b!"_self" ∧ Sound (.link (refersTo el b!"type"))) :
    ∀ (types types' : GoMap XName Ty), SoundTypes types → addAliases tns (extOf ord p0 H0) types els = some types' → SoundTypes types' := by
  induction els with
  | nil =>
    intro types types' hd h
    simp only [addAliases, Option.some.injEq] at h
    subst h
    exact hd
  | cons el els ih =>
    intro types types' hd h
    have ih := ih fun e he => hels e (by simp [he])
    simp only [addAliases] at h
    split at h
    · exact ih _ _ hd h
    · rename_i hname
      split at h
      · exact ih _ _ hd h
      · split at h
        · exact ih _ _ hd h
        · split at h
          · cases h
          · rename_i t ht
            refine ih _ _ ?_ h
            intro n t' hn hne
            rw [GoMap.get_set] at hn
            split at hn
            · cases hn
              obtain ⟨h1, h2⟩ := hels el (by simp) (not_not.mp hname)
              rw [refers_eq] at ht
              exact lookupType_sound hp hd h1 h2 ht
            · exact hd n t' hn hne

theorem addAliases_links {ext : GoMap XName Ty}
    (hlink : ∀ types : GoMap XName Ty, (∀ n t, types.get n = some t → t.isLink = false) → ∀ n t, lookupType types ext n = some t → t.isLink = false)
    (tns : Str) (els : List Element) : ∀ (types types' : GoMap XName Ty), (∀ n t, types.get n = some t → t.isLink = false) →
    addAliases tns ext types els = some types' → ∀ n t, types'.get n = some t → t.isLink = false := by
  induction els with
  | nil =>
    intro types types' hd h
    simp only [addAliases, Option.some.injEq] at h
    subst h
    exact hd
  | cons el els ih =>
    intro types types' hd h
    simp only [addAliases] at h
    split at h
    · exact ih _ _ hd h
    · split at h
      · exact ih _ _ hd h
      · split at h
        · exact ih _ _ hd h
        · split at h
          · cases h
          · rename_i t ht
            refine ih _ _ ?_ h
            intro n t' hn
            rw [GoMap.get_set] at hn
            split at hn
            · cases hn
              exact hlink _ hd _ _ ht
            · exact hd n t' hn

/-- The types mentioned stay fine. -/
theorem finishRoots_fine {ord : MapOrder} {p0 : GoMap Str Schema} {H0 : THeap} (hp : Parsed p0 H0) (rs : List Element)
    (hrs : ∀ r ∈ rs, ∀ el ∈ r.children, el.name = ⟨w3cSchemaNS, b!"element"⟩ →
      (refersTo el b!"type").loc ≠ b!"_self" ∧ Sound (.link (refersTo el b!"type"))) :
    ∀ (parsed : GoMap Str Schema) (H : THeap) (j : Nat) (parsed' : GoMap Str Schema) (H' : THeap),
    (∀ k s, parsed.get k = some s → NoDocs H0 s.types ∧ SoundTypes s.types ∧ ∀ n t, s.types.get n = some t → t.isLink = false) →
    (∀ (id : Nat) o, H[id]? = some o →
      FineO (fun t => (xmlName H0 t).loc ≠ b!"_self") (fun t => (xmlName H0 t).loc ≠ b!"_self" ∧ Sound t) o) →
    finishRoots ord (extOf ord p0 H0) parsed H j rs = .ok (parsed', H') →
    (∀ k s, parsed'.get k = some s → SoundTypes s.types) ∧ ∀ (id : Nat) o, H'[id]? = some o →
      FineO (fun t => (xmlName H0 t).loc ≠ b!"_self") (fun t => (xmlName H0 t).loc ≠ b!"_self" ∧ Sound t) o := by
  induction rs with
  | nil =>
    intro parsed H j parsed' H' hd hf h
    simp only [finishRoots, Outcome.ok.injEq, Prod.mk.injEq] at h
    obtain ⟨rfl, rfl⟩ := h
    exact ⟨fun k s hk => (hd k s hk).2.1, hf⟩
  | cons r rs ih =>
    intro parsed H j parsed' H' hd hf h
    rw [finishRoots] at h
    have hd0 : NoDocs H0 ((parsed.get (r.attr [] b!"targetNamespace")).getD {}).types ∧
        SoundTypes ((parsed.get (r.attr [] b!"targetNamespace")).getD {}).types ∧
        ∀ n t, ((parsed.get (r.attr [] b!"targetNamespace")).getD {}).types.get n = some t → t.isLink = false := by
      cases hg : parsed.get (r.attr [] b!"targetNamespace") with
      | none => exact ⟨fun n t hn => (by cases hn), fun n t hn => (by cases hn), fun n t hn => (by cases hn)⟩
      | some s' => exact hd _ s' hg
    have hlink : ∀ types : GoMap XName Ty, (∀ n t, types.get n = some t → t.isLink = false) →
        ∀ n t, lookupType types (extOf ord p0 H0) n = some t → t.isLink = false := by
      intro types htypes n t ht
      unfold lookupType at ht
      split at ht
      · cases ht; rfl
      · split at ht
        · rename_i t' ht'
          cases ht
          obtain ⟨-, k, s, n', hk, hn'⟩ := ext_good hp ht'
          obtain ⟨id, rfl, -⟩ := hp.addr k s n' _ hk hn'
          rfl
        · exact htypes n t ht
    split at h
    · cases h
    · rename_i H1 h1
      split at h
      · cases h
      · rename_i types h2
        split at h
        · cases h
        · rename_i H2 h3
          refine ih (fun r' hr' => hrs r' (by simp [hr'])) _ _ _ _ _ ?_ ?_ h
          · intro k s hk
            rw [GoMap.get_set] at hk
            split at hk
            · cases hk
              refine ⟨addAliases_noDocs hp _ _ (fun el hel hn => (hrs r (by simp) el hel hn).1) _ _ hd0.1 h2,
                addAliases_sound hp _ _ (hrs r (by simp)) _ _ hd0.2.1 h2, ?_⟩
              exact addAliases_links hlink _ _ _ _ hd0.2.2 h2
            · exact hd k s hk
          · obtain ⟨r1, r2⟩ := resolveTypes_some _ (hlink _ hd0.2.2) _ H H1 h1
            have hs := propagateAll_same _ _ _ h3
            intro id o ho
            have hlt1 : id < H1.length := by rw [← hs.1]; exact (List.getElem?_eq_some_iff.mp ho).1
            have hlt : id < H.length := by rw [← r1]; exact hlt1
            obtain ⟨m, hm⟩ := hs.2 id _ (List.getElem?_eq_getElem hlt1)
            rw [ho] at hm
            cases hm
            refine fineO_withMixed ?_ m
            have h4 := r2 id _ (List.getElem?_eq_getElem hlt)
            rw [List.getElem?_eq_getElem hlt1] at h4
            rw [Option.some.inj h4]
            have h5 := hf id _ (List.getElem?_eq_getElem hlt)
            split
            · refine fineO_mapTy (linkTo_prop ?_) (linkTo_prop ?_) h5
              · intro n t hn ht
                exact lookupType_noDocs hp hd0.1 hn ht
              · intro n t hn ht
                exact ⟨lookupType_noDocs hp hd0.1 hn.1 ht, lookupType_sound hp hd0.2.1 hn.1 hn.2 ht⟩
            · exact h5

/-! ### What the declarations of a schema mention -/

/-- A name of a type that is neither that of a document nor that of a type that others cannot be derived from. -/
theorem parseType_quiet {n : XName} (hn : n.loc ≠ b!"_self") (H : THeap) : (xmlName H (parseType n)).loc ≠ b!"_self" := by
  unfold parseType
  split
  · exact Xsdgen.builtinName_self _
  · exact hn

theorem ofSchema_of {n : XName} (h : n.space ≠ b!"http://www.w3.org/2009/01/xml.xsd") {b : Builtin} (hb : parseBuiltin n = some b) : ofSchema b := by
  obtain ⟨h1, h2, rfl⟩ := (C26_parse_only _ _).mp hb
  have key : ∀ i : Fin 50, (builtinName (i.1 : Int)).space = schemaNS ∨ (builtinName (i.1 : Int)).space = b!"http://www.w3.org/2009/01/xml.xsd" := by
    decide +kernel
  obtain ⟨i, rfl⟩ := Int.eq_ofNat_of_zero_le h1
  rcases key ⟨i, by exact_mod_cast h2⟩ with hk | hk
  · exact ⟨h1, h2, hk⟩
  · exact absurd hk h

theorem parseType_sound {n : XName} (h : ∀ b, parseBuiltin n = some b → ofSchema b) : Sound (parseType n) := by
  unfold parseType
  split
  · rename_i b hb
    exact h b hb
  · exact h

theorem prefixLoop_ends {space loc : Str} : ∀ (ds : List XName) (q : Str), q = [] ∨ loc <:+ q → prefixLoop space loc ds q = [] ∨ loc <:+ prefixLoop space loc ds q := by
  intro ds
  induction ds with
  | nil => intro q h; exact h
  | cons d ds ih =>
    intro q h
    rw [prefixLoop]
    split
    · split
      · exact ih _ (Or.inr (List.suffix_refl _))
      · split
        · exact ih _ (Or.inr (List.suffix_append _ _))
        · exact ih _ h
    · exact ih _ h

theorem denoted_ends {sc : Scope} {q loc : Str} (hc : (58 : UInt8) ∉ loc) (h : q = [] ∨ loc <:+ q) :
    (Wsdl.denoted sc q).loc = [] ∨ loc <:+ (Wsdl.denoted sc q).loc := by
  have hl : (Wsdl.denoted sc q).loc = if (58 : UInt8) ∈ q then (q.dropWhile fun c => decide (c ≠ 58)).tail else q := by
    unfold Wsdl.denoted
    dsimp only
    generalize (if (58 : UInt8) ∈ q then q.takeWhile (fun c => decide (c ≠ 58)) else []) = p
    split
    · rfl
    · split <;> rfl
  rw [hl]
  split
  · rename_i hq
    rcases h with rfl | ⟨p, rfl⟩
    · cases hq
    · right
      have hp : (58 : UInt8) ∈ p := (List.mem_append.mp hq).resolve_right hc
      obtain ⟨p1, p2, rfl, hp1⟩ : ∃ p1 p2, p = p1 ++ 58 :: p2 ∧ (58 : UInt8) ∉ p1 := by
        clear hq hl
        induction p with
        | nil => cases hp
        | cons x p ih =>
          by_cases hx : x = 58
          · subst hx
            exact ⟨[], p, rfl, by simp⟩
          · obtain ⟨p1, p2, rfl, h2⟩ := ih ((List.mem_cons.mp hp).resolve_left (Ne.symm hx))
            exact ⟨x :: p1, p2, rfl, by simp [h2, Ne.symm hx]⟩
      rw [List.append_assoc, List.dropWhile_append_of_pos (by
        intro c hc'
        simp only [decide_eq_true_eq]
        rintro rfl
        exact hp1 hc')]
      simp
  · exact h

theorem anyType_sound (sc : Scope) (H : THeap) :
    (xmlName H (parseType (Wsdl.denoted sc (prefixOf sc ⟨w3cSchemaNS, b!"anyType"⟩)))).loc ≠ b!"_self" ∧
    Sound (parseType (Wsdl.denoted sc (prefixOf sc ⟨w3cSchemaNS, b!"anyType"⟩))) := by
  have h := denoted_ends (sc := sc) (q := prefixOf sc ⟨w3cSchemaNS, b!"anyType"⟩) (loc := b!"anyType") (by decide)
    (prefixLoop_ends sc.reverse [] (Or.inl rfl))
  generalize Wsdl.denoted sc (prefixOf sc ⟨w3cSchemaNS, b!"anyType"⟩) = n at h
  refine ⟨parseType_quiet ?_ H, parseType_sound ?_⟩
  · intro e
    rw [e] at h
    rcases h with h | h
    · cases h
    · exact absurd h (by decide)
  · intro b hb
    obtain ⟨h1, h2, rfl⟩ := (C26_parse_only _ _).mp hb
    have key : ∀ i : Fin 50, ((builtinName (i.1 : Int)).loc = [] ∨ b!"anyType" <:+ (builtinName (i.1 : Int)).loc) → (builtinName (i.1 : Int)).space = schemaNS := by
      decide +kernel
    obtain ⟨i, rfl⟩ := Int.eq_ofNat_of_zero_le h1
    exact ⟨h1, h2, key ⟨i, by exact_mod_cast h2⟩ h⟩

/-- The types that a declaration may mention, and be derived from. -/
abbrev MayMention (t : Ty) : Prop := ∀ H, (xmlName H t).loc ≠ b!"_self"
abbrev MayDerive (t : Ty) : Prop := (∀ H, (xmlName H t).loc ≠ b!"_self") ∧ Sound t

theorem anyType_may : MayMention (.builtin AnyType) := fun _ => Xsdgen.builtinName_self _

/-- The references below an element are as they should be. -/
structure RefsFine (r : Element) : Prop where
  quiet : ∀ d ∈ below r, ∀ a ∈ [b!"type", b!"base", b!"itemType"], (refersTo d a).loc ≠ b!"_self"
  derived : ∀ d ∈ below r, ∀ a ∈ [b!"base", b!"itemType"], (refersTo d a).space ≠ b!"http://www.w3.org/2009/01/xml.xsd"

theorem RefsFine.type {r : Element} (h : RefsFine r) {d : Element} (hd : d ∈ below r) : MayMention (parseType (refersTo d b!"type")) :=
  parseType_quiet (h.quiet d hd _ (by simp))

theorem RefsFine.base {r : Element} (h : RefsFine r) {d : Element} (hd : d ∈ below r) : MayDerive (parseType (refersTo d b!"base")) :=
  ⟨parseType_quiet (h.quiet d hd _ (by simp)), parseType_sound fun _ hb => ofSchema_of (h.derived d hd _ (by simp)) hb⟩

theorem RefsFine.item {r : Element} (h : RefsFine r) {d : Element} (hd : d ∈ below r) : MayDerive (parseType (refersTo d b!"itemType")) :=
  ⟨parseType_quiet (h.quiet d hd _ (by simp)), parseType_sound fun _ hb => ofSchema_of (h.derived d hd _ (by simp)) hb⟩

theorem parseDecl_fine {env : ParseEnv} {ns : Str} {r e : Element} {o : TObj} (hr : RefsFine r) (he : e ∈ below r)
    (h : parseDecl env ns e = some o) : FineO MayMention MayDerive o := by
  unfold parseDecl at h
  split at h
  · rw [Option.map_eq_some_iff] at h
    obtain ⟨c, h, rfl⟩ := h
    exact fine_complexType anyType_may (fun d hd _ => hr.type (below_below _ _ _ he hd))
      (fun c hc _ d hd _ => hr.base (below_below _ _ _ he (mem_below_trans hc (mem_below_child hd)))) h
  · rw [Option.map_eq_some_iff] at h
    obtain ⟨c, h, rfl⟩ := h
    exact fine_simpleType ⟨fun _ => Xsdgen.builtinName_self _, by exact ⟨by decide, by decide, by decide +kernel⟩⟩
      (fun c hc => ⟨fun _ => hr.base (below_below _ _ _ he (mem_below_child hc)), fun _ => hr.item (below_below _ _ _ he (mem_below_child hc))⟩) h

theorem selfTree_fine {env : ParseEnv} {ns : Str} {r : Element} {c : ComplexT} (hr : RefsFine r)
    (h : parseComplexType env ns (selfTree r) = some c) : FineO MayMention MayDerive (.complex c) := by
  refine fine_complexType anyType_may ?_ ?_ h
  · intro d hd _
    simp only [selfTree, below, belows, List.append_nil, List.mem_cons] at hd
    have hnone : ∀ sc : Scope, MayMention (parseType (Wsdl.denoted sc [])) := by
      intro sc
      refine parseType_quiet ?_
      intro e
      have h := denoted_ends (sc := sc) (q := []) (loc := b!"x") (by decide) (Or.inl rfl)
      rw [e] at h
      rcases h with h | h
      · cases h
      · exact absurd h (by decide)
    rcases hd with rfl | rfl | hd
    · exact hnone _
    · exact hnone _
    · refine hr.type ?_
      rw [below_eq]
      generalize r.children = cs at hd ⊢
      clear h
      induction cs with
      | nil => simp [belows] at hd
      | cons c cs ih =>
        rw [List.filter_cons] at hd
        rw [belows, List.mem_cons, List.mem_append]
        split at hd
        · rw [belows, List.mem_cons, List.mem_append] at hd
          rcases hd with hd | hd | hd
          · exact Or.inl hd
          · exact Or.inr (Or.inl hd)
          · exact Or.inr (Or.inr (ih hd))
        · exact Or.inr (Or.inr (ih hd))
  · intro c hc _ d hd _
    simp only [selfTree, Element.children, List.mem_singleton] at hc
    subst hc
    simp only [Element.children, List.mem_singleton] at hd
    subst hd
    exact ⟨fun H => (anyType_sound r.scope H).1, (anyType_sound r.scope []).2⟩

/-- A simple type is based on something. -/
def BasedO : TObj → Prop
  | .complex _ => True
  | .simple s => s.base ≠ none

theorem parseRoots_fine {env : ParseEnv} (rs : List Element)
    (hrs : ∀ r ∈ rs, RefsFine r ∧ ∀ d ∈ allNamed r w3cSchemaNS b!"simpleType", ∃ c ∈ d.children, GivesBase c) :
    ∀ (p0 p1 : GoMap Str Schema) (H0 H1 : THeap), (∀ o ∈ H0, FineO MayMention MayDerive o ∧ BasedO o) →
    parseRoots env p0 H0 rs = some (p1, H1) → ∀ o ∈ H1, FineO MayMention MayDerive o ∧ BasedO o := by
  induction rs with
  | nil =>
    intro p0 p1 H0 H1 hf h
    simp only [parseRoots, Option.some.injEq, Prod.mk.injEq] at h
    obtain ⟨rfl, rfl⟩ := h
    exact hf
  | cons r rs ih =>
    intro p0 p1 H0 H1 hf h
    rw [parseRoots] at h
    split at h
    · cases h
    rename_i s H h1
    refine ih (fun r' hr' => hrs r' (by simp [hr'])) _ _ _ _ ?_ h
    obtain ⟨hr, hb⟩ := hrs r (by simp)
    obtain ⟨os, self, h2, h3, rfl, -, -⟩ := parseTypes_eq h1
    intro o ho
    rcases List.mem_append.mp ho with ho | ho
    · rcases List.mem_append.mp ho with ho | ho
      · exact hf o ho
      · obtain ⟨i, hi, rfl⟩ := List.getElem_of_mem ho
        obtain ⟨hl, hg⟩ := List.forall₂_iff_get.mp (mapOpt_forall₂ h2)
        have hd := hg i (by omega) hi
        have hmem : (typeDecls r).get ⟨i, by omega⟩ ∈ typeDecls r := List.getElem_mem _
        refine ⟨parseDecl_fine hr (typeDecls_below hmem) hd, ?_⟩
        generalize (typeDecls r).get ⟨i, by omega⟩ = e at hd hmem
        unfold parseDecl at hd
        split at hd
        · obtain ⟨c, -, e1⟩ := Option.map_eq_some_iff.mp hd
          rw [List.get_eq_getElem] at e1
          rw [← e1]
          trivial
        · rename_i hn
          obtain ⟨c, e0, e1⟩ := Option.map_eq_some_iff.mp hd
          rw [List.get_eq_getElem] at e1
          rw [← e1]
          refine simpleType_based (hb e ?_) e0
          rcases List.mem_append.mp hmem with hm | hm
          · exact absurd (by rw [of_decide_eq_true (List.mem_filter.mp hm).2]) hn
          · exact hm
    · cases List.mem_singleton.mp ho
      exact ⟨selfTree_fine hr h3, trivial⟩

/-- The types that `Parse` makes of orderly and regular schemas meet the other conditions of the theorems about xsdgen and
wsdlgen. -/
theorem parse_regular {env : ParseEnv} {ord : MapOrder} {roots : List Element} {ss : List Schema} {H : THeap} (ho : Orderly roots)
    (hr : Regular roots) (h : parseSchemas env ord roots = .ok (ss, H)) :
    Xsdgen.Based H ∧ Xsdgen.SchemaBased H ∧
    (∀ s ∈ ss, ∀ ns id, (⟨ns, b!"_self"⟩, Ty.obj id) ∈ s.types → ∀ (j : Nat) o, H[j]? = some o → ¬ Xsdgen.Mentions o (.obj id)) ∧
    ∀ s ∈ ss, ∀ e ∈ s.types, ∀ b, e.2 = .builtin b → ofSchema b := by
  obtain ⟨-, -, -, -, -, hself⟩ := parse_orderly ho h
  obtain ⟨p0, H0, parsed, h0, h1, rfl⟩ := parseSchemas_run h
  have hc : Cov roots p0 H0 := parseRoots_cov roots [] p0 [] H0 (fun r hr => ⟨hr, rfl, ho.types r hr, ho.unnamed r hr⟩) ho.targets
    ⟨by simp, by simp [GoMap.get_nil], by simp [GoMap.get_nil]⟩ h0
  obtain ⟨hp, _, hout, hin⟩ := parsed_roots roots parsed_nil h0
  have hsome : ∀ r ∈ roots, p0.get (target r) ≠ none := by
    intro r hr
    obtain ⟨_, _, _, s, _, _, hs, _⟩ := hin _ (List.mem_map.mpr ⟨r, hr, rfl⟩)
    rw [hs]; simp
  obtain ⟨done, hi, -, hdone⟩ := finishRoots_inv hp roots [] p0 H0 0 parsed H (fun r hr => ⟨hr, hsome r hr⟩) (inv_start hp roots) h1
  have hfine0 := parseRoots_fine roots (fun r hr' => ⟨⟨hr.quiet r hr', hr.derived r hr'⟩, hr.based r hr'⟩) [] p0 [] H0 (by simp) h0
  have hweak : ∀ o, FineO MayMention MayDerive o →
      FineO (fun t => (xmlName H0 t).loc ≠ b!"_self") (fun t => (xmlName H0 t).loc ≠ b!"_self" ∧ Sound t) o := by
    intro o ho
    cases o with
    | complex c => exact ⟨fun b hb => ⟨(ho.base b hb).1 H0, (ho.base b hb).2⟩, fun e he => ho.elements e he H0, fun a ha => ho.attributes a ha H0⟩
    | simple s => exact fun b hb => ⟨(ho b hb).1 H0, (ho b hb).2⟩
  obtain ⟨hst, hfine⟩ := finishRoots_fine hp roots (fun r hr' el hel hn => ⟨(ho.elements r hr' el hel hn).2,
      fun b hb => ofSchema_of (hr.typed r hr' el hel) hb⟩) p0 H0 0 parsed H (by
    intro k s hk
    refine ⟨?_, ?_, ?_⟩
    · intro n t hn hne
      obtain ⟨id, o, rfl, hid, rfl⟩ := hc.named k s n t hk hn
      simp only [xmlName, hid]
      exact hne
    · intro n t hn _
      obtain ⟨id, o, rfl, hid, rfl⟩ := hc.named k s n t hk hn
      trivial
    · intro n t hn
      obtain ⟨id, o, rfl, hid, rfl⟩ := hc.named k s n t hk hn
      rfl) (fun id o hid => hweak o (hfine0 o (List.mem_of_getElem? hid)).1) h1
  refine ⟨?_, ?_, ?_, ?_⟩
  · intro id s hid
    obtain ⟨o0, hid0, f, m, -, hev⟩ := hi.evo _ _ hid
    have hb := (hfine0 o0 (List.mem_of_getElem? hid0)).2
    cases o0 with
    | complex c => cases hev
    | simple s0 =>
      cases hev
      intro e
      exact hb (Option.map_eq_none_iff.mp e)
  · have hbase : ∀ t b, baseOf H t = some (.builtin b) → ofSchema b := by
      intro t b hb
      cases t with
      | builtin b' => cases hb
      | link n => cases hb
      | obj id =>
        simp only [baseOf] at hb
        split at hb
        · rename_i o ho'
          have := hfine id o ho'
          cases o with
          | complex c => exact (this.base _ hb).2
          | simple s => exact (this _ hb).2
        · cases hb
    have key : ∀ t a, Xsdgen.Ancestor H t a → ∀ b, a = .builtin b → t = .builtin b ∨ ofSchema b := by
      intro t a ha
      induction ha with
      | self t => exact fun b hb => Or.inl hb
      | base h1 _ ih =>
        intro b hb
        rcases ih b hb with rfl | h
        · exact Or.inr (hbase _ _ h1)
        · exact Or.inr h
    intro id b ha
    rcases key _ _ ha b rfl with h | h
    · cases h
    · exact h
  · intro s hs ns id he j o hj hm
    have hname : (xmlName H0 (.obj id)).loc = b!"_self" := by
      have h2 := hself s hs _ he (Or.inl rfl)
      have h3 : xmlName H0 (.obj id) = xmlName H (.obj id) := by
        simp only [xmlName]
        cases hid : H0[id]? with
        | none => rw [List.getElem?_eq_none (by rw [hi.len]; exact List.getElem?_eq_none_iff.mp hid)]
        | some o0 =>
          have hlt : id < H.length := by rw [hi.len]; exact (List.getElem?_eq_some_iff.mp hid).1
          obtain ⟨o1, ho1, hev⟩ := hi.evo _ _ (List.getElem?_eq_getElem hlt)
          rw [hid] at ho1
          cases ho1
          rw [List.getElem?_eq_getElem hlt]
          exact (evolved_name hev).symm
      rw [h3, h2]
    have hf := hfine j o hj
    cases o with
    | complex c =>
      rcases hm with hm | ⟨e, he, hm⟩ | ⟨a, ha, hm⟩
      · exact (hf.base _ hm).1 hname
      · exact hf.elements e he (by rw [hm]; exact hname)
      · exact hf.attributes a ha (by rw [hm]; exact hname)
    | simple s => exact (hf _ hm).1 hname
  · intro s hs e he b hb
    rcases List.mem_append.mp hs with hs' | hs'
    · obtain ⟨r, hr', rfl⟩ := List.mem_map.mp hs'
      obtain ⟨s0, hs0⟩ := Option.ne_none_iff_exists'.mp (hsome r hr')
      obtain ⟨s1, hs1, -⟩ := hi.keys _ _ hs0
      have he' : e ∈ s1.types := by rw [hs1] at he; exact he
      have hne : e.1.loc ≠ b!"_self" := by
        intro hl
        have h2 := hself _ hs e he (Or.inl hl)
        rw [hb] at h2
        rw [← h2] at hl
        exact Xsdgen.builtinName_self b hl
      have := hst _ s1 hs1 _ _ (GoMap.get_of_mem (hi.wf _ s1 hs1) he') hne
      rw [hb] at this
      exact this
    · cases List.mem_singleton.mp hs'
      have key : ∀ x ∈ builtinSchemaTypes, 0 ≤ x.2 ∧ x.2 < 50 ∧ (builtinName x.2).space = schemaNS := by decide +kernel
      obtain ⟨x, hx, rfl⟩ := List.mem_map.mp he
      cases hb
      exact key x hx

end GoXml.Xsd
