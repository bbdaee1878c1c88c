import Verif.Proofs.XsdAccept
import Verif.Proofs.XsdRelinked
set_option autoImplicit false

/-! Lemmas: what `Normalize` makes of sound schemas is sound. -/

namespace GoXml.Xsd
open Wsdl

variable {env : ParseEnv} {known before : XName → Prop}

/-! ### Words -/

theorem fieldsLoop_spaces {a : Str} (ha : ∀ c ∈ a, isSpace c = true) (s : Str) : fieldsLoop [] (a ++ s) = fieldsLoop [] s := by
  induction a with
  | nil => rfl
  | cons c a ih =>
    rw [List.cons_append, fieldsLoop, if_pos (ha c (by simp))]
    simpa using ih fun c hc => ha c (by simp [hc])

theorem fieldsLoop_word {w : Str} (hw : ∀ c ∈ w, isSpace c = false) (cur s : Str) : fieldsLoop cur (w ++ s) = fieldsLoop (w.reverse ++ cur) s := by
  induction w generalizing cur with
  | nil => rfl
  | cons c w ih =>
    rw [List.cons_append, fieldsLoop, if_neg (by rw [hw c (by simp)]; decide), ih fun c hc => hw c (by simp [hc])]
    simp

theorem words_fields {s : Str} {ws : List Str} (h : Words s ws) : ws = fields s := by
  induction h with
  | @none s hs =>
    have := fieldsLoop_spaces hs []
    rw [List.append_nil] at this
    unfold fields
    rw [this]
    rfl
  | @one a w s ws ha hw hn hh _ ih =>
    unfold fields at ih ⊢
    rw [List.append_assoc, fieldsLoop_spaces ha, fieldsLoop_word hn]
    cases s with
    | nil =>
      rw [ih]
      simp [fieldsLoop, hw]
    | cons c s =>
      have hc := hh c rfl
      rw [fieldsLoop, if_pos hc] at ih ⊢
      rw [ih]
      simp [hw]

theorem words_append {s q : Str} {ws : List Str} (h : Words s ws) (hq : q ≠ []) (hs : ∀ c ∈ q, isSpace c = false) : Words (s ++ b!" " ++ q) (ws ++ [q]) := by
  induction h with
  | @none s h =>
    have := Words.one (a := s ++ b!" ") (w := q) (s := []) (ws := []) (by
      intro c hc
      rcases List.mem_append.mp hc with hc | hc
      · exact h c hc
      · rw [List.mem_singleton.mp hc]; decide) hq hs (by simp) (.none (by simp))
    simpa using this
  | @one a w s ws ha hw hn hh _ ih =>
    have := Words.one (a := a) (w := w) (s := s ++ b!" " ++ q) ha hw hn (by
      intro c hc
      cases s with
      | nil => simp at hc; subst hc; decide
      | cons d s => exact hh c (by simpa using hc)) ih
    simpa using this

/-! ### One element -/

theorem limit_name {k k' : Element} (h : k'.name = k.name) : Limit k' ↔ Limit k := by
  unfold Limit IsXs
  rw [h]

theorem readable_other {b b' : XName} {v : Str} (h : Readable env b v) (hb : ¬ BuiltIn b') : Readable env b' v := by
  have h1 : b' ≠ ⟨w3cSchemaNS, b!"date"⟩ := fun e => hb ⟨16, by decide, by decide, by rw [e]; decide⟩
  have h2 : b' ≠ ⟨w3cSchemaNS, b!"dateTime"⟩ := fun e => hb ⟨17, by decide, by decide, by rw [e]; decide⟩
  unfold Readable at h ⊢
  rw [if_neg h1, if_neg h2]
  split at h
  · exact .inr ⟨hb, .inl h⟩
  · split at h
    · exact .inr ⟨hb, .inr h⟩
    · exact h.imp_right fun h => ⟨hb, h.2⟩

theorem shorthand_children {x x' : Element} (hn : x'.name = x.name) (hk : ∀ k' ∈ x'.children, ∃ k ∈ x.children, k'.name = k.name) (h : Shorthand x) : Shorthand x' := by
  refine ⟨hn.trans h.1, fun k' hk' => ?_⟩
  obtain ⟨k, h1, h2⟩ := hk k' hk'
  rw [h2]
  exact h.2 k h1

/-- The attributes that `Normalize` changes. -/
def Touched : List Str := [b!"type", b!"base", b!"itemType", b!"memberTypes", b!"minOccurs", b!"name", b!"_isAnonymous"]

theorem sound_change_kids {x x' : Element} (hx : SoundAt env known before x) (hn : x'.name = x.name) (hs : x'.scope = x.scope)
    (ha : ∀ loc, loc ∉ Touched → attrNamed x' loc = attrNamed x loc)
    (hmin : attrNamed x' b!"minOccurs" = attrNamed x b!"minOccurs" ∨ attrNamed x' b!"minOccurs" = b!"0")
    (hname : IsXs b!"complexType" x ∨ IsXs b!"simpleType" x → (58 : UInt8) ∉ attrNamed x' b!"name")
    (htype : attrNamed x' b!"type" = attrNamed x b!"type" ∨ known (refersTo x' b!"type"))
    (hbase : attrNamed x' b!"base" = attrNamed x b!"base" ∨ (before (refersTo x' b!"base") ∧ ¬ BuiltIn (refersTo x' b!"base")) ∧ ¬ Declaration x)
    (hitem : attrNamed x' b!"itemType" = attrNamed x b!"itemType" ∨ before (refersTo x' b!"itemType") ∧ ¬ Declaration x)
    (hmem : IsXs b!"union" x → ∀ ws, Words (attrNamed x' b!"memberTypes") ws → ∀ q ∈ ws, known (denoted x.scope q))
    (hbased : IsXs b!"restriction" x ∨ IsXs b!"extension" x → attrNamed x' b!"base" = [] → attrNamed x b!"base" = [] ∧ (HasAnon x → HasAnon x'))
    (hlisted : IsXs b!"list" x → attrNamed x' b!"itemType" = [] → attrNamed x b!"itemType" = [] ∧ (HasAnon x → HasAnon x'))
    (hk : ∀ k' ∈ x'.children, ∃ k ∈ x.children, k'.name = k.name ∧ (Limit k → attrNamed k' b!"value" = attrNamed k b!"value")) : SoundAt env known before x' where
  flags a h := by
    rw [ha a (by simp only [List.mem_cons, List.not_mem_nil, or_false] at h; rcases h with rfl | rfl | rfl <;> decide)]
    exact hx.flags a h
  counts a h := by
    simp only [List.mem_cons, List.not_mem_nil, or_false] at h
    rcases h with rfl | rfl
    · rcases hmin with h | h
      · rw [h]; exact hx.counts _ (by simp)
      · rw [h]; exact ⟨0, b!"0", ⟨[], [], by simp, by simp, by simp, by decide, by decide⟩, .inr (.inr ((atoi_iff _ _).mp (by decide)))⟩
    · rw [ha _ (by decide)]; exact hx.counts _ (by simp)
  sizes loc h hl := by
    rw [ha _ (by decide)]
    exact hx.sizes loc h ((isXs_name hn).mp hl)
  limits h k' hk' hl := by
    obtain ⟨k, h1, h2, h3⟩ := hk k' hk'
    have := hx.limits ((isXs_name hn).mp h) k h1 ((limit_name h2).mp hl)
    rw [h3 ((limit_name h2).mp hl)]
    rcases hbase with h4 | ⟨⟨_, h4⟩, _⟩
    · unfold refersTo at this ⊢
      rw [hs, h4]
      exact this
    · exact readable_other this h4
  content h k' hk' := by
    obtain ⟨k, h1, h2, h3⟩ := hk k' hk'
    obtain ⟨h4, h5⟩ := hx.content ((isXs_name hn).mp h) k h1
    rw [limit_name h2, h2]
    exact ⟨h4, h5.imp_left (shorthand_children hn fun k' hk' => (hk k' hk').imp fun k h => ⟨h.1, h.2.1⟩)⟩
  derivation h k' hk' := by
    obtain ⟨k, h1, h2, h3⟩ := hk k' hk'
    rw [h2]
    exact hx.derivation ((isXs_name hn).mp h) k h1
  plain h := by
    rw [isXs_name hn, isXs_name hn] at h
    exact hname h
  type h he := by
    rw [isXs_name hn, isXs_name hn, isXs_name hn] at h
    rcases htype with h1 | h1
    · unfold refersTo
      rw [hs, h1]
      rw [h1] at he
      exact hx.type h he
    · exact h1
  base he := by
    rcases hbase with h1 | ⟨⟨h1, _⟩, _⟩
    · unfold refersTo
      rw [hs, h1]
      rw [h1] at he
      exact hx.base he
    · exact h1
  based h he := by
    rw [isXs_name hn, isXs_name hn] at h
    obtain ⟨h1, h2⟩ := hbased h he
    exact h2 (hx.based h h1)
  item he := by
    rcases hitem with h1 | ⟨h1, _⟩
    · unfold refersTo
      rw [hs, h1]
      rw [h1] at he
      exact hx.item he
    · exact h1
  listed h he := by
    rw [isXs_name hn] at h
    obtain ⟨h1, h2⟩ := hlisted h he
    exact h2 (hx.listed h h1)
  prefixes := by rw [hs]; exact hx.prefixes
  members h ws hw q hq := by
    rw [isXs_name hn] at h
    rw [hs]
    exact hmem h ws hw q hq
  bare h := by
    rw [isXs_name hn, isXs_name hn] at h
    obtain ⟨h1, h2⟩ := hx.bare h
    refine ⟨?_, ?_⟩
    · rcases hbase with h3 | ⟨_, h3⟩
      · rw [h3, h1]
      · exact absurd h h3
    · rcases hitem with h3 | ⟨_, h3⟩
      · rw [h3, h2]
      · exact absurd h h3

theorem sound_change {x x' : Element} (hx : SoundAt env known before x) (hn : x'.name = x.name) (hs : x'.scope = x.scope)
    (ha : ∀ loc, loc ∉ Touched → attrNamed x' loc = attrNamed x loc)
    (hmin : attrNamed x' b!"minOccurs" = attrNamed x b!"minOccurs" ∨ attrNamed x' b!"minOccurs" = b!"0")
    (hname : IsXs b!"complexType" x ∨ IsXs b!"simpleType" x → (58 : UInt8) ∉ attrNamed x' b!"name")
    (htype : attrNamed x' b!"type" = attrNamed x b!"type" ∨ known (refersTo x' b!"type"))
    (hbase : attrNamed x' b!"base" = attrNamed x b!"base" ∨ (before (refersTo x' b!"base") ∧ ¬ BuiltIn (refersTo x' b!"base")) ∧ ¬ Declaration x)
    (hitem : attrNamed x' b!"itemType" = attrNamed x b!"itemType" ∨ before (refersTo x' b!"itemType") ∧ ¬ Declaration x)
    (hmem : IsXs b!"union" x → ∀ ws, Words (attrNamed x' b!"memberTypes") ws → ∀ q ∈ ws, known (denoted x.scope q))
    (hbased : IsXs b!"restriction" x ∨ IsXs b!"extension" x → attrNamed x' b!"base" = [] → attrNamed x b!"base" = [] ∧ (HasAnon x → HasAnon x'))
    (hlisted : IsXs b!"list" x → attrNamed x' b!"itemType" = [] → attrNamed x b!"itemType" = [] ∧ (HasAnon x → HasAnon x'))
    (hk : ∀ k' ∈ x'.children, ∃ k ∈ x.children, k'.name = k.name ∧ attrNamed k' b!"value" = attrNamed k b!"value") : SoundAt env known before x' :=
  sound_change_kids hx hn hs ha hmin hname htype hbase hitem hmem hbased hlisted fun k' hk' => by
    obtain ⟨k, h1, h2, h3⟩ := hk k' hk'
    exact ⟨k, h1, h2, fun _ => h3⟩

/-! ### Children -/

/-- What soundness asks about the children of an element. -/
def Twin (k k' : Element) : Prop := Like k k' ∧ attrNamed k' b!"value" = attrNamed k b!"value"

theorem twins_like {ks ks' : List Element} (h : List.Forall₂ Twin ks ks') : List.Forall₂ Like ks ks' := h.imp fun _ _ h => h.1

theorem twin_left {ks ks' : List Element} (h : List.Forall₂ Twin ks ks') {k' : Element} (hk : k' ∈ ks') : ∃ k ∈ ks, Twin k k' := by
  induction h with
  | nil => cases hk
  | cons h1 _ ih =>
    rcases List.mem_cons.mp hk with rfl | hk
    · exact ⟨_, by simp, h1⟩
    · obtain ⟨k, h2, h3⟩ := ih hk
      exact ⟨k, by simp [h2], h3⟩

theorem twin_right {ks ks' : List Element} (h : List.Forall₂ Twin ks ks') {k : Element} (hk : k ∈ ks) : ∃ k' ∈ ks', Twin k k' := by
  induction h with
  | nil => cases hk
  | cons h1 _ ih =>
    rcases List.mem_cons.mp hk with rfl | hk
    · exact ⟨_, by simp, h1⟩
    · obtain ⟨k, h2, h3⟩ := ih hk
      exact ⟨k, by simp [h2], h3⟩

theorem sound_keep {n : XName} {a : List Attr} {s : Scope} {c : Str} {ks ks' : List Element} (hx : SoundAt env known before (.mk n a s c ks))
    (hk : List.Forall₂ Twin ks ks') : SoundAt env known before (.mk n a s c ks') := by
  have hanon : HasAnon (.mk n a s c ks) → HasAnon (.mk n a s c ks') := by
    rintro ⟨k, h1, h2⟩
    obtain ⟨k', h3, h4⟩ := twin_right hk h1
    exact ⟨k', h3, h4.1.anon.mpr h2⟩
  refine sound_change hx rfl rfl (fun _ _ => rfl) (.inl rfl) hx.plain (.inl rfl) (.inl rfl) (.inl rfl) hx.members (fun _ h => ⟨h, hanon⟩) (fun _ h => ⟨h, hanon⟩) ?_
  intro k' hk'
  obtain ⟨k, h1, h2⟩ := twin_left hk hk'
  exact ⟨k, h1, h2.1.name, h2.2⟩

/-! ### Moving types -/

/-- What else is asked of the passes that move types. -/
structure Fit {σ : Type} (tns : Str) (P : Plan σ) : Prop where
  named : ∀ {st x m}, NeatAt tns x → HasAnon x → P.cand x = true → (P.move st x).2 = some m →
    ∀ a, attrGet [] b!"name" (m.rename a) ≠ [] ∧ (58 : UInt8) ∉ attrGet [] b!"name" (m.rename a)
  spaced : ∀ {st x m}, NeatAt tns x → HasAnon x → P.cand x = true → (P.move st x).2 = some m → x.name.loc = b!"union" →
    (∀ d ∈ x.scope, ∀ c ∈ d.loc, isSpace c = false) → ∃ q, m.value = attrNamed x b!"memberTypes" ++ b!" " ++ q ∧ ∀ c ∈ q, isSpace c = false

theorem natStr_plain (n : Nat) : (58 : UInt8) ∉ b!"_anon" ++ natStr n ∧ ∀ c ∈ b!"_anon" ++ natStr n, isSpace c = false := by
  constructor
  · rw [List.mem_append, not_or]
    refine ⟨by decide, fun h58 => ?_⟩
    have := natStr_digits n 58 h58
    revert this
    unfold IsDigit
    decide
  · intro c hc
    rcases List.mem_append.mp hc with hc | hc
    · exact (by decide : ∀ c ∈ b!"_anon", isSpace c = false) c hc
    · have h := natStr_digits n c hc
      revert h
      unfold IsDigit
      rintro ⟨h1, h2⟩
      by_contra hs
      rw [Bool.not_eq_false] at hs
      simp only [isSpace, Bool.or_eq_true, beq_iff_eq] at hs
      rcases hs with ((((rfl | rfl) | rfl) | rfl) | rfl) | rfl <;> revert h1 <;> decide

theorem prefixLoop_spaces {ns loc : Str} (hl : ∀ c ∈ loc, isSpace c = false) (ds : List XName) (hd : ∀ d ∈ ds, ∀ c ∈ d.loc, isSpace c = false) :
    ∀ q : Str, (∀ c ∈ q, isSpace c = false) → ∀ c ∈ prefixLoop ns loc ds q, isSpace c = false := by
  induction ds with
  | nil => intro q hq; exact hq
  | cons d ds ih =>
    intro q hq
    have ih' := ih fun d hd' => hd d (by simp [hd'])
    have h0 := hd d (by simp)
    rw [prefixLoop]
    split
    · split
      · exact ih' _ hl
      · split
        · refine ih' _ fun c hc => ?_
          rcases List.mem_append.mp hc with hc | hc
          · rcases List.mem_append.mp hc with hc | hc
            · exact h0 c hc
            · rw [List.mem_singleton.mp hc]; decide
          · exact hl c hc
        · exact ih' _ hq
    · exact ih' _ hq

theorem prefixOf_spaces {sc : Scope} {ns loc : Str} (hl : ∀ c ∈ loc, isSpace c = false) (hd : ∀ d ∈ sc, ∀ c ∈ d.loc, isSpace c = false) :
    ∀ c ∈ prefixOf sc ⟨ns, loc⟩, isSpace c = false := by
  unfold prefixOf
  have hx : ∀ p : Str, (∀ c ∈ p, isSpace c = false) → ∀ c ∈ p ++ loc, isSpace c = false := by
    intro p hp c hc
    rcases List.mem_append.mp hc with hc | hc
    · exact hp c hc
    · exact hl c hc
  split
  · exact hl
  · split
    · exact hx _ (by decide)
    · split
      · exact hx _ (by decide)
      · exact prefixLoop_spaces hl _ (fun d h => hd d (List.mem_reverse.mp h)) [] (by simp)

theorem byElement_fit (tns : Str) : Fit tns (byElement tns) where
  named := by
    intro st x m hx hh hc hm a
    simp only [byElement, decide_eq_true_eq] at hc hm
    split at hm
    · cases hm
    · cases hm
      dsimp only
      rw [attr_attrSet_same]
      exact ⟨hc.2, by rw [Wsdl.attr_eq]; exact hx.plain hh⟩
  spaced := by
    intro st x m hx hh hc hm hu
    simp only [byElement, decide_eq_true_eq] at hc
    rcases hc.1 with h | h <;> (rw [h] at hu; exact absurd hu (by decide))

theorem numbered_fit (tns : Str) : Fit tns (numbered tns) where
  named := by
    intro st x m hx hh hc hm a
    unfold numbered at hm
    dsimp only at hm
    split at hm
    · cases hm
      dsimp only
      rw [attr_attrSet_other _ _ _ _ _ _ (by decide), attr_attrSet_same]
      exact ⟨by simp, (natStr_plain _).1⟩
    · cases hm
  spaced := by
    intro st x m hx hh hc hm hu hp
    unfold numbered at hm
    dsimp only at hm
    split at hm
    · cases hm
      refine ⟨prefixOf x.scope ⟨tns, b!"_anon" ++ natStr (st + 1)⟩, by simp only [← Wsdl.attr_eq], prefixOf_spaces (natStr_plain _).2 hp⟩
    · cases hm

/-- What the passes that move types keep. -/
def Sober (env : ParseEnv) (known before : XName → Prop) (tns : Str) (x : Element) : Prop :=
  Kept tns x ∧ Clear x.scope tns ∧ Clear x.scope w3cSchemaNS ∧ SoundAt env known before x

section
variable {σ : Type} {tns : Str} {P : Plan σ} (N : Namer tns P) (R : Refers tns P (Told tns)) (F : Fit tns P) (own : ∀ n, BuiltIn n → n.space ≠ tns)
include N R F own

theorem mv_sound (n : XName) (a : List Attr) (s : Scope) (c : Str) (ks ks' : List Element) (st : σ) (i : Nat) (m : Move)
    (h : Sober env known before tns (.mk n a s c ks)) (hk : List.Forall₂ Twin ks ks') (hp : P.pick (.mk n a s c ks) = some i)
    (hm : (P.move st (.mk n a s c ks)).2 = some m) {k1 : Element} (hk1 : ks'[i]? = some k1) (hq : Sober env known before tns k1)
    (hT : ∀ l, l = attrNamed (withAttrs m.rename k1) b!"name" → known ⟨tns, l⟩ ∧ before ⟨tns, l⟩) :
    m.attr ≠ b!"value" ∧ Sober env known before tns (.mk n (attrSet [] m.attr m.value a) s [] (ks'.eraseIdx i)) ∧
      Sober env known before tns (withAttrs m.rename k1) ∧ attrNamed (withAttrs m.rename k1) b!"name" ≠ [] := by
  obtain ⟨hkept, hc1, hc2, hsound⟩ := h
  obtain ⟨hc, hh⟩ := pick_anon (P := P) (t := .mk n a s c ks) (by rw [hp]; simp)
  obtain ⟨v1, v2, v3⟩ := N.mv n a s c ks ks' st i m hkept (twins_like hk) hp hm
  obtain ⟨v3, v4⟩ := v3 k1 hk1 hq.1
  obtain ⟨m1, nm, q, m2, m3, m4, m5⟩ := R.move (st := st) ⟨hkept.1, hc1⟩ hh hc hm
  have hname : attrNamed (withAttrs m.rename k1) b!"name" = nm := by
    cases k1
    rw [← Wsdl.attr_eq]
    exact m4 _
  have hfit : nm ≠ [] ∧ (58 : UInt8) ∉ nm := by
    have := F.named (st := st) hkept.1 hh hc hm a
    rw [m4] at this
    exact this
  obtain ⟨hK, hB⟩ := hT nm hname.symm
  have hqne : q ≠ [] := by
    rintro rfl
    obtain ⟨ns, h1, _⟩ := resolve_plain (Element.mk n a s c ks).scope [] (by simp)
    rw [h1] at m2
    exact hfit.1 (congrArg XName.loc m2).symm
  simp only [Element.scope] at m2
  rw [Wsdl.resolve_eq] at m2
  obtain ⟨loc0, hl0, hloc⟩ := hkept.1.holder hh
  have hloc' : n.loc = loc0 := congrArg XName.loc hloc
  have honly : ∀ loc, IsXs loc (.mk n a s c ks) → loc = loc0 := fun loc h => (congrArg XName.loc h).symm.trans hloc'
  simp only [Element.name, hloc'] at m1 m3
  have hother : ∀ loc, loc ≠ m.attr → attrNamed (.mk n (attrSet [] m.attr m.value a) s [] (ks'.eraseIdx i)) loc = attrNamed (.mk n a s c ks) loc := fun loc hl => attrNamed_other hl
  have hsame := attrNamed_setSame (n := n) (a := a) (s := s) (c := []) (ks := ks'.eraseIdx i) (l := m.attr) (v := m.value)
  have hkids : ∀ k' ∈ (ks'.eraseIdx i), ∃ k ∈ ks, k'.name = k.name ∧ attrNamed k' b!"value" = attrNamed k b!"value" := by
    intro k' hk'
    obtain ⟨k, g1, g2⟩ := twin_left hk (List.mem_of_mem_eraseIdx hk')
    exact ⟨k, g1, g2.1.name, g2.2⟩
  have hbi : ¬ BuiltIn ⟨tns, nm⟩ := fun hb => own _ hb rfl
  refine ⟨?_, ⟨v2, hc1, hc2, ?_⟩, ⟨v3, ?_, ?_, ?_⟩, ?_⟩
  · rw [m1]
    rcases referrer_cases loc0 with h | h | h | ⟨h, _⟩ <;> (rw [h]; decide)
  · simp only [List.mem_cons, List.not_mem_nil, or_false] at hl0
    rcases hl0 with rfl | rfl | rfl | rfl | rfl
    · -- element
      have e : referrer b!"element" = b!"type" := by decide
      rw [e] at m1
      rw [if_neg (by decide), List.nil_append] at m3
      rw [m1, m3] at hsame hother ⊢
      refine sound_change hsound rfl rfl (fun loc hl => hother loc fun he => hl (by rw [he]; decide)) (.inl (hother _ (by decide)))
        (fun h => by rcases h with h | h <;> exact absurd (honly _ h) (by decide)) (.inr ?_) (.inl (hother _ (by decide))) (.inl (hother _ (by decide)))
        (fun h => absurd (honly _ h) (by decide)) (fun h => by rcases h with h | h <;> exact absurd (honly _ h) (by decide)) (fun h => absurd (honly _ h) (by decide)) hkids
      unfold refersTo
      rw [hsame]
      exact (congrArg known m2).mpr hK
    · -- attribute
      have e : referrer b!"attribute" = b!"type" := by decide
      rw [e] at m1
      rw [if_neg (by decide), List.nil_append] at m3
      rw [m1, m3] at hsame hother ⊢
      refine sound_change hsound rfl rfl (fun loc hl => hother loc fun he => hl (by rw [he]; decide)) (.inl (hother _ (by decide)))
        (fun h => by rcases h with h | h <;> exact absurd (honly _ h) (by decide)) (.inr ?_) (.inl (hother _ (by decide))) (.inl (hother _ (by decide)))
        (fun h => absurd (honly _ h) (by decide)) (fun h => by rcases h with h | h <;> exact absurd (honly _ h) (by decide)) (fun h => absurd (honly _ h) (by decide)) hkids
      unfold refersTo
      rw [hsame]
      exact (congrArg known m2).mpr hK
    · -- list
      have e : referrer b!"list" = b!"itemType" := by decide
      rw [e] at m1
      rw [if_neg (by decide), List.nil_append] at m3
      rw [m1, m3] at hsame hother ⊢
      refine sound_change hsound rfl rfl (fun loc hl => hother loc fun he => hl (by rw [he]; decide)) (.inl (hother _ (by decide)))
        (fun h => by rcases h with h | h <;> exact absurd (honly _ h) (by decide)) (.inl (hother _ (by decide))) (.inl (hother _ (by decide))) (.inr ?_)
        (fun h => absurd (honly _ h) (by decide)) (fun h => by rcases h with h | h <;> exact absurd (honly _ h) (by decide)) (fun _ he => ?_) hkids
      · refine ⟨?_, fun h => by rcases h with h | h <;> exact absurd (honly _ h) (by decide)⟩
        unfold refersTo
        rw [hsame]
        exact (congrArg before m2).mpr hB
      · rw [hsame] at he
        exact absurd he hqne
    · -- restriction
      have e : referrer b!"restriction" = b!"base" := by decide
      rw [e] at m1
      rw [if_neg (by decide), List.nil_append] at m3
      rw [m1, m3] at hsame hother ⊢
      have hr : refersTo (.mk n (attrSet [] b!"base" q a) s [] (ks'.eraseIdx i)) b!"base" = ⟨tns, nm⟩ := by
        unfold refersTo
        rw [hsame]
        exact m2
      refine sound_change hsound rfl rfl (fun loc hl => hother loc fun he => hl (by rw [he]; decide)) (.inl (hother _ (by decide)))
        (fun h => by rcases h with h | h <;> exact absurd (honly _ h) (by decide)) (.inl (hother _ (by decide))) (.inr ?_) (.inl (hother _ (by decide)))
        (fun h => absurd (honly _ h) (by decide)) (fun _ he => ?_) (fun h => absurd (honly _ h) (by decide)) hkids
      · rw [hr]
        exact ⟨⟨hB, hbi⟩, fun h => by rcases h with h | h <;> exact absurd (honly _ h) (by decide)⟩
      · rw [hsame] at he
        exact absurd he hqne
    · -- union
      have e : referrer b!"union" = b!"memberTypes" := by decide
      rw [e] at m1
      rw [if_pos rfl] at m3
      obtain ⟨q', f1, f2⟩ := F.spaced (st := st) hkept.1 hh hc hm hloc' hsound.prefixes
      have hqq : q' = q := List.append_cancel_left (f1.symm.trans m3)
      subst hqq
      rw [m1, m3] at hsame hother ⊢
      refine sound_change hsound rfl rfl (fun loc hl => hother loc fun he => hl (by rw [he]; decide)) (.inl (hother _ (by decide)))
        (fun h => by rcases h with h | h <;> exact absurd (honly _ h) (by decide)) (.inl (hother _ (by decide))) (.inl (hother _ (by decide))) (.inl (hother _ (by decide)))
        (fun hu ws hw w hww => ?_) (fun h => by rcases h with h | h <;> exact absurd (honly _ h) (by decide)) (fun h => absurd (honly _ h) (by decide)) hkids
      rw [hsame] at hw
      have hw' := words_append (fields_words (attrNamed (.mk n a s c ks) b!"memberTypes")) hqne f2
      rw [words_fields hw, ← words_fields hw'] at hww
      rcases List.mem_append.mp hww with hww | hww
      · exact hsound.members hu _ (fields_words _) w hww
      · rw [List.mem_singleton.mp hww]
        exact (congrArg known m2).mpr hK
  · cases k1; exact hq.2.1
  · cases k1; exact hq.2.2.1
  · have hat : ∀ loc, loc ≠ b!"name" → loc ≠ b!"_isAnonymous" → attrNamed (withAttrs m.rename k1) loc = attrNamed k1 loc := by
      intro loc h1 h2
      cases k1
      rw [← Wsdl.attr_eq, ← Wsdl.attr_eq]
      exact m5 _ loc h1 h2
    have hch : (withAttrs m.rename k1).children = k1.children := by cases k1; rfl
    have hanon : HasAnon k1 → HasAnon (withAttrs m.rename k1) := fun hh => absurd hh v4
    refine sound_change hq.2.2.2 (by cases k1; rfl) (by cases k1; rfl) (fun loc hl => hat loc (fun he => hl (by rw [he]; decide)) fun he => hl (by rw [he]; decide))
      (.inl (hat _ (by decide) (by decide))) (fun _ => by rw [hname]; exact hfit.2) (.inl (hat _ (by decide) (by decide))) (.inl (hat _ (by decide) (by decide)))
      (.inl (hat _ (by decide) (by decide))) (fun hu ws hw => ?_) (fun _ he => ⟨(hat b!"base" (by decide) (by decide)).symm.trans he, hanon⟩)
      (fun _ he => ⟨(hat b!"itemType" (by decide) (by decide)).symm.trans he, hanon⟩) (by rw [hch]; exact fun k hk => ⟨k, hk, rfl, rfl⟩)
    rw [hat _ (by decide) (by decide)] at hw
    exact hq.2.2.2.members hu ws hw
  · rw [hname]; exact hfit.1

theorem hoist_sound (t : Element) : ∀ st, Every (Sober env known before tns) t →
    (∀ y ∈ (hoist P t st).2.1, known ⟨tns, attrNamed y b!"name"⟩ ∧ before ⟨tns, attrNamed y b!"name"⟩) →
    Every (Sober env known before tns) (hoist P t st).1 ∧ Twin t (hoist P t st).1 ∧
      ∀ y ∈ (hoist P t st).2.1, Every (Sober env known before tns) y ∧ attrNamed y b!"name" ≠ [] := by
  induction t using Element.ind with
  | hP n a s c ks ih =>
    intro st ht
    obtain ⟨hq, hks⟩ := every_iff.mp ht
    have hall : ∀ (js : List Element), (∀ k ∈ js, k ∈ ks) → ∀ st, (∀ y ∈ (hoistAll P js st).2.1, known ⟨tns, attrNamed y b!"name"⟩ ∧ before ⟨tns, attrNamed y b!"name"⟩) →
        (∀ k ∈ (hoistAll P js st).1, Every (Sober env known before tns) k) ∧ List.Forall₂ Twin js (hoistAll P js st).1 ∧
        ∀ y ∈ (hoistAll P js st).2.1, Every (Sober env known before tns) y ∧ attrNamed y b!"name" ≠ [] := by
      intro js
      induction js with
      | nil => intro _ st _; rw [hoistAll]; exact ⟨by simp, .nil, by simp⟩
      | cons j js ih2 =>
        intro hjs st hT
        rw [hoistAll] at hT ⊢
        obtain ⟨i1, i2, i3⟩ := ih j (hjs j (by simp)) st (hks j (hjs j (by simp))) fun y hy => hT y (List.mem_append_left _ hy)
        obtain ⟨j1, j2, j3⟩ := ih2 (fun k hk => hjs k (by simp [hk])) (hoist P j st).2.2 fun y hy => hT y (List.mem_append_right _ hy)
        refine ⟨?_, .cons i2 j2, ?_⟩
        · intro k hk
          rcases List.mem_cons.mp hk with rfl | hk
          · exact i1
          · exact j1 k hk
        · intro y hy
          rcases List.mem_append.mp hy with hy | hy
          · exact i3 y hy
          · exact j3 y hy
    have hkeep : ∀ st, (∀ y ∈ (hoistAll P ks st).2.1, known ⟨tns, attrNamed y b!"name"⟩ ∧ before ⟨tns, attrNamed y b!"name"⟩) →
        Every (Sober env known before tns) (.mk n a s c (hoistAll P ks st).1) ∧ Twin (.mk n a s c ks) (.mk n a s c (hoistAll P ks st).1) ∧
        ∀ y ∈ (hoistAll P ks st).2.1, Every (Sober env known before tns) y ∧ attrNamed y b!"name" ≠ [] := by
      intro st hT
      obtain ⟨j1, j2, j3⟩ := hall ks (fun _ h => h) st hT
      exact ⟨every_iff.mpr ⟨⟨keep_kept n a s c ks _ hq.1 (twins_like j2), hq.2.1, hq.2.2.1, sound_keep hq.2.2.2 j2⟩, j1⟩,
        ⟨⟨rfl, Iff.rfl, hasAnon_like (x := .mk n a s c ks) (x' := .mk n a s c (hoistAll P ks st).1) (twins_like j2)⟩, rfl⟩, j3⟩
    rw [hoist]
    cases hp : P.pick (.mk n a s c ks) with
    | none => exact hkeep st
    | some i =>
      dsimp only
      rcases hm : P.move st (.mk n a s c ks) with ⟨st', _ | m⟩
      · exact hkeep st'
      · dsimp only
        intro hT
        obtain ⟨j1, j2, j3⟩ := hall ks (fun _ h => h) st' fun y hy => hT y (List.mem_append_right _ hy)
        obtain ⟨k0, hk0, ha0⟩ := pick_at hp
        simp only [Element.children] at hk0
        obtain ⟨k1, hk1⟩ : ∃ k1, (hoistAll P ks st').1[i]? = some k1 := by
          have : i < (hoistAll P ks st').1.length := by rw [← j2.length_eq]; exact (List.getElem?_eq_some_iff.mp hk0).1
          exact ⟨_, List.getElem?_eq_getElem this⟩
        have hek := every_iff.mp (j1 k1 (List.mem_of_getElem? hk1))
        rw [hk1] at hT ⊢
        simp only [Option.map_some, Option.toList_some, List.singleton_append] at hT ⊢
        obtain ⟨m1, m2, m3, m4⟩ := mv_sound N R F own n a s c ks _ st i m hq j2 hp (by rw [hm]) hk1 hek.1 fun l hl => by rw [hl]; exact hT _ (by simp)
        obtain ⟨v1, _, _⟩ := N.mv n a s c ks _ st i m hq.1 (twins_like j2) hp (by rw [hm])
        have hsub : ∀ k ∈ ((hoistAll P ks st').1.eraseIdx i), k ∈ (hoistAll P ks st').1 := fun k hk => List.mem_of_mem_eraseIdx hk
        refine ⟨every_iff.mpr ⟨m2, fun k hk => j1 k (hsub k hk)⟩, ⟨⟨rfl, anon_attrSet v1, ?_⟩, attrNamed_other (Ne.symm m1)⟩, ?_⟩
        · rintro ⟨k, h1, h2⟩
          obtain ⟨k0, h3, h4⟩ := twin_left j2 (hsub k h1)
          exact ⟨k0, h3, h4.1.anon.mp h2⟩
        · intro y hy
          rcases List.mem_cons.mp hy with rfl | hy
          · refine ⟨every_iff.mpr ⟨m3, fun k' hk' => hek.2 k' ?_⟩, m4⟩
            cases k1
            exact hk'
          · exact j3 y hy

theorem hoistAll_sound (js : List Element) : ∀ st, (∀ k ∈ js, Every (Sober env known before tns) k) →
    (∀ y ∈ (hoistAll P js st).2.1, known ⟨tns, attrNamed y b!"name"⟩ ∧ before ⟨tns, attrNamed y b!"name"⟩) →
    (∀ k ∈ (hoistAll P js st).1, Every (Sober env known before tns) k) ∧
      ∀ y ∈ (hoistAll P js st).2.1, Every (Sober env known before tns) y ∧ attrNamed y b!"name" ≠ [] := by
  induction js with
  | nil => intro st _ _; rw [hoistAll]; simp
  | cons j js ih =>
    intro st hjs hT
    rw [hoistAll] at hT ⊢
    obtain ⟨i1, _, i3⟩ := hoist_sound N R F own j st (hjs j (by simp)) fun y hy => hT y (List.mem_append_left _ hy)
    obtain ⟨j1, j3⟩ := ih (hoist P j st).2.2 (fun k hk => hjs k (by simp [hk])) fun y hy => hT y (List.mem_append_right _ hy)
    refine ⟨?_, ?_⟩
    · intro k hk
      rcases List.mem_cons.mp hk with rfl | hk
      · exact i1
      · exact j1 k hk
    · intro y hy
      rcases List.mem_append.mp hy with hy | hy
      · exact i3 y hy
      · exact j3 y hy

end

/-! ### One schema -/

/-- A schema between two passes. -/
structure Stage (env : ParseEnv) (known before : XName → Prop) (tns : Str) (t : Element) : Prop where
  space : attrNamed t b!"targetNamespace" = tns
  flags : ∀ a ∈ [b!"abstract", b!"mixed"], ∃ b, BoolText (attrNamed t a) b
  clear : Clear t.scope w3cSchemaNS
  named : ∀ k ∈ typesOf t, attrNamed k b!"name" ≠ []
  top : ∀ k ∈ t.children, IsXs b!"element" k → attrNamed k b!"type" ≠ [] → before (refersTo k b!"type")
  each : ∀ x ∈ below t, Clear x.scope tns ∧ Clear x.scope w3cSchemaNS ∧ SoundAt env known before x

theorem setAttrs_below {l : Str} {v : Scope → Str} {t : Element} {ps : List (List Nat)} {x' : Element} (hx : x' ∈ below (setAttrs l v t ps)) :
    ∃ x ∈ below t, Alike l x x' ∧ (attrNamed x' l = attrNamed x l ∨ attrNamed x' l = v x.scope) := by
  obtain ⟨p, x, _, h1, h2, h3, h4⟩ := (alike_setAttrs l v t ps).below hx
  refine ⟨x, h3, h4, ?_⟩
  rcases setAttrs_at l v t ps p with ⟨h, _⟩ | ⟨e, e', g1, g2, _, _, _, _, g3⟩
  · rw [h1] at h; cases h
  · rw [h1] at g1; cases g1
    rw [h2] at g2; cases g2
    rw [← Wsdl.attr_eq, ← Wsdl.attr_eq]
    unfold Element.attr
    rw [g3]
    split
    · exact .inr (attr_attrSet_same _ _ _ _)
    · exact .inl rfl

theorem Alike.kin {l : Str} {t t' : Element} (ha : Alike l t t') (hl : l ≠ b!"name") : List.Forall₂ Kin t.children t'.children :=
  ha.kids.imp fun _ _ h => ⟨h.root.1, h.root.2.2.2 _ hl.symm⟩

theorem named_kin {t t' : Element} (hk : List.Forall₂ Kin t.children t'.children) (h : ∀ k ∈ typesOf t, attrNamed k b!"name" ≠ []) :
    ∀ k ∈ typesOf t', attrNamed k b!"name" ≠ [] := by
  have e : (typesOf t').map (attrNamed · b!"name") = (typesOf t).map (attrNamed · b!"name") := types_kin hk
  intro k hm he
  have : attrNamed k b!"name" ∈ (typesOf t').map (attrNamed · b!"name") := List.mem_map.mpr ⟨k, hm, rfl⟩
  rw [e] at this
  obtain ⟨j, h1, h2⟩ := List.mem_map.mp this
  exact h j h1 (h2.trans he)

theorem stage_set {tns : Str} {t : Element} {l : Str} {v : Scope → Str} {ps : List (List Nat)} (h : Stage env known before tns t)
    (hl : l = b!"type" ∧ (∀ x ∈ below t, known (denoted x.scope (v x.scope)) ∧ before (denoted x.scope (v x.scope))) ∨ l = b!"minOccurs" ∧ ∀ sc, v sc = b!"0") :
    Stage env known before tns (setAttrs l v t ps) := by
  have a := alike_setAttrs l v t ps
  have hne : l ≠ b!"name" ∧ l ≠ b!"targetNamespace" ∧ l ≠ b!"abstract" ∧ l ≠ b!"mixed" ∧ l ≠ b!"base" ∧ l ≠ b!"itemType" ∧ l ≠ b!"memberTypes" ∧ l ≠ b!"value" ∧ l ∈ Touched := by
    rcases hl with ⟨rfl, _⟩ | ⟨rfl, _⟩ <;> decide
  obtain ⟨n1, n2, n3, n4, n5, n6, n7, n8, n9⟩ := hne
  refine ⟨?_, ?_, ?_, named_kin (a.kin n1) h.named, ?_, ?_⟩
  · rw [a.root.2.2.2 _ n2.symm]; exact h.space
  · intro b hb
    rw [a.root.2.2.2 _ (by simp only [List.mem_cons, List.not_mem_nil, or_false] at hb; rcases hb with rfl | rfl; exact n3.symm; exact n4.symm)]
    exact h.flags b hb
  · rw [a.root.2.1]; exact h.clear
  · intro k' hk' he ht
    obtain ⟨i, hi⟩ := List.getElem?_of_mem hk'
    have hk2 : k' ∈ below (setAttrs l v t ps) := child_below hk'
    -- the child at the same place
    have hat : (setAttrs l v t ps).at? [i] = some k' := by rw [Element.at?, hi]; exact at_nil _
    rcases setAttrs_at l v t ps [i] with ⟨_, hh⟩ | ⟨k, k'', g1, g2, g3, g4, _, _, g5⟩
    · rw [hat] at hh; cases hh
    · rw [hat] at g2; cases g2
      have hkt : k ∈ t.children := by
        obtain ⟨k0, e1, e2⟩ := at_cons g1
        rw [at_nil] at e2; cases e2
        exact List.mem_of_getElem? e1
      have hxs := (isXs_name g3).mp he
      by_cases hty : attrNamed k' b!"type" = attrNamed k b!"type"
      · unfold refersTo
        rw [g4, hty]
        rw [hty] at ht
        exact h.top k hkt hxs ht
      · rcases hl with ⟨rfl, hv⟩ | ⟨rfl, hv⟩
        · have : attrNamed k' b!"type" = v k.scope := by
            rw [← Wsdl.attr_eq] at hty ⊢
            rw [← Wsdl.attr_eq] at hty
            unfold Element.attr at hty ⊢
            rw [g5] at hty ⊢
            split at hty
            · rename_i hp
              rw [if_pos hp]
              exact attr_attrSet_same _ _ _ _
            · exact absurd rfl hty
          unfold refersTo
          rw [g4, this]
          exact (hv k (child_below hkt)).2
        · exfalso
          apply hty
          rw [← Wsdl.attr_eq, ← Wsdl.attr_eq]
          unfold Element.attr
          rw [g5]
          split
          · exact attr_attrSet_other _ _ _ _ _ _ (by decide)
          · rfl
  · intro x' hx'
    obtain ⟨x, h1, h2, h3⟩ := setAttrs_below hx'
    obtain ⟨c1, c2, c3⟩ := h.each x h1
    obtain ⟨r1, r2, _, r4⟩ := h2.root
    rw [r2]
    refine ⟨c1, c2, ?_⟩
    have hanon : HasAnon x → HasAnon x' := by
      rintro ⟨k, g1, g2⟩
      have : ∀ {ks ks' : List Element}, List.Forall₂ (Alike l) ks ks' → k ∈ ks → ∃ k' ∈ ks', Alike l k k' := by
        intro ks ks' h hk
        induction h with
        | nil => cases hk
        | cons h1 _ ih =>
          rcases List.mem_cons.mp hk with rfl | hk
          · exact ⟨_, by simp, h1⟩
          · obtain ⟨k, h2, h3⟩ := ih hk
            exact ⟨k, by simp [h2], h3⟩
      obtain ⟨k', g3, g4⟩ := this h2.kids g1
      exact ⟨k', g3, (g4.anon n1).mpr g2⟩
    have hkids : ∀ k' ∈ x'.children, ∃ k ∈ x.children, k'.name = k.name ∧ attrNamed k' b!"value" = attrNamed k b!"value" := by
      intro k' hk'
      have : ∀ {ks ks' : List Element}, List.Forall₂ (Alike l) ks ks' → k' ∈ ks' → ∃ k ∈ ks, Alike l k k' := by
        intro ks ks' h hk
        induction h with
        | nil => cases hk
        | cons h1 _ ih =>
          rcases List.mem_cons.mp hk with rfl | hk
          · exact ⟨_, by simp, h1⟩
          · obtain ⟨k, h2, h3⟩ := ih hk
            exact ⟨k, by simp [h2], h3⟩
      obtain ⟨k, g3, g4⟩ := this h2.kids hk'
      exact ⟨k, g3, g4.root.1, g4.root.2.2.2 _ n8.symm⟩
    refine sound_change c3 r1 r2 (fun loc hloc => r4 loc fun he => hloc (by rw [he]; exact n9)) ?_ (fun hh => by rw [r4 _ n1.symm]; exact c3.plain hh) ?_ (.inl (r4 _ n5.symm)) (.inl (r4 _ n6.symm))
      (fun hu ws hw => by rw [r4 _ n7.symm] at hw; exact c3.members hu ws hw) (fun _ he => ⟨by rw [← r4 _ n5.symm]; exact he, hanon⟩)
      (fun _ he => ⟨by rw [← r4 _ n6.symm]; exact he, hanon⟩) hkids
    · rcases hl with ⟨rfl, hv⟩ | ⟨rfl, hv⟩
      · exact .inl (r4 _ (by decide))
      · rw [hv] at h3; exact h3
    · rcases hl with ⟨rfl, hv⟩ | ⟨rfl, hv⟩
      · rcases h3 with h3 | h3
        · exact .inl h3
        · refine .inr ?_
          unfold refersTo
          rw [r2, h3]
          exact (hv x h1).1
      · exact .inl (r4 _ (by decide))

theorem default_known (hb : ∀ n, BuiltIn n → known n ∧ before n) {sc : Scope} (hc : Clear sc w3cSchemaNS) {b : Builtin} {loc : Str} (hl : loc ≠ [] ∧ (58 : UInt8) ∉ loc)
    (h1 : 0 ≤ b ∧ b < 50) (h2 : builtinName b = ⟨w3cSchemaNS, loc⟩) :
    known (denoted sc (prefixOf sc ⟨w3cSchemaNS, loc⟩)) ∧ before (denoted sc (prefixOf sc ⟨w3cSchemaNS, loc⟩)) := by
  rw [← Wsdl.resolve_eq, C06_prefix_inverse_unique_partial sc w3cSchemaNS loc hc.ns hl hc.pre hc.one hc.decl]
  exact hb _ ⟨b, h1.1, h1.2, h2⟩

theorem stage_defaults {tns : Str} {t : Element} (hb : ∀ n, BuiltIn n → known n ∧ before n) (h : Stage env known before tns t) :
    Stage env known before tns (elementDefaultType (attributeDefaultType t)) := by
  have h1 : Stage env known before tns (attributeDefaultType t) :=
    stage_set h (.inl ⟨rfl, fun x hx => default_known hb (h.each x hx).2.1 (b := 49) (by decide) (by decide) (by decide)⟩)
  exact stage_set h1 (.inl ⟨rfl, fun x hx => default_known hb (h1.each x hx).2.1 (b := 0) (by decide) (by decide) (by decide)⟩)

theorem stage_choices {tns : Str} {t : Element} (h : Stage env known before tns t) : Stage env known before tns (setChoicesOptional t) :=
  stage_set h (.inr ⟨rfl, fun _ => rfl⟩)

theorem stage_hoist {σ : Type} {tns : Str} {P : Plan σ} (N : Namer tns P) (R : Refers tns P (Told tns)) (F : Fit tns P) (own : ∀ n, BuiltIn n → n.space ≠ tns)
    {t : Element} (hr : Ready t) (h : Stage env known before tns t) (st : σ)
    (hT : ∀ n, Offers (hoistRoot P t st).1 n → known n ∧ before n) : Stage env known before tns (hoistRoot P t st).1 := by
  have hmoved : ∀ y ∈ (hoistAll P t.children st).2.1, y ∈ typesOf (hoistRoot P t st).1 := by
    intro y hy
    refine mem_typesOf.mpr ⟨?_, (hoistAll_types t.children (fun k _ => hoist_types k) st).2 y hy⟩
    cases t
    rw [hoistRoot]
    exact List.mem_append_right _ hy
  have hroot : attrNamed (hoistRoot P t st).1 b!"targetNamespace" = tns := by
    rw [← h.space]; cases t; rfl
  have hE : ∀ k ∈ t.children, Every (Sober env known before tns) k :=
    every_below.mp fun x hx => ⟨⟨by rw [← h.space]; exact hr.neat.each x hx, hr.typed x hx⟩, h.each x hx⟩
  obtain ⟨h1, h2⟩ := hoistAll_sound N R F own t.children st hE fun y hy => hT _ ⟨y, hmoved y hy, by rw [hroot]⟩
  have htypes := types_names (P := P) hr.neat.top st
  have htop := hr.neat.top
  have hkinds := (hoistAll_types (P := P) t.children (fun k _ => hoist_types k) st).2
  refine ⟨hroot, ?_, ?_, ?_, ?_, ?_⟩
  · have := h.flags
    cases t
    exact this
  · have := h.clear
    cases t
    exact this
  · intro k hk he
    have : attrNamed k b!"name" ∈ (typesOf (hoistRoot P t st).1).map (attrNamed · b!"name") := List.mem_map.mpr ⟨k, hk, rfl⟩
    rw [htypes] at this
    rcases List.mem_append.mp this with hh | hh
    · obtain ⟨j, g1, g2⟩ := List.mem_map.mp hh
      exact h.named j g1 (g2.trans he)
    · obtain ⟨j, g1, g2⟩ := List.mem_map.mp hh
      exact (h2 j g1).2 (g2.trans he)
  · intro k hk hel hty
    have hk' : k ∈ (hoistAll P t.children st).1 ++ (hoistAll P t.children st).2.1 := by cases t; exact hk
    rcases List.mem_append.mp hk' with hk' | hk'
    · have key : ∀ (js : List Element) st, (∀ j ∈ js, ¬ HasAnon j) → k ∈ (hoistAll P js st).1 → ∃ j ∈ js, k.name = j.name ∧ k.scope = j.scope ∧ k.attrs = j.attrs := by
        intro js
        induction js with
        | nil => intro st _ hm; rw [hoistAll] at hm; cases hm
        | cons j js ih =>
          intro st hj hm
          rw [hoistAll] at hm
          rcases List.mem_cons.mp hm with hm | hm
          · refine ⟨j, by simp, ?_⟩
            have hp : P.pick j = none := by
              by_contra hc
              exact hj j (by simp) (pick_anon hc).2
            cases j
            rw [hoist, hp] at hm
            rw [hm]
            exact ⟨rfl, rfl, rfl⟩
          · obtain ⟨j', g1, g2⟩ := ih _ (fun j hj' => hj j (by simp [hj'])) hm
            exact ⟨j', by simp [g1], g2⟩
      obtain ⟨j, g1, g2, g3, g4⟩ := key t.children st htop hk'
      have e := attrNamed_attrs g4
      unfold refersTo
      rw [g3, e]
      rw [e] at hty
      exact h.top j g1 ((isXs_name g2).mp hel) hty
    · have := hkinds k hk'
      unfold IsXs at this hel
      rw [hel] at this
      rcases this with hh | hh <;> simp at hh
  · rw [every_below (Q := fun x => Clear x.scope tns ∧ Clear x.scope w3cSchemaNS ∧ SoundAt env known before x)]
    intro k hk
    have hk' : k ∈ (hoistAll P t.children st).1 ++ (hoistAll P t.children st).2.1 := by cases t; exact hk
    rcases List.mem_append.mp hk' with hk' | hk'
    · exact (h1 k hk').imp fun x hx => hx.2
    · exact (h2 k hk').1.imp fun x hx => hx.2

/-! ### Explicit content -/

theorem bool_nil : ∃ b, BoolText [] b := by
  by_contra hc
  have := (parseBool_none []).mpr fun b hb => hc ⟨b, hb⟩
  revert this
  decide

theorem means_nil : Means [] 0 := ⟨[], ⟨[], [], by simp, by simp, by simp, by simp, by simp⟩, .inl ⟨rfl, rfl⟩⟩

/-- What is kept when complex types get explicit content. -/
def Spoken (env : ParseEnv) (known before : XName → Prop) (tns : Str) (x : Element) : Prop :=
  Clear x.scope tns ∧ Clear x.scope w3cSchemaNS ∧ SoundAt env known before x

theorem sound_new {loc : Str} {a : List Attr} {s : Scope} {ks : List Element} (hl : loc = b!"restriction" ∨ loc = b!"complexContent")
    (ha : ∀ l, l ≠ b!"base" → attrNamed (.mk ⟨schemaNS, loc⟩ a s [] ks) l = [])
    (hb : loc = b!"restriction" → attrNamed (.mk ⟨schemaNS, loc⟩ a s [] ks) b!"base" ≠ [])
    (hB : attrNamed (.mk ⟨schemaNS, loc⟩ a s [] ks) b!"base" ≠ [] → before (refersTo (.mk ⟨schemaNS, loc⟩ a s [] ks) b!"base"))
    (hk : loc = b!"restriction" → ∀ k ∈ ks, ¬ Limit k)
    (hc : loc = b!"complexContent" → ∀ k ∈ ks, k.name.loc ∈ [b!"annotation", b!"restriction", b!"extension"])
    (hs : ∀ d ∈ s, ∀ c ∈ d.loc, isSpace c = false) : SoundAt env known before (.mk ⟨schemaNS, loc⟩ a s [] ks) := by
  have honly : ∀ l, IsXs l (.mk ⟨schemaNS, loc⟩ a s [] ks) → l = loc := fun l h => (congrArg XName.loc h).symm
  have hno : ∀ l, l ≠ b!"restriction" → l ≠ b!"complexContent" → ¬ IsXs l (.mk ⟨schemaNS, loc⟩ a s [] ks) := by
    intro l h1 h2 h3
    rw [← honly l h3] at hl
    exact hl.elim h1 h2
  refine ⟨?_, ?_, ?_, ?_, ?_, ?_, ?_, ?_, hB, ?_, ?_, ?_, hs, ?_, ?_⟩
  · intro l h
    rw [ha l (by simp only [List.mem_cons, List.not_mem_nil, or_false] at h; rcases h with rfl | rfl | rfl <;> decide)]
    exact bool_nil
  · intro l h
    rw [ha l (by simp only [List.mem_cons, List.not_mem_nil, or_false] at h; rcases h with rfl | rfl <;> decide)]
    exact ⟨0, means_nil⟩
  · intro l h hx
    refine absurd hx (hno l ?_ ?_) <;> (rintro rfl; revert h; decide)
  · intro h k hkk hlim
    exact absurd hlim (hk (honly _ h).symm k hkk)
  · intro h
    exact absurd h (hno _ (by decide) (by decide))
  · intro h k hkk _
    exact hc (honly _ h).symm k hkk
  · rintro (h | h) <;> exact absurd h (hno _ (by decide) (by decide))
  · rintro (h | h | h) <;> exact absurd h (hno _ (by decide) (by decide))
  · rintro (h | h) he
    · exact absurd he (hb (honly _ h).symm)
    · exact absurd h (hno _ (by decide) (by decide))
  · intro he
    exact absurd (ha _ (by decide)) he
  · intro h
    exact absurd h (hno _ (by decide) (by decide))
  · intro h
    exact absurd h (hno _ (by decide) (by decide))
  · rintro (h | h) <;> exact absurd h (hno _ (by decide) (by decide))

theorem spoken_expand {tns : Str} (hb : ∀ n, BuiltIn n → known n ∧ before n) (t : Element) : Every (Spoken env known before tns) t →
    Every (Spoken env known before tns) (expandTree t) := by
  induction t using Element.ind with
  | hP n a s c ks ih =>
    intro ht
    obtain ⟨⟨hc1, hc2, hq⟩, hks⟩ := every_iff.mp ht
    have hE : ∀ k' ∈ ks.map expandTree, Every (Spoken env known before tns) k' := by
      intro k' hk'
      obtain ⟨k, h1, rfl⟩ := List.mem_map.mp hk'
      exact ih k h1 (hks k h1)
    have hkids : ∀ k' ∈ ks.map expandTree, ∃ k ∈ ks, k'.name = k.name ∧ attrNamed k' b!"value" = attrNamed k b!"value" := by
      intro k' hk'
      obtain ⟨k, h1, rfl⟩ := List.mem_map.mp hk'
      exact ⟨k, h1, expandTree_name k, attrNamed_attrs (expandTree_attrs k) _⟩
    rw [expandTree_eq]
    by_cases hsh : Shorthand (.mk n a s c ks)
    · rw [if_pos hsh]
      have hn : n = ⟨schemaNS, b!"complexType"⟩ := hsh.1
      subst hn
      have hlim : ∀ k' ∈ ks.map expandTree, ¬ Limit k' := by
        intro k' hk'
        obtain ⟨k, h1, h2, _⟩ := hkids k' hk'
        rw [limit_name h2]
        exact (hq.content rfl k h1).1
      simp only [expandBelow, canonical]
      have hd := default_known (known := known) hb hc2 (b := 0) (loc := b!"anyType") (by decide) (by decide) (by decide)
      have hR : Every (Spoken env known before tns) (.mk ⟨schemaNS, b!"restriction"⟩ [⟨⟨[], b!"base"⟩, prefixOf s ⟨schemaNS, b!"anyType"⟩⟩] s [] ((ks.map expandTree).filter BelongsToContent)) := by
        refine every_iff.mpr ⟨⟨hc1, hc2, sound_new (.inl rfl) ?_ ?_ ?_ ?_ ?_ hq.prefixes⟩, fun k hk => hE k (List.mem_filter.mp hk).1⟩
        · intro l hl
          unfold attrNamed
          simp [Element.attrs, Ne.symm hl]
        · intro _
          exact prefixOf_ne (ns := w3cSchemaNS) (.inr hc2.decl) (by decide)
        · intro _
          exact hd.2
        · intro _ k hk
          exact hlim k (List.mem_filter.mp hk).1
        · intro h
          exact absurd h (by decide)
      have hC : Every (Spoken env known before tns) (.mk ⟨schemaNS, b!"complexContent"⟩ [] s []
          [.mk ⟨schemaNS, b!"restriction"⟩ [⟨⟨[], b!"base"⟩, prefixOf s ⟨schemaNS, b!"anyType"⟩⟩] s [] ((ks.map expandTree).filter BelongsToContent)]) := by
        refine every_iff.mpr ⟨⟨hc1, hc2, sound_new (.inr rfl) ?_ ?_ ?_ ?_ ?_ hq.prefixes⟩, fun k hk => by rw [List.mem_singleton.mp hk]; exact hR⟩
        · intro l hl
          rfl
        · intro h
          exact absurd h (by decide)
        · intro h
          exact absurd rfl h
        · intro h
          exact absurd h (by decide)
        · intro _ k hk
          rw [List.mem_singleton.mp hk]
          show b!"restriction" ∈ _
          decide
      have honly : ∀ l, IsXs l (.mk ⟨schemaNS, b!"complexType"⟩ a s [] ((ks.map expandTree).filter (¬ BelongsToContent ·) ++
        [.mk ⟨schemaNS, b!"complexContent"⟩ [] s []
          [.mk ⟨schemaNS, b!"restriction"⟩ [⟨⟨[], b!"base"⟩, prefixOf s ⟨schemaNS, b!"anyType"⟩⟩] s [] ((ks.map expandTree).filter BelongsToContent)]])) → l = b!"complexType" :=
        fun l h => (congrArg XName.loc h).symm
      refine every_iff.mpr ⟨⟨hc1, hc2, ?_⟩, ?_⟩
      · refine ⟨hq.flags, hq.counts, ?_, ?_, ?_, ?_, ?_, ?_, hq.base, ?_, hq.item, ?_, hq.prefixes, ?_, ?_⟩
        · intro l h hx
          rw [honly l hx] at h
          exact absurd h (by decide)
        · intro h
          exact absurd (honly _ h) (by decide)
        · intro _ k hk
          rcases List.mem_append.mp hk with hk | hk
          · obtain ⟨g1, g2⟩ := List.mem_filter.mp hk
            refine ⟨hlim k g1, .inr fun hsp => ?_⟩
            have g2 : ¬ BelongsToContent k := by simpa using g2
            unfold BelongsToContent at g2
            have : k.name.loc = b!"annotation" := by
              by_contra hne
              exact g2 ⟨hsp, hne⟩
            rw [this]
            decide
          · rw [List.mem_singleton.mp hk]
            refine ⟨?_, .inr fun _ => ?_⟩
            · refine mt (limit_name (k := .mk ⟨schemaNS, b!"complexContent"⟩ [] [] [] []) rfl).mp ?_
              decide
            · show b!"complexContent" ∈ _
              decide
        · intro h
          exact absurd (honly _ h) (by decide)
        · intro _
          exact hq.plain (.inl rfl)
        · rintro (h | h | h) <;> exact absurd (honly _ h) (by decide)
        · rintro (h | h) <;> exact absurd (honly _ h) (by decide)
        · intro h
          exact absurd (honly _ h) (by decide)
        · intro h
          exact absurd (honly _ h) (by decide)
        · rintro (h | h) <;> exact absurd (honly _ h) (by decide)
      · intro k hk
        rcases List.mem_append.mp hk with h1 | h1
        · exact hE k (List.mem_filter.mp h1).1
        · rw [List.mem_singleton.mp h1]; exact hC
    · rw [if_neg hsh]
      simp only [expandBelow]
      have hanon : HasAnon (.mk n a s c ks) → HasAnon (.mk n a s c (ks.map expandTree)) := by
        rintro ⟨k, h1, h2⟩
        exact ⟨expandTree k, List.mem_map.mpr ⟨k, h1, rfl⟩, (anon_expand k).mpr h2⟩
      exact every_iff.mpr ⟨⟨hc1, hc2, sound_change hq rfl rfl (fun _ _ => rfl) (.inl rfl) hq.plain (.inl rfl) (.inl rfl) (.inl rfl) hq.members (fun _ h => ⟨h, hanon⟩) (fun _ h => ⟨h, hanon⟩) hkids⟩, hE⟩

theorem stage_expand {tns : Str} {t : Element} (hb : ∀ n, BuiltIn n → known n ∧ before n) (h : Stage env known before tns t) : Stage env known before tns (expandBelow t) := by
  have hk := every_below.mp h.each
  obtain ⟨h1, h2, h3, h4, h5, _⟩ := h
  cases t with
  | mk n a s c ks =>
    refine ⟨h1, h2, h3, named_kin (t := .mk n a s c ks) ?_ h4, ?_, ?_⟩
    · show List.Forall₂ Kin ks (ks.map expandTree)
      rw [List.forall₂_map_right_iff, List.forall₂_same]
      exact fun k _ => ⟨expandTree_name k, attrNamed_attrs (expandTree_attrs k) _⟩
    · intro k' hk' he hty
      obtain ⟨k, g1, rfl⟩ := List.mem_map.mp hk'
      have hsc : (expandTree k).scope = k.scope := by
        rw [expandTree_eq]
        cases k
        split <;> rfl
      have ha := attrNamed_attrs (expandTree_attrs k) b!"type"
      unfold refersTo
      rw [hsc, ha]
      rw [ha] at hty
      exact h5 k g1 ((isXs_name (expandTree_name k)).mp he) hty
    · refine (every_below (Q := Spoken env known before tns)).mpr ?_
      intro k' hk'
      obtain ⟨k, g1, rfl⟩ := List.mem_map.mp hk'
      exact spoken_expand hb k (hk k g1)

/-! ### All passes -/

theorem offers_survives {t t' : Element} (h : Survives t t') {n : XName} (ho : Offers t n) : Offers t' n := by
  obtain ⟨k, h1, rfl⟩ := ho
  obtain ⟨g1, g2⟩ := mem_typesOf.mp h1
  obtain ⟨old, new, e, hf, _⟩ := h.decls
  have : ∃ k' ∈ old, Kin k k' := by
    clear * - hf g1
    generalize t.children = ks at hf g1
    induction hf with
    | nil => cases g1
    | cons h _ ih =>
      rcases List.mem_cons.mp g1 with rfl | g1
      · exact ⟨_, by simp, h⟩
      · obtain ⟨k', h2, h3⟩ := ih g1
        exact ⟨k', by simp [h2], h3⟩
  obtain ⟨k', j1, j2⟩ := this
  refine ⟨k', mem_typesOf.mpr ⟨by rw [e]; simp [j1], by rw [isXs_name j2.1, isXs_name j2.1]; exact g2⟩, ?_⟩
  rw [h.tns, j2.2]

theorem SoundAt.mono {known' before' : XName → Prop} {x : Element} (hk : ∀ n, known n → known' n) (hb : ∀ n, before n → before' n) (h : SoundAt env known before x) :
    SoundAt env known' before' x :=
  ⟨h.flags, h.counts, h.sizes, h.limits, h.content, h.derivation, h.plain, fun a b => hk _ (h.type a b), fun a => hb _ (h.base a), h.based, fun a => hb _ (h.item a), h.listed,
    h.prefixes, fun a ws b q c => hk _ (h.members a ws b q c), h.bare⟩

/-- What becomes of one schema. -/
def finish (t : Element) (k : Nat) : Element := expandBelow (setChoicesOptional (hoistRoot (numbered (t.attr [] b!"targetNamespace")) t k).1)

theorem finish_survives {t : Element} (h : Ready t) (k : Nat) : Survives (hoistRoot (numbered (t.attr [] b!"targetNamespace")) t k).1 (finish t k) ∧ Survives t (finish t k) := by
  have a : ∀ u, Alike b!"minOccurs" u (setChoicesOptional u) := fun u => alike_setAttrs _ _ _ _
  have h1 : Survives (hoistRoot (numbered (t.attr [] b!"targetNamespace")) t k).1 (finish t k) := ((a _).survives (by decide) (by decide)).trans (survives_expand _)
  exact ⟨h1, (survives_hoist h.neat.top k).trans h1⟩

theorem stage_finish {t t' : Element} (hN : Neat t) (hS : SoundSchema env known before t) (hf : FirstLoop t t') (k : Nat)
    (hb : ∀ n, BuiltIn n → known n ∧ before n) (hT : ∀ n, Offers (finish t' k) n → known n ∧ before n) :
    Stage env known before (attrNamed t b!"targetNamespace") (finish t' k) := by
  have s0 : Stage env known before (attrNamed t b!"targetNamespace") t :=
    ⟨rfl, hS.flags, (hS.clear t (by simp)).2, hS.named, hS.top, fun x hx => ⟨(hS.clear x (by simp [hx])).1, (hS.clear x (by simp [hx])).2, hS.each x hx⟩⟩
  have s1 := stage_defaults hb s0
  obtain ⟨n1, n2, _, _⟩ := neat_defaults hN
  have hr1 := (first_ready hN hf).1
  obtain ⟨w1, w2⟩ := finish_survives hr1 k
  obtain ⟨used, _, rfl⟩ := hf
  simp only [Wsdl.attr_eq, s1.space] at hr1 w1 w2 hT ⊢
  have s2 := stage_hoist (byElement_namer _) (byElement_refers _) (byElement_fit _) hS.own ⟨n1, n2⟩ s1 used fun n ho => hT n (offers_survives w2 ho)
  simp only [finish, Wsdl.attr_eq, s2.space] at hr1 w1 w2 hT ⊢
  exact stage_expand hb (stage_choices (stage_hoist (numbered_namer _) (numbered_refers _) (numbered_fit _) hS.own hr1 s2 k fun n ho => hT n (offers_survives w1 ho)))

theorem finished_get {docs' : List Element} : ∀ (k : Nat) (i : Nat) (r : Element), (finished docs' k)[i]? = some r → ∃ t' k', docs'[i]? = some t' ∧ r = finish t' k' := by
  induction docs' with
  | nil => intro k i r h; simp [finished] at h
  | cons t ts ih =>
    intro k i r h
    rw [finished] at h
    cases i with
    | zero =>
      simp only [List.getElem?_cons_zero, Option.some.injEq] at h
      exact ⟨t, k, rfl, h.symm⟩
    | succ i =>
      rw [List.getElem?_cons_succ] at h
      obtain ⟨t', k', h1, h2⟩ := ih _ i r h
      exact ⟨t', k', by simpa using h1, h2⟩

/-! ### Sets of schemas -/

theorem below_parents {R : Element → Prop} (t : Element) : (∀ x ∈ t :: below t, ∀ k ∈ x.children, R k) → ∀ x ∈ below t, R x := by
  induction t using Element.ind with
  | hP n a s c ks ih =>
    intro h
    refine every_below.mpr fun k hk => ?_
    have hkb : k ∈ below (.mk n a s c ks) := child_below hk
    refine every_iff.mpr ⟨h _ (by simp) k hk, every_below.mp (ih k hk fun x hx => h x ?_)⟩
    rcases List.mem_cons.mp hx with rfl | hx
    · exact List.mem_cons_of_mem _ hkb
    · exact List.mem_cons_of_mem _ (inside_trans hkb hx)

/-- What the i-th of the normalized schemas may derive types from. -/
def Earlier (roots : List Element) (i : Nat) (n : XName) : Prop := BuiltIn n ∨ ∃ (j : Nat) (r : Element), j ≤ i ∧ roots[j]? = some r ∧ Offers r n

theorem offers_known {roots : List Element} {r : Element} (hr : r ∈ roots) (ht : target r ≠ [])
    (hp : ∀ k ∈ typesOf r, (58 : UInt8) ∉ attrNamed k b!"name") {n : XName} (h : Offers r n) : KnownIn roots n := by
  obtain ⟨k, h1, rfl⟩ := h
  refine .inr ⟨r, hr, k, ?_, ?_⟩
  · obtain ⟨g1, g2⟩ := mem_typesOf.mp h1
    unfold typeDecls allNamed
    rw [List.mem_append, List.mem_filter, List.mem_filter]
    rcases g2 with g2 | g2
    · exact .inl ⟨child_below g1, decide_eq_true g2⟩
    · exact .inr ⟨child_below g1, decide_eq_true g2⟩
  · rw [defines, if_pos ⟨ht, hp k h1⟩]
    rfl

theorem names_target {r : Element} {K B : XName → Prop} {tns : Str} (hc : Canonical r) (h : Stage env K B tns r) (ht : target r ≠ []) {n : XName} (hn : HasType r n) :
    n.space = target r ∧ n.loc ≠ [] := by
  rcases hn with ⟨e, he, rfl⟩ | rfl
  · have heb := typeDecls_below he
    have hty : IsXs b!"complexType" e ∨ IsXs b!"simpleType" e := by
      unfold typeDecls allNamed at he
      rcases List.mem_append.mp he with he | he
      · exact .inl (of_decide_eq_true (List.mem_filter.mp he).2)
      · exact .inr (of_decide_eq_true (List.mem_filter.mp he).2)
    have hnm := below_parents (R := fun k => IsXs b!"complexType" k ∨ IsXs b!"simpleType" k → attrNamed k b!"name" ≠ []) r (by
      intro x hx k hk hkt
      rcases List.mem_cons.mp hx with rfl | hx
      · exact h.named k (mem_typesOf.mpr ⟨hk, hkt⟩)
      · exact hc.named x hx k hk hkt) e heb hty
    rw [defines, if_pos ⟨ht, (h.each e heb).2.2.plain hty⟩]
    exact ⟨rfl, hnm⟩
  · rw [if_pos ht]
    exact ⟨rfl, by show b!"_self" ≠ []; decide⟩

theorem denoted_nil (sc : Scope) : (denoted sc []).loc = [] := by
  unfold denoted
  simp only [List.not_mem_nil, if_false]
  split <;> (try split) <;> rfl

theorem names_before {r : Element} {K B : XName → Prop} {tns : Str} (hb : ∀ n, BuiltIn n → K n ∧ B n) (h : Stage env K B tns r) {n : XName} (hn : NamesType r n)
    (hl : n.loc ≠ []) : B n := by
  have hne : ∀ {x : Element} {a : Str}, (refersTo x a).loc ≠ [] → attrNamed x a ≠ [] := by
    intro x a h1 h2
    unfold refersTo at h1
    rw [h2] at h1
    exact h1 (denoted_nil _)
  rcases hn with ⟨d, hd, rfl | rfl⟩ | ⟨el, hel, he, rfl⟩ | rfl
  · exact (h.each d hd).2.2.base (hne hl)
  · exact (h.each d hd).2.2.item (hne hl)
  · exact h.top el hel he (hne hl)
  · exact (default_known hb h.clear (b := 0) (loc := b!"anyType") (by decide) (by decide) (by decide)).2

/-- The names of types that schemas may refer to. -/
def Somewhere (roots : List Element) (n : XName) : Prop := BuiltIn n ∨ ∃ r ∈ roots, Offers r n

theorem forall2_at {α β : Type} {R : α → β → Prop} {l : List α} {m : List β} (h : List.Forall₂ R l m) (i : Nat) {a : α} {b : β} (h1 : l[i]? = some a) (h2 : m[i]? = some b) : R a b := by
  obtain ⟨i1, rfl⟩ := List.getElem?_eq_some_iff.mp h1
  obtain ⟨i2, rfl⟩ := List.getElem?_eq_some_iff.mp h2
  exact (List.forall₂_iff_get.mp h).2 i i1 i2

theorem forall2_there {α β : Type} {R : α → β → Prop} {l : List α} {m : List β} (h : List.Forall₂ R l m) (i : Nat) {a : α} (h1 : l[i]? = some a) : ∃ b, m[i]? = some b := by
  obtain ⟨i1, _⟩ := List.getElem?_eq_some_iff.mp h1
  have := h.length_eq
  exact ⟨_, List.getElem?_eq_getElem (by omega)⟩

theorem forall2_here {α β : Type} {R : α → β → Prop} {l : List α} {m : List β} (h : List.Forall₂ R l m) (i : Nat) {b : β} (h1 : m[i]? = some b) : ∃ a, l[i]? = some a := by
  obtain ⟨i1, _⟩ := List.getElem?_eq_some_iff.mp h1
  have := h.length_eq
  exact ⟨_, List.getElem?_eq_getElem (by omega)⟩

theorem somewhere_survives {S out : List Element} (h : List.Forall₂ Survives S out) {n : XName} (hn : Somewhere S n) : Somewhere out n := by
  rcases hn with hn | ⟨s, hs, ho⟩
  · exact .inl hn
  · obtain ⟨j, hj⟩ := List.getElem?_of_mem hs
    obtain ⟨r, hr⟩ := forall2_there h j hj
    exact .inr ⟨r, List.mem_of_getElem? hr, offers_survives (forall2_at h j hj hr) ho⟩

theorem earlier_survives {S out : List Element} (h : List.Forall₂ Survives S out) {i : Nat} {n : XName} (hn : Earlier S i n) : Earlier out i n := by
  rcases hn with hn | ⟨j, s, hji, hj, ho⟩
  · exact .inl hn
  · obtain ⟨r, hr⟩ := forall2_there h j hj
    exact .inr ⟨j, r, hji, hr, offers_survives (forall2_at h j hj hr) ho⟩

theorem Stage.mono {known' before' : XName → Prop} {tns : Str} {t : Element} (hk : ∀ n, known n → known' n) (hb : ∀ n, before n → before' n)
    (h : Stage env known before tns t) : Stage env known' before' tns t :=
  ⟨h.space, h.flags, h.clear, h.named, fun k a b c => hb _ (h.top k a b c), fun x hx => ⟨(h.each x hx).1, (h.each x hx).2.1, (h.each x hx).2.2.mono hk hb⟩⟩

theorem stages_finished {S docs' : List Element} (hN : ∀ t ∈ S, Neat t) (hS : SoundSet env S) (hf : List.Forall₂ FirstLoop S docs') (i : Nat) (r s : Element)
    (hr : (finished docs' 0)[i]? = some r) (hs : S[i]? = some s) : Stage env (Somewhere (finished docs' 0)) (Earlier (finished docs' 0) i) (attrNamed s b!"targetNamespace") r := by
  have hsv := survives_finished hf hN 0
  obtain ⟨t', k', h1, rfl⟩ := finished_get 0 i r hr
  have hso := hS.each i s hs
  have hK : ∀ n, (BuiltIn n ∨ ∃ s ∈ S, Offers s n) → Somewhere (finished docs' 0) n := fun n hn => somewhere_survives hsv hn
  have hB : ∀ n, (BuiltIn n ∨ ∃ (j : Nat) (s : Element), j ≤ i ∧ S[j]? = some s ∧ Offers s n) → Earlier (finished docs' 0) i n := fun n hn => earlier_survives hsv hn
  refine stage_finish (hN s (List.mem_of_getElem? hs)) ⟨hso.flags, hso.clear, hso.own, hso.named, fun k a b c => hB _ (hso.top k a b c), fun x hx => (hso.each x hx).mono hK hB⟩
    (forall2_at hf i hs h1) k' (fun n hn => ⟨.inl hn, .inl hn⟩) fun n ho => ⟨.inr ⟨_, List.mem_of_getElem? hr, ho⟩, .inr ⟨i, _, Nat.le_refl _, hr, ho⟩⟩

/-! ### References -/

theorem sound_deref {before' : XName → Prop} {x y : Element} (hx : SoundAt env known before x) (hy : SoundAt env known before' y) (hd : Declaration x) (hp : PlainAttrs x)
    (hn : y.name = x.name) (hc : y.children = []) (ht : attrNamed x b!"type" ≠ []) : SoundAt env known before (deref x y) := by
  have hsc : (deref x y).scope = x.scope := by
    show (if y.children.length > 0 then _ else _) = _
    rw [hc]
    rfl
  have hnm : (deref x y).name = x.name := hn
  have honly : ∀ l, IsXs l (deref x y) → l = b!"element" ∨ l = b!"attribute" := by
    intro l h
    rw [isXs_name hnm] at h
    unfold IsXs at h
    rcases hd with hd | hd
    · unfold IsXs at hd
      rw [hd] at h
      exact .inl (congrArg XName.loc h).symm
    · unfold IsXs at hd
      rw [hd] at h
      exact .inr (congrArg XName.loc h).symm
  have hno : ∀ l, l ≠ b!"element" → l ≠ b!"attribute" → ¬ IsXs l (deref x y) := fun l h1 h2 h3 => (honly l h3).elim h1 h2
  have hty := attr_deref_set (y := y) hp ht (by decide)
  have hdy : Declaration y := (declaration_name hn).mpr hd
  have hbase : attrNamed (deref x y) b!"base" = [] := by
    rcases attr_deref_either (y := y) (loc := b!"base") hp (by decide) (by decide) with h | h
    · rw [h]; exact (hx.bare hd).1
    · rw [h]; exact (hy.bare hdy).1
  have hitem : attrNamed (deref x y) b!"itemType" = [] := by
    rcases attr_deref_either (y := y) (loc := b!"itemType") hp (by decide) (by decide) with h | h
    · rw [h]; exact (hx.bare hd).2
    · rw [h]; exact (hy.bare hdy).2
  refine ⟨?_, ?_, ?_, ?_, ?_, ?_, ?_, ?_, ?_, ?_, ?_, ?_, ?_, ?_, fun _ => ⟨hbase, hitem⟩⟩
  · intro l h
    rcases attr_deref_either (y := y) (loc := l) hp (by rintro rfl; revert h; decide) (by rintro rfl; revert h; decide) with e | e
    · rw [e]; exact hx.flags l h
    · rw [e]; exact hy.flags l h
  · intro l h
    rcases attr_deref_either (y := y) (loc := l) hp (by rintro rfl; revert h; decide) (by rintro rfl; revert h; decide) with e | e
    · rw [e]; exact hx.counts l h
    · rw [e]; exact hy.counts l h
  · intro l h hl
    refine absurd hl (hno l ?_ ?_) <;> (rintro rfl; revert h; decide)
  · intro h
    exact absurd h (hno _ (by decide) (by decide))
  · intro h
    exact absurd h (hno _ (by decide) (by decide))
  · intro h
    exact absurd h (hno _ (by decide) (by decide))
  · rintro (h | h) <;> exact absurd h (hno _ (by decide) (by decide))
  · intro _ _
    unfold refersTo
    rw [hsc, hty]
    exact hx.type (hd.imp id .inl) ht
  · intro h
    exact absurd hbase h
  · rintro (h | h) <;> exact absurd h (hno _ (by decide) (by decide))
  · intro h
    exact absurd hitem h
  · intro h
    exact absurd h (hno _ (by decide) (by decide))
  · rw [hsc]
    exact hx.prefixes
  · intro h
    exact absurd h (hno _ (by decide) (by decide))

theorem not_limit {k : Element} (h : Declaration k) : ¬ Limit k := by
  rintro ⟨l, h1, h2⟩
  unfold IsXs at h2
  rcases h with h | h <;> (unfold IsXs at h; rw [h] at h2; have := (congrArg XName.loc h2).symm; simp only at this; subst this; revert h1; decide)

theorem spoken_relinked {T : Element → Element → Prop} {tns : Str} (hT : Leafy T) (hY : ∀ {x y}, T x y → IsRef x → ∃ before', SoundAt env known before' y) (x : Element) :
    Every (fun x => Before x ∧ Spoken env known before tns x) x → ∀ {x'}, Relinked T x x' → Every (Spoken env known before tns) x' := by
  induction x using Element.ind with
  | hP n a s c ks ih =>
    intro hE x' h
    obtain ⟨⟨hq, hc1, hc2, hs⟩, hks⟩ := every_iff.mp hE
    have hn := relinked_name hT h
    rcases relinked_iff.mp h with ⟨h1, h2, h3, h4, h5, h6⟩ | ⟨h1, y, h2, rfl⟩
    · simp only [Element.children] at h6
      have hat : ∀ l, attrNamed x' l = attrNamed (.mk n a s c ks) l := fun l => attrNamed_attrs h3 l
      have hanon : HasAnon (.mk n a s c ks) → HasAnon x' := fun hh => absurd hh hq.1.named
      refine every_iff.mpr ⟨⟨by rw [h4]; exact hc1, by rw [h4]; exact hc2, ?_⟩, ?_⟩
      · refine sound_change_kids hs hn h4 (fun l _ => hat l) (.inl (hat _)) (fun hh => by rw [hat]; exact hs.plain hh) (.inl (hat _)) (.inl (hat _)) (.inl (hat _))
          (fun hu ws hw => by rw [hat] at hw; exact hs.members hu ws hw) (fun _ he => ⟨by rw [← hat]; exact he, hanon⟩) (fun _ he => ⟨by rw [← hat]; exact he, hanon⟩) ?_
        intro k' hk'
        obtain ⟨k, g1, g2⟩ := forall2_back h6 k' hk'
        refine ⟨k, g1, relinked_name hT g2, fun hl => ?_⟩
        rcases relinked_iff.mp g2 with ⟨_, _, e, _⟩ | ⟨e, _⟩
        · exact attrNamed_attrs e _
        · exact absurd hl (not_limit ((every_iff.mp (hks k g1)).1.1.2 e).1)
      · intro k' hk'
        obtain ⟨k, g1, g2⟩ := forall2_back h6 k' hk'
        exact ih k g1 (hks k g1) g2
    · obtain ⟨t1, t2, t3⟩ := hT h2 h1
      obtain ⟨b1, b2⟩ := hq.2 h1
      obtain ⟨B', hy⟩ := hY h2 h1
      have hsc : (deref (.mk n a s c ks) y).scope = s := by
        show (if y.children.length > 0 then _ else _) = _
        rw [t3]
        rfl
      have hk : (deref (.mk n a s c ks) y).children = [] := t3
      refine every_iff.mpr ⟨⟨by rw [hsc]; exact hc1, by rw [hsc]; exact hc2, sound_deref hs hy b1 b2 t1 t3 (hq.1.typed b1.symm)⟩, ?_⟩
      intro k g1
      rw [hk] at g1; cases g1

theorem stage_relinked {T : Element → Element → Prop} {tns : Str} {t t' : Element} (hT : Leafy T) (hY : ∀ {x y}, T x y → IsRef x → ∃ before', SoundAt env known before' y)
    (hb : ∀ x ∈ below t, Before x) (htop : ∀ k ∈ t.children, ¬ IsRef k) (h : Stage env known before tns t) (hr : DocRelinked T t t') : Stage env known before tns t' := by
  have hE := every_below.mp fun x hx => (⟨hb x hx, h.each x hx⟩ : Before x ∧ Spoken env known before tns x)
  have hat : ∀ l, attrNamed t' l = attrNamed t l := fun l => attrNamed_attrs hr.attrs l
  have hkid : ∀ k' ∈ t'.children, ∃ k ∈ t.children, k'.name = k.name ∧ k'.attrs = k.attrs ∧ k'.scope = k.scope := by
    intro k' hk'
    obtain ⟨k, g1, g2⟩ := forall2_back hr.kids k' hk'
    refine ⟨k, g1, ?_⟩
    rcases relinked_iff.mp g2 with ⟨_, e1, e2, e3, _⟩ | ⟨e, _⟩
    · exact ⟨e1, e2, e3⟩
    · exact absurd e (htop k g1)
  refine ⟨by rw [hat]; exact h.space, fun b hb => by rw [hat]; exact h.flags b hb, by rw [hr.scope]; exact h.clear, ?_, ?_, ?_⟩
  · intro k' hk'
    obtain ⟨g1, g2⟩ := mem_typesOf.mp hk'
    obtain ⟨k, e1, e2, e3, _⟩ := hkid k' g1
    rw [attrNamed_attrs e3]
    rw [isXs_name e2, isXs_name e2] at g2
    exact h.named k (mem_typesOf.mpr ⟨e1, g2⟩)
  · intro k' hk' hel hty
    obtain ⟨k, e1, e2, e3, e4⟩ := hkid k' hk'
    unfold refersTo
    rw [e4, attrNamed_attrs e3]
    rw [attrNamed_attrs e3] at hty
    exact h.top k e1 ((isXs_name e2).mp hel) hty
  · refine (every_below (Q := Spoken env known before tns)).mpr ?_
    intro k' hk'
    obtain ⟨k, g1, g2⟩ := forall2_back hr.kids k' hk'
    exact spoken_relinked hT hY k (hE k g1) g2

/-! ### What is accepted -/

theorem ripe_stages {S out : List Element} (hS : SoundSet env S) (hsv : List.Forall₂ Survives S out)
    (hst : ∀ (i : Nat) r s, out[i]? = some r → S[i]? = some s → Stage env (Somewhere out) (Earlier out i) (attrNamed s b!"targetNamespace") r)
    (hc : ∀ t ∈ out, Canonical t) : RipeSet env out := by
  have hget : ∀ (i : Nat) s r, S[i]? = some s → out[i]? = some r → Survives s r := fun i s r h1 h2 => forall2_at hsv i h1 h2
  have hidx : ∀ (i : Nat) r, out[i]? = some r → ∃ s, S[i]? = some s := fun i r h => forall2_here hsv i h
  have hall : ∀ r ∈ out, ∃ (i : Nat) (s : Element), (out)[i]? = some r ∧ S[i]? = some s ∧ target r = target s ∧
      Stage env (Somewhere out) (Earlier (out) i) (attrNamed s b!"targetNamespace") r ∧ SoundSchema env (fun n => BuiltIn n ∨ ∃ s ∈ S, Offers s n)
        (fun n => BuiltIn n ∨ ∃ (j : Nat) (s : Element), j ≤ i ∧ S[j]? = some s ∧ Offers s n) s := by
    intro r hr
    obtain ⟨i, hi⟩ := List.getElem?_of_mem hr
    obtain ⟨s, hs⟩ := hidx i r hi
    exact ⟨i, s, hi, hs, (hget i s r hs hi).tns, hst i r s hi hs, hS.each i s hs⟩
  have hmap : (out).map target = S.map target := by
    clear * - hsv
    induction hsv with
    | nil => rfl
    | cons h _ ih => rw [List.map_cons, List.map_cons, ih]; exact congrArg (· :: _) h.tns
  have hapart : ((out).map target).Nodup := by rw [hmap]; exact hS.apart
  have htns : ∀ r ∈ out, target r ≠ [] := by
    intro r hr
    obtain ⟨i, s, h1, h2, h3, h4, h5⟩ := hall r hr
    rw [h3]
    exact (h5.clear s (by simp)).1.ns.1
  have hoff : ∀ r ∈ out, ∀ n, Offers r n → KnownIn (out) n := by
    intro r hr n ho
    obtain ⟨i, s, h1, h2, h3, h4, h5⟩ := hall r hr
    refine offers_known hr (htns r hr) (fun k hk => ?_) ho
    obtain ⟨g1, g2⟩ := mem_typesOf.mp hk
    exact (h4.each k (child_below g1)).2.2.plain g2
  refine ⟨hapart, ?_, htns, ?_, ?_, ?_⟩
  · intro i j r r' hij hr hr' n hnt hht
    obtain ⟨s, hs⟩ := hidx i r hr
    obtain ⟨s', hs'⟩ := hidx j r' hr'
    obtain ⟨e1, e2⟩ := names_target (hc r' (List.mem_of_getElem? hr')) (hst j r' s' hr' hs') (htns r' (List.mem_of_getElem? hr')) hht
    rcases names_before (fun n hn => ⟨.inl hn, .inl hn⟩) (hst i r s hr hs) hnt e2 with hb | ⟨j', r'', hj, hr'', k, hk, rfl⟩
    · exact (hS.each j s' hs').own n hb (e1.trans (hget j s' r' hs' hr').tns)
    · have hr1 : r'' = r' := nodup_target hapart (List.mem_of_getElem? hr'') (List.mem_of_getElem? hr') e1
      obtain ⟨q1, q2⟩ := List.getElem?_eq_some_iff.mp hr''
      obtain ⟨q3, q4⟩ := List.getElem?_eq_some_iff.mp hr'
      have hnd := List.Nodup.of_map _ hapart
      have := (List.Nodup.getElem_inj_iff hnd).mp (q2.trans (hr1.trans q4.symm))
      omega
  · intro r hr
    obtain ⟨i, s, h1, h2, h3, h4, h5⟩ := hall r hr
    exact h4.flags
  · intro r hr
    obtain ⟨i, s, h1, h2, h3, h4, h5⟩ := hall r hr
    exact h4.clear
  · intro r hr x hx
    obtain ⟨i, s, h1, h2, h3, h4, h5⟩ := hall r hr
    have hcr := hc r hr
    refine ⟨(h4.each x hx).2.2.mono ?_ ?_, ?_, hcr.full x hx, hcr.typed x hx⟩
    · rintro n (h | ⟨r', hr', ho⟩)
      · exact .inl h
      · exact hoff r' hr' n ho
    · rintro n (h | ⟨j, r', _, hr', ho⟩)
      · exact .inl h
      · exact hoff r' (List.mem_of_getElem? hr') n ho
    · rintro ⟨k, hk, ha⟩
      exact absurd ((Wsdl.attr_eq k _).symm.trans ha.2) (hcr.named x hx k hk ha.1)

theorem ripe_relinked {S docs' out : List Element} (hN : ∀ t ∈ S, Neat t) (hS : SoundSet env S) (L : Linked S) (hf : List.Forall₂ FirstLoop S docs')
    (hT : Tied (finished docs' 0)) (hr : List.Forall₂ (DocRelinked (Target (finished docs' 0))) (finished docs' 0) out)
    (hset : ∀ t ∈ finished docs' 0, ∀ x ∈ below t, Settled x) (hc : ∀ t ∈ out, Canonical t) : RipeSet env out := by
  have hsv := survives_finished hf hN 0
  have htop := top_finished L hf hN
  have hst := stages_finished hN hS hf
  have hre : List.Forall₂ Survives (finished docs' 0) out := by
    clear * - hr htop
    generalize hT : Target (finished docs' 0) = T at hr
    clear hT
    generalize finished docs' 0 = F at hr htop
    induction hr with
    | nil => exact .nil
    | cons g1 _ ih => exact .cons (survives_relinked (htop _ (by simp)) g1) (ih fun t ht => htop t (by simp [ht]))
  refine ripe_stages hS (survives_all hsv hr htop) ?_ hc
  intro i r s h1 h2
  obtain ⟨u, hu⟩ := forall2_here hr i h1
  have hum := List.mem_of_getElem? hu
  refine (stage_relinked (target_leafy hT) ?_ (fun x hx => ⟨hset u hum x hx, hT.decl u hum x hx⟩) (htop u hum) (hst i u s hu h2) (forall2_at hr i hu h1)).mono
    (fun n hn => somewhere_survives hre hn) fun n hn => earlier_survives hre hn
  rintro x y ⟨_, v, hv, hy, _⟩ _
  obtain ⟨j, hj⟩ := List.getElem?_of_mem hv
  obtain ⟨s', hs'⟩ := forall2_here hsv j hj
  exact ⟨_, ((hst j v s' hj hs').each y hy).2.2⟩

/-- Parse accepts sound schemas. -/
theorem accept_docs (grow : Nat → Nat → Nat) (n : Nat) (ord : MapOrder) (docs : List Element) (hdoc : ReadsNotes env) (hn : ∀ t ∈ docs, depth t ≤ n)
    (hap : ∀ t ∈ docs, SchemasApart t) (hd : ∀ t ∈ docs.flatMap schemasIn, Neat t ∧ 3 * depth t ≤ n) (hl : Linked (docs.flatMap schemasIn))
    (hs : SoundSet env (docs.flatMap schemasIn)) : ∃ q, parse grow n env ord docs = .ok q := by
  obtain ⟨docs', out, h1, h2, h3, h4, h5, h6⟩ := normalize_linked grow n docs hn hap hd hl
  exact accept_roots hdoc (ripe_relinked (fun t ht => (hd t ht).1) hs hl h1 h3 h4 h6 fun t ht => (h5 t ht).1) h2

end GoXml.Xsd
