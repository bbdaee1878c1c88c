import Verif.Proofs.XmlTree

/-! Properties C01-C07: attributes and namespace scopes. -/

namespace GoXml

/-! ### C01 -/

/-- C01. `Attr` returns the value of the first addressed attribute, or the empty string if there
is none. -/
theorem C01_attr_first_match (el : Element) (space loc : Str) :
    (∃ before a after, el.attrs = before ++ a :: after ∧ Addressed space loc a ∧
        (∀ x ∈ before, ¬ Addressed space loc x) ∧ el.attr space loc = a.value) ∨
    ((∀ x ∈ el.attrs, ¬ Addressed space loc x) ∧ el.attr space loc = []) := by
  unfold Element.attr
  generalize el.attrs = as
  induction as with
  | nil => right; simp [attrGet]
  | cons v vs ih =>
    by_cases hA : Addressed space loc v
    · left
      refine ⟨[], v, vs, rfl, hA, by simp, ?_⟩
      obtain ⟨h1, h2⟩ := hA
      rw [attrGet, if_neg (by simp [h1]), if_pos (h2.imp id Eq.symm)]
    · have hstep : attrGet space loc (v :: vs) = attrGet space loc vs := by
        rw [attrGet]
        split
        · rfl
        · rename_i hl
          rw [if_neg]
          intro h; exact hA ⟨by simpa using hl, h.imp id Eq.symm⟩
      rw [hstep]
      rcases ih with ⟨b, a, c, e, h1, h2, h3⟩ | ⟨h1, h2⟩
      · left
        refine ⟨v :: b, a, c, by rw [e]; rfl, h1, ?_, h3⟩
        intro x hx
        rcases List.mem_cons.mp hx with rfl | hx
        · exact hA
        · exact h2 x hx
      · right
        refine ⟨?_, h2⟩
        intro x hx
        rcases List.mem_cons.mp hx with rfl | hx
        · exact hA
        · exact h1 x hx

/-- Two attributes with the same local name: the namespace selects the second, the empty
namespace the first. -/
example :
    let el := Element.mk ⟨[], b!"e"⟩ [⟨⟨b!"u", b!"id"⟩, b!"1"⟩, ⟨⟨b!"v", b!"id"⟩, b!"2"⟩] [] [] []
    el.attr b!"v" b!"id" = b!"2" ∧ el.attr [] b!"id" = b!"1" ∧ el.attr b!"w" b!"id" = [] := by
  decide +kernel

/-! ### C02 -/

/-- C02, effect. If some attribute is addressed, `SetAttr` changes the value of the first such
attribute and nothing else; otherwise it appends one attribute. Name, scope, content and children
are never touched. -/
theorem C02_setAttr_effect (el : Element) (space loc value : Str) :
    (el.setAttr space loc value).name = el.name ∧
    (el.setAttr space loc value).scope = el.scope ∧
    (el.setAttr space loc value).content = el.content ∧
    (el.setAttr space loc value).children = el.children ∧
    ((∃ before a after, el.attrs = before ++ a :: after ∧ Addressed space loc a ∧
        (∀ x ∈ before, ¬ Addressed space loc x) ∧
        (el.setAttr space loc value).attrs = before ++ ⟨a.name, value⟩ :: after) ∨
     ((∀ x ∈ el.attrs, ¬ Addressed space loc x) ∧
        (el.setAttr space loc value).attrs = el.attrs ++ [⟨⟨space, loc⟩, value⟩])) := by
  refine ⟨rfl, rfl, rfl, rfl, ?_⟩
  show (∃ before a after, el.attrs = before ++ a :: after ∧ _ ∧ _ ∧
      attrSet space loc value el.attrs = _) ∨ (_ ∧ attrSet space loc value el.attrs = _)
  generalize el.attrs = as
  induction as with
  | nil => right; simp [attrSet]
  | cons v vs ih =>
    by_cases hA : Addressed space loc v
    · left
      refine ⟨[], v, vs, rfl, hA, by simp, ?_⟩
      obtain ⟨h1, h2⟩ := hA
      rw [attrSet, if_neg (by simp [h1]), if_pos h2]; rfl
    · have hstep : attrSet space loc value (v :: vs) = v :: attrSet space loc value vs := by
        rw [attrSet]
        split
        · rfl
        · rename_i hl
          rw [if_neg]
          intro h; exact hA ⟨by simpa using hl, h⟩
      rw [hstep]
      rcases ih with ⟨b, a, c, e, h1, h2, h3⟩ | ⟨h1, h2⟩
      · left
        refine ⟨v :: b, a, c, by rw [e]; rfl, h1, ?_, by rw [h3]; rfl⟩
        intro x hx
        rcases List.mem_cons.mp hx with rfl | hx
        · exact hA
        · exact h2 x hx
      · right
        refine ⟨?_, by rw [h2]; rfl⟩
        intro x hx
        rcases List.mem_cons.mp hx with rfl | hx
        · exact hA
        · exact h1 x hx

/-- C02, read after write. -/
theorem C02_attr_setAttr (el : Element) (space loc value : Str) :
    (el.setAttr space loc value).attr space loc = value := by
  have aux : ∀ as, attrGet space loc (attrSet space loc value as) = value := by
    intro as
    induction as with
    | nil => simp [attrSet, attrGet]
    | cons a as ih =>
      rw [attrSet]
      split
      · rename_i h; rw [attrGet, if_pos h, ih]
      · rename_i h
        split
        · rename_i h2
          rw [attrGet]
          simp only [ne_eq] at h ⊢
          rw [if_neg h, if_pos (h2.imp id Eq.symm)]
        · rename_i h2
          rw [attrGet, if_neg h, if_neg (fun h3 => h2 (h3.imp id Eq.symm)), ih]
  exact aux el.attrs

/-- C02, frame: a lookup under another local name, or under a different non-empty namespace when
the write names its namespace, is unaffected. -/
theorem C02_attr_setAttr_other (el : Element) (space loc value space' loc' : Str)
    (h : loc' ≠ loc ∨ (space ≠ [] ∧ space' ≠ [] ∧ space' ≠ space)) :
    (el.setAttr space loc value).attr space' loc' = el.attr space' loc' := by
  have aux : ∀ as, attrGet space' loc' (attrSet space loc value as) = attrGet space' loc' as := by
    intro as
    induction as with
    | nil =>
      simp only [attrSet, attrGet]
      rcases h with h | ⟨h1, h2, h3⟩
      · rw [if_pos (by simpa using Ne.symm h)]
      · simp [h2, h3]
    | cons a as ih =>
      rw [attrSet]
      split
      · rw [attrGet, attrGet, ih]
      · rename_i hl
        split
        · rename_i hs
          rw [attrGet, attrGet]
          rcases h with h | ⟨h1, h2, h3⟩
          · have : a.name.loc ≠ loc' := by
              simp only [ne_eq, Decidable.not_not] at hl
              rw [hl]; exact Ne.symm h
            simp [this]
          · have hsp : a.name.space = space := by
              rcases hs with hs | hs
              · exact absurd hs h1
              · exact hs
            simp [h2, h3, hsp]
        · rw [attrGet, attrGet, ih]
  exact aux el.attrs

/-- C02, idempotence. -/
theorem C02_setAttr_idem (el : Element) (space loc value : Str) :
    (el.setAttr space loc value).setAttr space loc value = el.setAttr space loc value := by
  have aux : ∀ as, attrSet space loc value (attrSet space loc value as) = attrSet space loc value as := by
    intro as
    induction as with
    | nil => simp [attrSet]
    | cons a as ih =>
      rw [attrSet]
      split
      · rename_i h; rw [attrSet, if_pos h, ih]
      · rename_i h
        split
        · rename_i h2
          rw [attrSet]
          simp only [ne_eq] at h ⊢
          rw [if_neg h, if_pos h2]
        · rename_i h2; rw [attrSet, if_neg h, if_neg h2, ih]
  cases el with
  | mk n a s c cs => simp only [Element.setAttr, Element.attrs, aux, Element.name, Element.scope, Element.content, Element.children]

example :
    let el := Element.mk ⟨[], b!"e"⟩ [⟨⟨b!"u", b!"id"⟩, b!"1"⟩, ⟨⟨[], b!"x"⟩, b!"2"⟩] [] [] []
    (el.setAttr [] b!"id" b!"9").attrs = [⟨⟨b!"u", b!"id"⟩, b!"9"⟩, ⟨⟨[], b!"x"⟩, b!"2"⟩] ∧
    (el.setAttr b!"w" b!"id" b!"9").attrs =
      [⟨⟨b!"u", b!"id"⟩, b!"1"⟩, ⟨⟨[], b!"x"⟩, b!"2"⟩, ⟨⟨b!"w", b!"id"⟩, b!"9"⟩] := by
  decide +kernel

/-! ### C03 -/

/-- Every string has exactly one split into prefix and local part. -/
theorem C03_qname_split_unique (q : Str) : ∃ p l, QNameParts q p l ∧
    ∀ p' l', QNameParts q p' l' → p' = p ∧ l' = l := by
  refine ⟨_, _, splitQName_spec q, ?_⟩
  intro p' l' h
  have := splitQName_eq h
  rw [this]; exact ⟨rfl, rfl⟩

/-- C03. What `ResolveNS` and `Resolve` return for a QName with prefix `p` and local part `l`. -/
theorem C03_resolveNS (sc : Scope) (q p l : Str) (hq : QNameParts q p l) :
    (p = b!"xml" → resolveNS sc q = (⟨b!"http://www.w3.org/XML/1998/namespace", l⟩, true)) ∧
    (p = b!"xmlns" → resolveNS sc q = (⟨b!"http://www.w3.org/2000/xmlns/", l⟩, true)) ∧
    (p ≠ b!"xml" → p ≠ b!"xmlns" → ∀ ns, Innermost sc p ns → resolveNS sc q = (⟨ns, l⟩, true)) ∧
    (p ≠ b!"xml" → p ≠ b!"xmlns" → ¬ Declared sc p → resolveNS sc q = (⟨p, l⟩, false)) ∧
    resolve sc q = (resolveNS sc q).1 := by
  have hs := splitQName_eq hq
  refine ⟨?_, ?_, ?_, ?_, rfl⟩
  · rintro rfl; simp [resolveNS, hs, xmlLangURI]
  · rintro rfl; simp [resolveNS, hs, xmlNamespaceURI]
  · intro h1 h2 ns hi
    simp only [resolveNS, hs, if_neg h1, if_neg h2, (resolveLoop_iff (loc := l)).1 ns hi]
  · intro h1 h2 hd
    simp only [resolveNS, hs, if_neg h1, if_neg h2, (resolveLoop_iff (loc := l)).2 hd]

/-- C03, the boolean: false exactly when the prefix is neither reserved nor declared. -/
theorem C03_resolveNS_false_iff (sc : Scope) (q p l : Str) (hq : QNameParts q p l) :
    (resolveNS sc q).2 = false ↔ p ≠ b!"xml" ∧ p ≠ b!"xmlns" ∧ ¬ Declared sc p := by
  obtain ⟨h1, h2, h3, h4, _⟩ := C03_resolveNS sc q p l hq
  constructor
  · intro h
    have n1 : p ≠ b!"xml" := fun e => by rw [h1 e] at h; cases h
    have n2 : p ≠ b!"xmlns" := fun e => by rw [h2 e] at h; cases h
    refine ⟨n1, n2, fun hd => ?_⟩
    obtain ⟨ns, hi⟩ := innermost_exists hd
    rw [h3 n1 n2 ns hi] at h; cases h
  · rintro ⟨n1, n2, hd⟩; rw [h4 n1 n2 hd]

/-- A redeclared prefix resolves to the inner namespace; the rest after a second colon belongs to
the local part. -/
example : QNameParts b!"a:b:c" b!"a" b!"b:c" ∧
    Innermost [⟨b!"u", b!"a"⟩, ⟨b!"v", b!"a"⟩, ⟨b!"d", []⟩] b!"a" b!"v" ∧
    resolveNS [⟨b!"u", b!"a"⟩, ⟨b!"v", b!"a"⟩, ⟨b!"d", []⟩] b!"a:b:c" = (⟨b!"v", b!"b:c"⟩, true) := by
  refine ⟨Or.inl (by decide), ⟨[_], [_], rfl, by decide⟩, by decide +kernel⟩

/-! ### C04 -/

/-- C04. Resolution in a joined scope: inner declarations first, then the outer scope's. -/
theorem C04_joinScope_resolve (outer inner : Scope) (q p l : Str) (hq : QNameParts q p l) :
    (p = b!"xml" ∨ p = b!"xmlns" ∨ Declared inner p →
      resolveNS (joinScope outer inner) q = resolveNS inner q) ∧
    (¬ Declared inner p → resolveNS (joinScope outer inner) q = resolveNS outer q) ∧
    ((resolveNS (joinScope outer inner) q).2 = ((resolveNS outer q).2 || (resolveNS inner q).2)) := by
  have key1 : p = b!"xml" ∨ p = b!"xmlns" ∨ Declared inner p →
      resolveNS (joinScope outer inner) q = resolveNS inner q := by
    intro h
    obtain ⟨a1, a2, a3, _, _⟩ := C03_resolveNS (joinScope outer inner) q p l hq
    obtain ⟨b1, b2, b3, _, _⟩ := C03_resolveNS inner q p l hq
    rcases h with h | h | h
    · rw [a1 h, b1 h]
    · rw [a2 h, b2 h]
    · by_cases h1 : p = b!"xml"
      · rw [a1 h1, b1 h1]
      · by_cases h2 : p = b!"xmlns"
        · rw [a2 h2, b2 h2]
        · obtain ⟨ns, hi⟩ := innermost_exists h
          rw [b3 h1 h2 ns hi]
          obtain ⟨o, i, e, hn⟩ := hi
          exact a3 h1 h2 ns ⟨outer ++ o, i, by rw [joinScope, e]; simp, hn⟩
  have key2 : ¬ Declared inner p → resolveNS (joinScope outer inner) q = resolveNS outer q := by
    intro h
    obtain ⟨a1, a2, a3, a4, _⟩ := C03_resolveNS (joinScope outer inner) q p l hq
    obtain ⟨b1, b2, b3, b4, _⟩ := C03_resolveNS outer q p l hq
    by_cases h1 : p = b!"xml"
    · rw [a1 h1, b1 h1]
    · by_cases h2 : p = b!"xmlns"
      · rw [a2 h2, b2 h2]
      · by_cases hd : Declared outer p
        · obtain ⟨ns, hi⟩ := innermost_exists hd
          rw [b3 h1 h2 ns hi]
          obtain ⟨o, i, e, hn⟩ := hi
          refine a3 h1 h2 ns ⟨o, i ++ inner, by rw [joinScope, e]; simp, ?_⟩
          intro d hdm
          rcases List.mem_append.mp hdm with hdm | hdm
          · exact hn d hdm
          · exact fun hl => h ⟨d, hdm, hl⟩
        · rw [b4 h1 h2 hd]
          apply a4 h1 h2
          rintro ⟨d, hdm, hl⟩
          rcases List.mem_append.mp hdm with hdm | hdm
          · exact hd ⟨d, hdm, hl⟩
          · exact h ⟨d, hdm, hl⟩
  refine ⟨key1, key2, ?_⟩
  by_cases hd : Declared inner p
  · have hin : (resolveNS inner q).2 = true := by
      cases hb : (resolveNS inner q).2 with
      | true => rfl
      | false => exact absurd hd ((C03_resolveNS_false_iff inner q p l hq).mp hb).2.2
    rw [key1 (Or.inr (Or.inr hd)), hin]; simp
  · rw [key2 hd]
    cases hb : (resolveNS inner q).2 with
    | false => simp
    | true =>
      have : ¬ ((resolveNS inner q).2 = false) := by rw [hb]; simp
      rw [C03_resolveNS_false_iff inner q p l hq] at this
      cases ho : (resolveNS outer q).2 with
      | true => rfl
      | false =>
        obtain ⟨x1, x2, _⟩ := (C03_resolveNS_false_iff outer q p l hq).mp ho
        exact absurd ⟨x1, x2, hd⟩ this

/-- C04, chains: joining is associative as far as resolution can see. -/
theorem C04_joinScope_assoc (a b c : Scope) (q : Str) :
    resolveNS (joinScope (joinScope a b) c) q = resolveNS (joinScope a (joinScope b c)) q := by
  simp [joinScope, List.append_assoc]

example : resolveNS (joinScope [⟨b!"u", b!"a"⟩, ⟨b!"w", b!"b"⟩] [⟨b!"v", b!"a"⟩]) b!"a:x" = (⟨b!"v", b!"x"⟩, true) ∧
    resolveNS (joinScope [⟨b!"u", b!"a"⟩, ⟨b!"w", b!"b"⟩] [⟨b!"v", b!"a"⟩]) b!"b:x" = (⟨b!"w", b!"x"⟩, true) := by
  decide +kernel

/-! ### C05 -/

/-- C05. `ResolveDefault`. -/
theorem C05_resolveDefault (sc : Scope) (q ns : Str) :
    ((58 : UInt8) ∉ q → ns ≠ [] → resolveDefault sc q ns = ⟨ns, q⟩) ∧
    ((58 : UInt8) ∈ q ∨ ns = [] → resolveDefault sc q ns = resolve sc q) := by
  constructor
  · intro h1 h2
    rw [resolveDefault, if_neg]; simp only [colon]; simp [h1, h2]
  · intro h
    rw [resolveDefault, if_pos]; simp only [colon]; exact h.symm

example : resolveDefault [⟨b!"d", []⟩, ⟨b!"u", b!"a"⟩] b!"x" b!"ns" = ⟨b!"ns", b!"x"⟩ ∧
    resolveDefault [⟨b!"d", []⟩, ⟨b!"u", b!"a"⟩] b!"a:x" b!"ns" = ⟨b!"u", b!"x"⟩ ∧
    resolveDefault [⟨b!"d", []⟩] b!"x" [] = ⟨b!"d", b!"x"⟩ := by decide +kernel

/-! ### C06 -/

/-- C06 is false: with `xmlns:a="u"` outside and `xmlns:a="v"` inside, the namespace `u` is
declared, but the name it is written with resolves to `v`. -/
theorem C06_prefix_inverse_refuted :
    ¬ ∀ (sc : Scope) (name : XName), (∃ d ∈ sc, d.space = name.space) →
        resolve sc (prefixOf sc name) = name := by
  intro h
  have := h [⟨b!"u", b!"a"⟩, ⟨b!"v", b!"a"⟩] ⟨b!"u", b!"x"⟩ ⟨⟨b!"u", b!"a"⟩, by simp, rfl⟩
  revert this; decide +kernel

/-- A second counterexample, with a shadowed default namespace. -/
theorem C06_prefix_inverse_refuted_default :
    resolve [⟨b!"u", []⟩, ⟨b!"v", []⟩, ⟨b!"u", b!"a"⟩]
      (prefixOf [⟨b!"u", []⟩, ⟨b!"v", []⟩, ⟨b!"u", b!"a"⟩] ⟨b!"u", b!"x"⟩) = ⟨b!"v", b!"x"⟩ := by
  decide +kernel

/-- The prefix that is favoured for a namespace: the default namespace if it was ever declared as
such, else the innermost prefix declared for it. -/
def Favoured (sc : Scope) (ns p : Str) : Prop :=
  (p = [] ∧ ⟨ns, []⟩ ∈ sc) ∨
  (⟨ns, []⟩ ∉ sc ∧ ∃ outer inner, sc = outer ++ ⟨ns, p⟩ :: inner ∧ ∀ d ∈ inner, d.space ≠ ns)

theorem favoured_exists {sc : Scope} {ns : Str} (h : ∃ d ∈ sc, d.space = ns) : ∃ p, Favoured sc ns p := by
  by_cases hd : (⟨ns, []⟩ : XName) ∈ sc
  · exact ⟨[], Or.inl ⟨rfl, hd⟩⟩
  · suffices H : ∀ sc : Scope, (∃ d ∈ sc, d.space = ns) →
        ∃ p outer inner, sc = outer ++ ⟨ns, p⟩ :: inner ∧ ∀ d ∈ inner, d.space ≠ ns by
      obtain ⟨p, h'⟩ := H sc h
      exact ⟨p, Or.inr ⟨hd, h'⟩⟩
    intro sc
    induction sc with
    | nil => simp
    | cons d ds ih =>
      intro h
      by_cases hin : ∃ d ∈ ds, d.space = ns
      · obtain ⟨p, o, i, e, hn⟩ := ih hin
        exact ⟨p, d :: o, i, by rw [e]; rfl, hn⟩
      · obtain ⟨x, hx, hs⟩ := h
        rcases List.mem_cons.mp hx with rfl | hx
        · refine ⟨x.loc, [], ds, by subst hs; rfl, ?_⟩
          intro y hy hys; exact hin ⟨y, hy, hys⟩
        · exact absurd ⟨x, hx, hs⟩ hin

/-- What `Prefix` writes for a declared namespace. -/
theorem C06_prefix_favoured (sc : Scope) (ns loc p : Str)
    (hns : ns ≠ [] ∧ ns ≠ xmlLangURI ∧ ns ≠ xmlNamespaceURI) (hloc : loc ≠ [])
    (hp : Favoured sc ns p) :
    prefixOf sc ⟨ns, loc⟩ = if p = [] then loc else p ++ b!":" ++ loc := by
  unfold prefixOf
  simp only [if_neg hns.1, if_neg hns.2.1, if_neg hns.2.2]
  rcases hp with ⟨rfl, hm⟩ | ⟨hm, o, i, e, hn⟩
  · rw [if_pos rfl, prefixLoop_default hloc (by simpa using hm)]
  · have hpne : p ≠ [] := by
      rintro rfl; exact hm (by rw [e]; simp)
    rw [if_neg hpne]
    have : sc.reverse = i.reverse ++ ⟨ns, p⟩ :: o.reverse := by rw [e]; simp
    rw [this, prefixLoop_first hpne (by simpa using hn)]
    intro hmo
    exact hm (by rw [e]; simp at hmo; simp [hmo])

/-- C06, the part that holds: `Resolve(Prefix(name))` is `name` exactly when the favoured prefix
has not been redeclared further in. In particular it holds whenever no prefix is declared twice
(next theorem). Missing for C06: shadowed prefixes and names containing colons, for which it is
false. -/
theorem C06_prefix_inverse_partial (sc : Scope) (ns loc p : Str)
    (hns : ns ≠ [] ∧ ns ≠ xmlLangURI ∧ ns ≠ xmlNamespaceURI)
    (hloc : loc ≠ [] ∧ (58 : UInt8) ∉ loc)
    (hsc : ∀ d ∈ sc, (58 : UInt8) ∉ d.loc ∧ d.loc ≠ b!"xml" ∧ d.loc ≠ b!"xmlns")
    (hp : Favoured sc ns p) :
    resolve sc (prefixOf sc ⟨ns, loc⟩) = ⟨ns, loc⟩ ↔ Innermost sc p ns := by
  rw [C06_prefix_favoured sc ns loc p hns hloc.1 hp]
  have hmem : (⟨ns, p⟩ : XName) ∈ sc := by
    rcases hp with ⟨rfl, hm⟩ | ⟨_, o, i, e, _⟩
    · exact hm
    · rw [e]; simp
  obtain ⟨hc, hx, hxn⟩ := hsc _ hmem
  have hq : QNameParts (if p = [] then loc else p ++ b!":" ++ loc) p loc := by
    split
    · rename_i h; right; exact ⟨hloc.2, h, rfl⟩
    · left; exact ⟨rfl, hc⟩
  obtain ⟨_, _, h3, _, h5⟩ := C03_resolveNS sc _ p loc hq
  rw [h5]
  obtain ⟨ns', hi⟩ := innermost_exists (sc := sc) (p := p) ⟨_, hmem, rfl⟩
  rw [h3 hx hxn ns' hi]
  constructor
  · intro h
    have : ns' = ns := by simpa using h
    exact this ▸ hi
  · intro h
    have := innermost_unique hi h
    rw [this]

/-- C06 for scopes without redeclared prefixes, which includes the scope of every element of a
document that never redeclares a prefix. -/
theorem C06_prefix_inverse_unique_partial (sc : Scope) (ns loc : Str)
    (hns : ns ≠ [] ∧ ns ≠ xmlLangURI ∧ ns ≠ xmlNamespaceURI)
    (hloc : loc ≠ [] ∧ (58 : UInt8) ∉ loc)
    (hsc : ∀ d ∈ sc, (58 : UInt8) ∉ d.loc ∧ d.loc ≠ b!"xml" ∧ d.loc ≠ b!"xmlns")
    (huniq : (sc.map (·.loc)).Nodup) (hdecl : ∃ d ∈ sc, d.space = ns) :
    resolve sc (prefixOf sc ⟨ns, loc⟩) = ⟨ns, loc⟩ := by
  obtain ⟨p, hp⟩ := favoured_exists hdecl
  rw [C06_prefix_inverse_partial sc ns loc p hns hloc hsc hp]
  have hmem : (⟨ns, p⟩ : XName) ∈ sc := by
    rcases hp with ⟨rfl, hm⟩ | ⟨_, o, i, e, _⟩
    · exact hm
    · rw [e]; simp
  obtain ⟨o, i, e⟩ := List.append_of_mem hmem
  refine ⟨o, i, e, ?_⟩
  intro d hd hl
  rw [e] at huniq
  simp only [List.map_append, List.map_cons] at huniq
  have h2 := (List.nodup_append.mp huniq).2.1
  rw [List.nodup_cons] at h2
  exact h2.1 (List.mem_map.mpr ⟨d, hd, hl⟩)

/-- C06 for the two reserved namespaces, whatever the scope. -/
theorem C06_prefix_inverse_reserved (sc : Scope) (loc : Str) :
    resolve sc (prefixOf sc ⟨xmlLangURI, loc⟩) = ⟨xmlLangURI, loc⟩ ∧
    resolve sc (prefixOf sc ⟨xmlNamespaceURI, loc⟩) = ⟨xmlNamespaceURI, loc⟩ := by
  constructor
  · have hq : QNameParts (b!"xml:" ++ loc) b!"xml" loc := Or.inl ⟨rfl, by decide⟩
    have h := (C03_resolveNS sc _ _ _ hq).1 rfl
    have : prefixOf sc ⟨xmlLangURI, loc⟩ = b!"xml:" ++ loc := by
      simp only [prefixOf]; rw [if_neg (by decide), if_pos trivial]
    rw [this, resolve, h]; rfl
  · have hq : QNameParts (b!"xmlns:" ++ loc) b!"xmlns" loc := Or.inl ⟨rfl, by decide⟩
    have h := (C03_resolveNS sc _ _ _ hq).2.1 rfl
    have : prefixOf sc ⟨xmlNamespaceURI, loc⟩ = b!"xmlns:" ++ loc := by
      simp only [prefixOf]; rw [if_neg (by decide), if_neg (by decide), if_pos trivial]
    rw [this, resolve, h]; rfl

/-- A scope that meets the hypotheses of the partial theorems. -/
example :
    let sc : Scope := [⟨b!"d", []⟩, ⟨b!"u", b!"a"⟩]
    Favoured sc b!"u" b!"a" ∧ Innermost sc b!"a" b!"u" ∧ (sc.map (·.loc)).Nodup ∧
    (∀ d ∈ sc, (58 : UInt8) ∉ d.loc ∧ d.loc ≠ b!"xml" ∧ d.loc ≠ b!"xmlns") ∧
    resolve sc (prefixOf sc ⟨b!"u", b!"x"⟩) = ⟨b!"u", b!"x"⟩ := by
  refine ⟨Or.inr ⟨by decide, [_], [], rfl, by simp⟩, ⟨[_], [], rfl, by simp⟩, by decide, by decide, by decide +kernel⟩

/-! ### C07 -/

/-- C07 is false: for an undeclared namespace `Prefix` returns the empty string. -/
theorem C07_prefix_unknown_refuted :
    ¬ ∀ (sc : Scope) (name : XName), name.space ≠ [] → (∀ d ∈ sc, d.space ≠ name.space) →
        name.space ≠ xmlLangURI → name.space ≠ xmlNamespaceURI → prefixOf sc name = name.loc := by
  intro h
  have := h [] ⟨b!"u", b!"x"⟩ (by decide) (by simp) (by decide) (by decide)
  revert this; decide +kernel

/-- C07, the part that holds: the result is unqualified for names in no namespace and for names in
a namespace declared as default, and for a non-empty local name it is empty exactly when the
namespace is non-empty, not reserved and not declared. Missing for C07: undeclared namespaces, for
which the result is empty. -/
theorem C07_prefix_unknown_partial (sc : Scope) (name : XName) (hloc : name.loc ≠ []) :
    (name.space = [] → prefixOf sc name = name.loc) ∧
    (name.space ≠ xmlLangURI → name.space ≠ xmlNamespaceURI → ⟨name.space, []⟩ ∈ sc →
      prefixOf sc name = name.loc) ∧
    (prefixOf sc name = [] ↔ name.space ≠ [] ∧ name.space ≠ xmlLangURI ∧
      name.space ≠ xmlNamespaceURI ∧ ∀ d ∈ sc, d.space ≠ name.space) := by
  obtain ⟨ns, loc⟩ := name
  simp only at hloc ⊢
  have h0 : ns = [] → prefixOf sc ⟨ns, loc⟩ = loc := by rintro rfl; simp [prefixOf]
  refine ⟨h0, ?_, ?_⟩
  · intro h1 h2 hm
    by_cases hn : ns = []
    · exact h0 hn
    · rw [C06_prefix_favoured sc ns loc [] ⟨hn, h1, h2⟩ hloc (Or.inl ⟨rfl, hm⟩)]; simp
  · constructor
    · intro he
      have n0 : ns ≠ [] := fun h => hloc (by rw [← h0 h, he])
      have n1 : ns ≠ xmlLangURI := fun h => by
        simp only [prefixOf, if_neg n0] at he
        rw [if_pos h] at he; simp at he
      have n2 : ns ≠ xmlNamespaceURI := fun h => by
        simp only [prefixOf, if_neg n0, if_neg n1] at he
        rw [if_pos h] at he; simp at he
      refine ⟨n0, n1, n2, ?_⟩
      intro d hd hs
      obtain ⟨p, hp⟩ := favoured_exists (sc := sc) (ns := ns) ⟨d, hd, hs⟩
      rw [C06_prefix_favoured sc ns loc p ⟨n0, n1, n2⟩ hloc hp] at he
      split at he
      · exact hloc he
      · simp at he
    · rintro ⟨n0, n1, n2, hn⟩
      simp only [prefixOf, if_neg n0, if_neg n1, if_neg n2]
      exact prefixLoop_none (by simpa using hn)

example : prefixOf [⟨b!"d", []⟩] ⟨b!"d", b!"x"⟩ = b!"x" ∧ prefixOf [⟨b!"d", []⟩] ⟨b!"u", b!"x"⟩ = [] := by
  decide +kernel

end GoXml
