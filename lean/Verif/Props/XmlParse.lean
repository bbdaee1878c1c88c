import Verif.Proofs.Parse
import Verif.Proofs.XmlTree
set_option autoImplicit false

/-! Properties C08-C11: what `Parse` builds. -/

namespace GoXml

/-- C08. Within the nesting limit, parsing the tokens of a document gives a tree that mirrors the
document's element structure; nothing after the root's end tag (whether tokens, an error, or bytes)
matters. -/
theorem C08_parse_mirrors (srt : Sorter nsLess) (d : Doc) (trailing : List (Tok × Nat)) (more : Str)
    (h : d.root.height ≤ 3001) :
    ∃ root, parseDoc srt (d.bytes ++ more) (d.events ++ trailing) = .ok root ∧ Mirrors [] d.root root := by
  have := (parseDoc_spec srt d trailing more).1 (by simpa [recursionLimit] using h)
  obtain ⟨e, h1, h2⟩ := denote_mirrors srt [] d.openTag d.name d.attrs d.kids d.closeTag
  refine ⟨e, ?_, h2⟩
  rw [this]
  simp only [denote, List.nil_append] at h1
  simp only [List.cons.injEq, and_true] at h1
  rw [h1]

/-- C08, positions: the tree has an element at a position exactly if the document has one there,
with that name and with its ordinary attributes in order. -/
theorem C08_parse_positions (srt : Sorter nsLess) (d : Doc) (trailing : List (Tok × Nat)) (more : Str)
    (h : d.root.height ≤ 3001) :
    ∃ root, parseDoc srt (d.bytes ++ more) (d.events ++ trailing) = .ok root ∧
      ∀ p, (root.at? p = none ∧ d.find? p = none) ∨
        ∃ e f o as ks c, root.at? p = some e ∧ d.find? p = some f ∧
          f.node = .elem o e.name as ks c ∧ e.attrs = as.filter (fun a => !isNsAttr a) := by
  obtain ⟨root, h1, h2⟩ := C08_parse_mirrors srt d trailing more h
  refine ⟨root, h1, fun p => ?_⟩
  rcases mirrors_find (d.bytes ++ more) [] d.openTag d.name d.attrs d.kids d.closeTag root h2
    _ (bytesL (d.prolog.map .text)) more
    (by simp [Doc.bytes, Doc.nodes, bytesL_append, Doc.root, bytesL, Node.bytes]) rfl p with h3 | ⟨e, f, h3, h4, h5⟩
  · left; exact h3
  · right
    obtain ⟨⟨o, n, as, ks, c, _, _, q1, _, _, _, q5, q6, _⟩, _⟩ := h5
    exact ⟨e, f, o, as, ks, c, h3, h4, by rw [q1, q5], q6⟩

/-- C09. The content of the element at any position is the source text between its start tag and
its end tag. -/
theorem C09_content_exact (srt : Sorter nsLess) (d : Doc) (trailing : List (Tok × Nat)) (more : Str)
    (h : d.root.height ≤ 3001) :
    ∃ root, parseDoc srt (d.bytes ++ more) (d.events ++ trailing) = .ok root ∧
      ∀ p e, root.at? p = some e → ∃ f o n as ks c pre post, d.find? p = some f ∧
        f.node = .elem o n as ks c ∧ pre.length = f.off ∧
        d.bytes ++ more = pre ++ (o ++ e.content ++ c) ++ post ∧ e.content = bytesL ks := by
  obtain ⟨root, h1, h2⟩ := C08_parse_mirrors srt d trailing more h
  refine ⟨root, h1, fun p e he => ?_⟩
  rcases mirrors_find (d.bytes ++ more) [] d.openTag d.name d.attrs d.kids d.closeTag root h2
    _ (bytesL (d.prolog.map .text)) more
    (by simp [Doc.bytes, Doc.nodes, bytesL_append, Doc.root, bytesL, Node.bytes]) rfl p with ⟨h3, _⟩ | ⟨e', f, h3, h4, h5⟩
  · rw [he] at h3; cases h3
  · rw [he] at h3
    obtain rfl := Option.some.inj h3
    obtain ⟨⟨o, n, as, ks, c, pre, post, q1, q2, q3, q4, _⟩, _⟩ := h5
    exact ⟨f, o, n, as, ks, c, pre, post, h4, q1, q3, q2, q4⟩

/-- C10. The nesting limit is exact: 3001 levels parse, more give `errDeepXML` and no other error. -/
theorem C10_depth_limit (srt : Sorter nsLess) (d : Doc) (trailing : List (Tok × Nat)) (more : Str) :
    (d.root.height ≤ 3001 → ∃ root, parseDoc srt (d.bytes ++ more) (d.events ++ trailing) = .ok root) ∧
    (d.root.height > 3001 → parseDoc srt (d.bytes ++ more) (d.events ++ trailing) = .error .deep) := by
  obtain ⟨h1, h2⟩ := parseDoc_spec srt d trailing more
  simp only [recursionLimit] at h1 h2
  exact ⟨fun h => ⟨_, h1 h⟩, h2⟩

/-- A document: `<a xmlns="u" k="v"><b>x</b><c/></a>` after a processing instruction. -/
def demoDoc : Doc where
  prolog := [b!"<?xml version='1.0'?>"]
  openTag := b!"<a xmlns=\"u\" k=\"v\">"
  name := ⟨b!"u", b!"a"⟩
  attrs := [⟨⟨[], b!"xmlns"⟩, b!"u"⟩, ⟨⟨[], b!"k"⟩, b!"v"⟩]
  kids := [.elem b!"<b>" ⟨b!"u", b!"b"⟩ [] [.text b!"x"] b!"</b>", .elem b!"<c/>" ⟨b!"u", b!"c"⟩ [] [] []]
  closeTag := b!"</a>"

example : demoDoc.root.height = 2 := by decide +kernel

/-- What the parser makes of it (content of the root, and of its first child). -/
example : (match parseDoc nsSorter demoDoc.bytes demoDoc.events with
    | .ok e => (e.content, (e.children.map (·.content)), e.scope, e.attrs)
    | .error _ => ([], [], [], [])) =
    (b!"<b>x</b><c/>", [b!"x", []], [⟨b!"u", []⟩], [⟨⟨[], b!"k"⟩, b!"v"⟩]) := by decide +kernel

/-! ### C11 -/

theorem innermost_append {sc own : Scope} {p ns : Str} :
    Innermost (sc ++ own) p ns ↔ Innermost own p ns ∨ (¬ Declared own p ∧ Innermost sc p ns) := by
  constructor
  · intro h
    by_cases hd : Declared own p
    · left
      obtain ⟨ns', o, i, e, hn⟩ := innermost_exists hd
      have : Innermost (sc ++ own) p ns' := ⟨sc ++ o, i, by rw [e]; simp, hn⟩
      rw [innermost_unique h this]; exact ⟨o, i, e, hn⟩
    · right
      refine ⟨hd, ?_⟩
      have : Declared sc p := by
        obtain ⟨d, hm, hl⟩ := innermost_declared h
        rcases List.mem_append.mp hm with hm | hm
        · exact ⟨d, hm, hl⟩
        · exact absurd ⟨d, hm, hl⟩ hd
      obtain ⟨ns', o, i, e, hn⟩ := innermost_exists this
      have h2 : Innermost (sc ++ own) p ns' := by
        refine ⟨o, i ++ own, by rw [e]; simp, ?_⟩
        intro d hm
        rcases List.mem_append.mp hm with hm | hm
        · exact hn d hm
        · exact fun hl => hd ⟨d, hm, hl⟩
      rw [innermost_unique h h2]; exact ⟨o, i, e, hn⟩
  · rintro (⟨o, i, e, hn⟩ | ⟨hd, o, i, e, hn⟩)
    · exact ⟨sc ++ o, i, by rw [e]; simp, hn⟩
    · refine ⟨o, i ++ own, by rw [e]; simp, ?_⟩
      intro d hm
      rcases List.mem_append.mp hm with hm | hm
      · exact hn d hm
      · exact fun hl => hd ⟨d, hm, hl⟩

theorem decl_mem {as : List Attr} (hok : TagOk as) (p ns : Str) :
    (⟨ns, p⟩ : XName) ∈ (as.filter isNsAttr).map declOf ↔ ∃ a ∈ as, DeclAttr a p ns := by
  obtain ⟨_, h2, h3⟩ := hok
  simp only [List.mem_map, List.mem_filter]
  constructor
  · rintro ⟨a, ⟨ha, hn⟩, hd⟩
    refine ⟨a, ha, ?_⟩
    obtain ⟨⟨sp, lo⟩, v⟩ := a
    simp only [declOf, XName.mk.injEq] at hd
    obtain ⟨rfl, hp⟩ := hd
    refine ⟨rfl, ?_⟩
    simp only [isNsAttr, Bool.or_eq_true, beq_iff_eq] at hn
    by_cases hs : sp = b!"xmlns"
    · left; rw [if_pos (by simpa using hs)] at hp; rw [hs, hp]
    · rw [if_neg (by simpa using hs)] at hp
      right
      rcases hn with hn | hn
      · exact absurd hn hs
      · rcases h2 _ ha hn with h | h
        · simp only at h hn; rw [h, hn]; exact ⟨rfl, hp.symm⟩
        · exact absurd h hs
  · rintro ⟨a, ha, hv, hd⟩
    refine ⟨a, ⟨ha, ?_⟩, ?_⟩
    · rcases hd with hd | ⟨hd, _⟩ <;> simp [isNsAttr, hd]
    · rcases hd with hd | ⟨hd, rfl⟩
      · simp [declOf, hd, hv]
      · simp [declOf, hd, hv]

theorem own_innermost {as : List Attr} {own : Scope} (hok : TagOk as)
    (hperm : own.Perm ((as.filter isNsAttr).map declOf)) (p ns : Str) :
    (Innermost own p ns ↔ ∃ a ∈ as, DeclAttr a p ns) ∧
    (Declared own p ↔ ∃ ns', ∃ a ∈ as, DeclAttr a p ns') := by
  have hmem : ∀ ns', (⟨ns', p⟩ : XName) ∈ own ↔ ∃ a ∈ as, DeclAttr a p ns' := fun ns' => by
    rw [hperm.mem_iff]; exact decl_mem hok p ns'
  have hdec : Declared own p ↔ ∃ ns', ∃ a ∈ as, DeclAttr a p ns' := by
    constructor
    · rintro ⟨⟨s, l⟩, hd, rfl⟩; exact ⟨s, (hmem s).mp hd⟩
    · rintro ⟨ns', h⟩; exact ⟨⟨ns', p⟩, (hmem ns').mpr h, rfl⟩
  refine ⟨⟨?_, ?_⟩, hdec⟩
  · rintro ⟨o, i, e, _⟩; exact (hmem ns).mp (by rw [e]; simp)
  · intro h
    obtain ⟨ns', hi⟩ := innermost_exists (hdec.mpr ⟨ns, h⟩)
    obtain ⟨o, i, e, hn⟩ := hi
    obtain ⟨b, hb, hb2⟩ := (hmem ns').mp (by rw [e]; simp)
    obtain ⟨a, ha, ha2⟩ := h
    have := hok.1 a ha b hb p ns ns' ha2 hb2
    rw [this]; exact ⟨o, i, e, hn⟩

theorem nearest_rev : ∀ (chain : List (List Attr)) (owns : List Scope), owns.length = chain.length →
    (∀ (i : Nat) (own : Scope) (as : List Attr), owns[i]? = some own → chain[i]? = some as →
      own.Perm ((as.filter isNsAttr).map declOf)) →
    (∀ as ∈ chain, TagOk as) → ∀ p ns, Innermost owns.reverse.flatten p ns ↔ Nearest p ns chain := by
  intro chain
  induction chain with
  | nil =>
    intro owns hl _ _ p ns
    have : owns = [] := List.eq_nil_of_length_eq_zero (by simpa using hl)
    subst this
    simp [Nearest, Innermost]
  | cons as chain ih =>
    intro owns hl hp hok p ns
    cases owns with
    | nil => simp at hl
    | cons own owns =>
      simp only [List.reverse_cons, List.flatten_append, List.flatten_cons, List.flatten_nil, List.append_nil]
      rw [innermost_append]
      have h0 := hp 0 own as rfl rfl
      obtain ⟨h1, h2⟩ := own_innermost (hok as (by simp)) h0 p ns
      rw [h1, h2, ih owns (by simpa using hl) (fun i own as a b => hp (i + 1) own as (by simpa using a) (by simpa using b))
        (fun as h => hok as (by simp [h])) p ns]
      simp only [Nearest]
      constructor
      · rintro (h | ⟨h, h'⟩)
        · exact Or.inl h
        · exact Or.inr ⟨fun a ha ns' hd => h ⟨ns', a, ha, hd⟩, h'⟩
      · rintro (h | ⟨h, h'⟩)
        · exact Or.inl h
        · exact Or.inr ⟨fun ⟨ns', a, ha, hd⟩ => h a ha ns' hd, h'⟩

/-- C11, structure: the scope of the element at any position is the concatenation, from the root
inwards, of the declarations of the tags on the way; its attributes are the others. This holds for
all documents, with the parser's notion of what a declaration is. -/
theorem C11_scope_path (srt : Sorter nsLess) (d : Doc) (trailing : List (Tok × Nat)) (more : Str)
    (h : d.root.height ≤ 3001) :
    ∃ root, parseDoc srt (d.bytes ++ more) (d.events ++ trailing) = .ok root ∧
      ∀ p e, root.at? p = some e → ∃ f, ∃ owns : List Scope, d.find? p = some f ∧
        e.scope = owns.flatten ∧ owns.length = f.chain.length ∧
        ∀ (i : Nat) (own : Scope) (as : List Attr), owns[i]? = some own → f.chain[i]? = some as →
          own.Perm ((as.filter isNsAttr).map declOf) := by
  obtain ⟨root, h1, h2⟩ := C08_parse_mirrors srt d trailing more h
  refine ⟨root, h1, fun p e he => ?_⟩
  rcases mirrors_find (d.bytes ++ more) [] d.openTag d.name d.attrs d.kids d.closeTag root h2
    _ (bytesL (d.prolog.map .text)) more
    (by simp [Doc.bytes, Doc.nodes, bytesL_append, Doc.root, bytesL, Node.bytes]) rfl p with ⟨h3, _⟩ | ⟨e', f, h3, h4, h5⟩
  · rw [he] at h3; cases h3
  · rw [he] at h3
    obtain rfl := Option.some.inj h3
    obtain ⟨_, owns, s1, s2, s3⟩ := h5
    exact ⟨f, owns, h4, by simpa using s1, s2, s3⟩

/-- C11. In a document whose tags obey the namespace rules, a prefix at any element is bound as
the nearest enclosing tag that declares it says, and no ordinary attribute is lost.
The hypothesis `TagOk` excludes attributes such as `p:xmlns="..."`, for which the claim is false
(next theorem); hence the suffix. -/
theorem C11_scope_nearest_partial (srt : Sorter nsLess) (d : Doc) (trailing : List (Tok × Nat)) (more : Str)
    (h : d.root.height ≤ 3001) :
    ∃ root, parseDoc srt (d.bytes ++ more) (d.events ++ trailing) = .ok root ∧
      ∀ p e, root.at? p = some e → ∃ f, d.find? p = some f ∧
        ((∀ as ∈ f.chain, TagOk as) → ∀ pre ns, Innermost e.scope pre ns ↔ Nearest pre ns f.chain.reverse) ∧
        (∀ as, f.chain.getLast? = some as → TagOk as →
          ∀ a, a ∈ e.attrs ↔ a ∈ as ∧ ∀ pre ns, ¬ DeclAttr a pre ns) := by
  obtain ⟨root, h1, h2⟩ := C08_parse_mirrors srt d trailing more h
  refine ⟨root, h1, fun p e he => ?_⟩
  rcases mirrors_find (d.bytes ++ more) [] d.openTag d.name d.attrs d.kids d.closeTag root h2
    _ (bytesL (d.prolog.map .text)) more
    (by simp [Doc.bytes, Doc.nodes, bytesL_append, Doc.root, bytesL, Node.bytes]) rfl p with ⟨h3, _⟩ | ⟨e', f, h3, h4, h5⟩
  · rw [he] at h3; cases h3
  · rw [he] at h3
    obtain rfl := Option.some.inj h3
    obtain ⟨⟨o, n, as, ks, c, pre, post, _, _, _, _, _, q6, q7⟩, owns, s1, s2, s3⟩ := h5
    refine ⟨f, h4, ?_, ?_⟩
    · intro hok pre ns
      have := nearest_rev f.chain.reverse owns.reverse (by simp [s2]) (by
        intro i own as h1 h2
        by_cases hi : i < owns.length
        · rw [List.getElem?_reverse hi] at h1
          rw [List.getElem?_reverse (by omega)] at h2
          rw [s2] at h1
          exact s3 _ own as h1 h2
        · rw [List.getElem?_eq_none (by simp; omega)] at h1; cases h1)
        (by intro as ha; exact hok as (by simpa using ha)) pre ns
      simp only [List.reverse_reverse] at this
      rw [s1, List.nil_append]
      exact this
    · intro as' ha hok a
      rw [q7] at ha
      obtain rfl := Option.some.inj ha
      rw [q6, List.mem_filter]
      refine and_congr_right fun hm => ?_
      obtain ⟨_, t2, t3⟩ := hok
      simp only [isNsAttr, Bool.not_eq_true', Bool.or_eq_false_iff, beq_eq_false_iff_ne]
      constructor
      · rintro ⟨n1, n2⟩ pre ns ⟨_, hd⟩
        rcases hd with hd | ⟨hd, _⟩
        · exact n1 (by rw [hd])
        · exact n2 (by rw [hd])
      · intro hnd
        constructor
        · intro hs
          exact hnd a.name.loc a.value ⟨rfl, Or.inl (by rw [← hs])⟩
        · intro hl
          rcases t2 a hm hl with hs | hs
          · exact hnd [] a.value ⟨rfl, Or.inr ⟨by cases hn : a.name; simp only [hn] at hs hl; rw [hs, hl], rfl⟩⟩
          · exact hnd a.name.loc a.value ⟨rfl, Or.inl (by rw [← hs])⟩

/-- C11 as stated is false: the attribute `xmlns` in the namespace `u` (as in
`<a xmlns:p="u" p:xmlns="w"/>`) is not a declaration, but it is removed from the attributes and
becomes the default namespace. -/
theorem C11_foreign_xmlns_refuted :
    let as : List Attr := [⟨⟨b!"xmlns", b!"p"⟩, b!"u"⟩, ⟨⟨b!"u", b!"xmlns"⟩, b!"w"⟩]
    (∀ p ns, ¬ DeclAttr ⟨⟨b!"u", b!"xmlns"⟩, b!"w"⟩ p ns) ∧
    (pushNS nsSorter [] as).2 = [] ∧
    resolveNS (pushNS nsSorter [] as).1 b!"x" = (⟨b!"w", b!"x"⟩, true) := by
  refine ⟨?_, by decide +kernel, by decide +kernel⟩
  rintro p ns ⟨_, h | ⟨h, _⟩⟩
  · simp at h
  · simp at h

/-- The tags of `demoDoc` obey the namespace rules. -/
example : TagOk demoDoc.attrs := by
  refine ⟨?_, ?_, ?_⟩
  · intro a ha b hb p n m h1 h2
    simp [demoDoc] at ha hb
    rcases ha with rfl | rfl <;> rcases hb with rfl | rfl <;>
      obtain ⟨rfl, h1⟩ := h1 <;> obtain ⟨rfl, h2⟩ := h2 <;> simp at h1 h2 ⊢
  · intro a ha; simp [demoDoc] at ha; rcases ha with rfl | rfl <;> simp
  · intro a ha; simp [demoDoc] at ha; rcases ha with rfl | rfl <;> simp

end GoXml
