import Verif.Proofs.Source
import Verif.Props.XmlParse
set_option autoImplicit false

/-! Lemmas: the tree of a document has the names and attributes that the document gives. -/

namespace GoXml

open Lex

theorem nsLookup_innermost (p : Str) (sc : Scope) :
    (∀ v, Innermost sc p v → nsLookup p sc.reverse = some v) ∧ (¬ Declared sc p → nsLookup p sc.reverse = none) := by
  have h := resolveLoop_iff (pre := p) (loc := []) (sc := sc)
  constructor
  · intro v hv
    have := h.1 v hv
    rw [resolveLoop_lookup] at this
    cases hl : nsLookup p sc.reverse with
    | none => rw [hl] at this; cases this
    | some w =>
      rw [hl] at this
      simp at this
      rw [this]
  · intro hd
    have := h.2 hd
    rw [resolveLoop_lookup] at this
    simpa using this

theorem nsPush_tag {ns : Scope} {as : List Attr} (h : TagOk as) : nsPush ns as = ns ++ (as.filter isNsAttr).map declOf := by
  have h2 := h.2.1
  clear h
  induction as generalizing ns with
  | nil => simp [nsPush]
  | cons a as ih =>
    rw [nsPush]
    rw [ih (fun x hx => h2 x (by simp [hx]))]
    by_cases hs : a.name.space = b!"xmlns"
    · simp [isNsAttr, declOf, hs]
    · by_cases hl : a.name.loc = b!"xmlns"
      · rcases h2 a (by simp) hl with h | h
        · simp [isNsAttr, declOf, h, hl]
        · exact absurd h hs
      · simp [isNsAttr, hs, hl]

/-- The bindings of a scope are those of the tags. -/
def Bound (sc : Scope) (chain : List (List Attr)) : Prop := ∀ p v, Innermost sc p v ↔ Nearest p v chain

theorem bound_nil : Bound [] [] := by
  intro p v
  simp [Innermost, Nearest]

theorem bound_push {sc own : Scope} {as : List Attr} {chain : List (List Attr)} (h : Bound sc chain) (hok : TagOk as)
    (hp : own.Perm ((as.filter isNsAttr).map declOf)) : Bound (sc ++ own) (as :: chain) := by
  intro p v
  obtain ⟨h1, h2⟩ := own_innermost hok hp p v
  rw [innermost_append, Nearest, h1, h2, h p v]
  constructor
  · rintro (h | ⟨h3, h4⟩)
    · exact Or.inl h
    · exact Or.inr ⟨fun a ha ns' hd => h3 ⟨ns', a, ha, hd⟩, h4⟩
  · rintro (h | ⟨h3, h4⟩)
    · exact Or.inl h
    · exact Or.inr ⟨fun ⟨ns', a, ha, hd⟩ => h3 a ha ns' hd, h4⟩

theorem bound_lookup {sc : Scope} {chain : List (List Attr)} (h : Bound sc chain) (p : Str) :
    (∀ v, Nearest p v chain → nsLookup p sc.reverse = some v) ∧ ((∀ v, ¬ Nearest p v chain) → nsLookup p sc.reverse = none) := by
  obtain ⟨h1, h2⟩ := nsLookup_innermost p sc
  refine ⟨fun v hv => h1 v ((h p v).mpr hv), fun hn => h2 fun hd => ?_⟩
  obtain ⟨v, hv⟩ := innermost_exists hd
  exact hn v ((h p v).mp hv)

theorem translate_element {sc : Scope} {chain : List (List Attr)} (h : Bound sc chain) {p l : Str} (hp : p ≠ b!"xmlns")
    (hl : p = [] → l ≠ b!"xmlns") (hs : ∃ ns, ElemSpace chain p ns) :
    ∃ ns, translate sc ⟨p, l⟩ true = ⟨ns, l⟩ ∧ ElemSpace chain p ns := by
  obtain ⟨ns, hs⟩ := hs
  refine ⟨ns, ?_, hs⟩
  obtain ⟨b1, b2⟩ := bound_lookup h p
  have hx : ¬ (p = [] ∧ l = b!"xmlns") := fun ⟨a, b⟩ => hl a b
  unfold translate
  simp only [if_neg hp, Bool.not_true, Bool.false_eq_true, and_false, if_false]
  rcases hs with (⟨rfl, rfl⟩ | ⟨hne, hn⟩) | ⟨rfl, rfl, hn⟩
  · rw [if_pos rfl]; rfl
  · rw [if_neg hne, if_neg hx, b1 ns hn]
  · rw [if_neg (by decide), if_neg hx, b2 hn]

theorem translate_attribute {sc : Scope} {chain : List (List Attr)} (h : Bound sc chain) {p l : Str} (hp : p ≠ b!"xmlns")
    (hs : ∃ ns, AttrSpace chain p ns) : ∃ ns, translate sc ⟨p, l⟩ false = ⟨ns, l⟩ ∧ AttrSpace chain p ns := by
  obtain ⟨ns, hs⟩ := hs
  refine ⟨ns, ?_, hs⟩
  obtain ⟨b1, b2⟩ := bound_lookup h p
  unfold translate
  simp only [if_neg hp, Bool.not_false, and_true]
  rcases hs with ⟨rfl, rfl⟩ | ⟨hp0, ⟨rfl, rfl⟩ | ⟨hne, hn⟩⟩
  · rw [if_pos rfl]
  · rw [if_neg (by decide), if_pos rfl]; rfl
  · rw [if_neg hp0, if_neg hne, if_neg (fun h => hp0 h.1), b1 ns hn]

/-- No namespace is called `xmlns`. -/
def Reserved (chain : List (List Attr)) : Prop := ∀ as ∈ chain, ∀ a ∈ as, ∀ p, ¬ DeclAttr a p b!"xmlns"

theorem nearest_reserved {chain : List (List Attr)} (h : Reserved chain) {p v : Str} (hn : Nearest p v chain) : v ≠ b!"xmlns" := by
  induction chain with
  | nil => exact hn.elim
  | cons as chain ih =>
    rcases hn with ⟨a, ha, hd⟩ | ⟨_, hn⟩
    · rintro rfl
      exact h as (by simp) a ha p hd
    · exact ih (fun x hx => h x (by simp [hx])) hn

theorem attrSpace_reserved {chain : List (List Attr)} (h : Reserved chain) {p v : Str} (hs : AttrSpace chain p v) : v ≠ b!"xmlns" := by
  rcases hs with ⟨_, rfl⟩ | ⟨_, ⟨_, rfl⟩ | ⟨_, hn⟩⟩
  · decide
  · decide
  · exact nearest_reserved h hn

theorem declares_of {a : SrcAttr} {p v : Str} (h : DeclAttr a.toAttr p v) : a.declares = true ∧ a.value = v := by
  obtain ⟨h1, h2⟩ := h
  refine ⟨?_, h1⟩
  simp only [SrcAttr.toAttr, XName.mk.injEq] at h2
  unfold SrcAttr.declares
  rcases h2 with ⟨h, _⟩ | ⟨⟨h, h'⟩, _⟩ <;> simp [h, *]

theorem reserved_push {u : Unicode} {chain : List (List Attr)} {pre loc : Str} {attrs : List SrcAttr} {space : Str}
    (h : TagWf u chain pre loc attrs space) (hr : Reserved chain) : Reserved (attrs.map SrcAttr.toAttr :: chain) := by
  intro as has
  rcases List.mem_cons.mp has with rfl | has
  · intro a ha p hd
    obtain ⟨s, hs, rfl⟩ := List.mem_map.mp ha
    obtain ⟨h1, h2⟩ := declares_of hd
    exact h.reserved s hs h1 h2
  · exact hr as has

/-- The attributes that a tag gets: declarations stay as written, the others get namespaces. -/
theorem spaced_attrs {u : Unicode} {chain : List (List Attr)} {pre loc : Str} {attrs : List SrcAttr} {space : Str}
    (h : TagWf u chain pre loc attrs space) (hr : Reserved chain) {sc : Scope} (hb : Bound sc (attrs.map SrcAttr.toAttr :: chain)) :
    (spaced sc (attrs.map SrcAttr.toAttr)).filter isNsAttr = (attrs.map SrcAttr.toAttr).filter isNsAttr ∧
    MeansAttrs (attrs.map SrcAttr.toAttr :: chain) attrs ((spaced sc (attrs.map SrcAttr.toAttr)).filter fun a => !isNsAttr a) := by
  have hr' := reserved_push h hr
  have h2 := h.declarations.2.1
  have hsp := h.spaces
  generalize attrs.map SrcAttr.toAttr :: chain = chain' at *
  have each : ∀ a ∈ attrs, (a.declares = true ∧ isNsAttr a.toAttr = true ∧ translate sc a.toAttr.name false = a.toAttr.name) ∨
      (a.declares = false ∧ isNsAttr a.toAttr = false ∧
        ∃ ns, translate sc a.toAttr.name false = ⟨ns, a.loc⟩ ∧ AttrSpace chain' a.pre ns ∧ ns ≠ b!"xmlns" ∧ a.loc ≠ b!"xmlns") := by
    intro a ha
    cases hd : a.declares with
    | true =>
      left
      refine ⟨rfl, ?_⟩
      simp only [SrcAttr.declares, Bool.or_eq_true, Bool.and_eq_true, beq_iff_eq] at hd
      rcases hd with hd | ⟨h1, h2⟩
      · simp [isNsAttr, translate, SrcAttr.toAttr, hd]
      · simp [isNsAttr, translate, SrcAttr.toAttr, h1, h2]
    | false =>
      right
      refine ⟨rfl, ?_⟩
      simp only [SrcAttr.declares, Bool.or_eq_false_iff, Bool.and_eq_false_iff, beq_eq_false_iff_ne, ne_eq] at hd
      have hp : a.pre ≠ b!"xmlns" := hd.1
      have hl : a.loc ≠ b!"xmlns" := by
        intro hl
        rcases h2 a.toAttr (List.mem_map_of_mem ha) hl with h | h
        · rcases hd.2 with hd | hd
          · exact hd h
          · exact hd hl
        · exact hp h
      obtain ⟨ns, n1, n2⟩ := translate_attribute (l := a.loc) hb hp (hsp a ha (by
        simp only [SrcAttr.declares, Bool.or_eq_false_iff, Bool.and_eq_false_iff, beq_eq_false_iff_ne, ne_eq]; exact hd))
      refine ⟨?_, ns, n1, n2, attrSpace_reserved hr' n2, hl⟩
      simp [isNsAttr, SrcAttr.toAttr, hp, hl]
  clear h h2 hsp hb
  induction attrs with
  | nil => exact ⟨rfl, .nil⟩
  | cons a attrs ih =>
    obtain ⟨i1, i2⟩ := ih (fun x hx => each x (by simp [hx]))
    unfold MeansAttrs at i2 ⊢
    simp only [spaced, List.map_cons] at i1 i2 ⊢
    rcases each a (by simp) with ⟨e1, e2, e3⟩ | ⟨e1, e2, ns, e3, e4, e5, e6⟩
    · have e3' : ({ a.toAttr with name := translate sc a.toAttr.name false } : Attr) = a.toAttr := by rw [e3]
      rw [e3']
      simp only [List.filter_cons, e1, e2, Bool.not_true, Bool.false_eq_true, if_false, if_true]
      exact ⟨by rw [i1], i2⟩
    · rw [e3]
      have : isNsAttr { a.toAttr with name := ⟨ns, a.loc⟩ } = false := by simp [isNsAttr, e5, e6]
      simp only [List.filter_cons, e1, e2, this, Bool.not_false, Bool.false_eq_true, if_false, if_true]
      exact ⟨i1, .cons ⟨rfl, rfl, e4⟩ i2⟩

theorem tag_means {u : Unicode} {chain : List (List Attr)} {pre loc : Str} {attrs : List SrcAttr} {space : Str}
    (h : TagWf u chain pre loc attrs space) (hr : Reserved chain) {ns : Scope} (hb : Bound ns chain) :
    Bound (nsPush ns (attrs.map SrcAttr.toAttr)) (attrs.map SrcAttr.toAttr :: chain) := by
  rw [nsPush_tag h.declarations]
  exact bound_push hb h.declarations (List.Perm.refl _)

mutual
theorem mirrors_means {u : Unicode} {chain : List (List Attr)} (hr : Reserved chain) {ns sc : Scope} (hb : Bound ns chain) (hc : Bound sc chain) :
    ∀ (s : Src) (e : Element), SrcWf u chain s → s.isMisc = false → Mirrors sc (s.node ns) e → Means chain s e
  | .text _, _, _, hm, _ => by cases hm
  | .comment _, _, _, hm, _ => by cases hm
  | .cdata _, _, _, hm, _ => by cases hm
  | .pi _ _, _, _, hm, _ => by cases hm
  | .doctype _, _, _, hm, _ => by cases hm
  | .empty pre loc attrs space, e, h, _, hmir => by
    cases h with
    | empty ht =>
      have hb' := tag_means ht hr hb
      obtain ⟨s1, s2⟩ := spaced_attrs ht hr hb'
      obtain ⟨el1, el2, el3⟩ := ht.element
      obtain ⟨sp, t1, t2⟩ := translate_element (l := loc) hb' el1 el2 el3
      rw [Src.node, t1] at hmir
      cases hmir with
      | elem hp hk =>
        cases hk
        rw [s1] at hp
        exact .empty t2 s2 (bound_push hc ht.declarations hp)
  | .elem pre loc attrs space kids endSpace, e, h, _, hmir => by
    cases h with
    | elem ht hk _ =>
      have hb' := tag_means ht hr hb
      obtain ⟨s1, s2⟩ := spaced_attrs ht hr hb'
      obtain ⟨el1, el2, el3⟩ := ht.element
      obtain ⟨sp, t1, t2⟩ := translate_element (l := loc) hb' el1 el2 el3
      rw [Src.node, t1] at hmir
      cases hmir with
      | elem hp hmk =>
        rw [s1] at hp
        have hc' := bound_push hc ht.declarations hp
        rw [nodes_bytes]
        exact .elem t2 s2 hc' (mirrorsL_means (reserved_push ht hr) hb' hc' kids _ hk hmk)
theorem mirrorsL_means {u : Unicode} {chain : List (List Attr)} (hr : Reserved chain) {ns sc : Scope} (hb : Bound ns chain) (hc : Bound sc chain) :
    ∀ (ss : List Src) (es : List Element), SrcsWf u chain ss → MirrorsL sc (srcNodes ns ss) es → MeansL chain ss es
  | [], es, _, hm => by cases hm; exact .nil
  | s :: ss, es, h, hm => by
    cases h with
    | cons h1 h2 _ =>
      cases hmisc : s.isMisc with
      | true =>
        rw [srcNodes, node_misc hmisc] at hm
        cases hm with
        | text hm => exact .misc hmisc (mirrorsL_means hr hb hc ss _ h2 hm)
      | false =>
        rw [srcNodes] at hm
        generalize hn : s.node ns = n at hm
        cases hm with
        | text hm =>
          cases s <;> first | (cases hmisc; done) | (rw [Src.node] at hn; cases hn; done)
        | elem hm1 hm2 =>
          rw [← hn] at hm1
          exact .elem (mirrors_means hr hb hc s _ h1 hmisc hm1) (mirrorsL_means hr hb hc ss _ h2 hm2)
end

/-! ### Whole documents -/

theorem srcNodes_prolog {ss : List Src} (h : ∀ s ∈ ss, s.isMisc = true) (ns : Scope) : srcNodes ns ss = (ss.map Src.bytes).map Node.text := by
  induction ss with
  | nil => rfl
  | cons s ss ih => simp [srcNodes, node_misc (h s (by simp)), ih fun x hx => h x (by simp [hx])]

/-- The tokenizer on a document. -/
theorem lex_source (u : Unicode) (d : SrcDoc) (hw : d.Wf u) (more : Str) :
    ∃ trailing, lex u (d.bytes ++ more) =
      eventsL 0 (srcNodes [] d.prolog) ++ (d.root.node []).events (srcBytes d.prolog).length ++ trailing := by
  obtain ⟨r, hr⟩ := bytes_start hw.root (by cases hh : d.root <;> simp [Src.isText]; have := hw.element; rw [hh] at this; cases this)
  have c1 := nodes_count [] d.prolog hw.prolog 0
  have c2 := node_count [] d.root hw.root (srcBytes d.prolog).length
  generalize hE1 : eventsL 0 (srcNodes [] d.prolog) = E1 at *
  generalize hE2 : (d.root.node []).events (srcBytes d.prolog).length = E2 at *
  have hlen : (d.bytes ++ more).length = (srcBytes d.prolog).length + d.root.bytes.length + more.length := by simp [SrcDoc.bytes]; omega
  obtain ⟨fuel, hf⟩ : ∃ fuel, 2 * (d.bytes ++ more).length + 1 = (fuel + E2.length) + E1.length :=
    ⟨2 * (d.bytes ++ more).length + 1 - E2.length - E1.length, by omega⟩
  have l1 := srcs_lexes [] d.prolog hw.prolog (d.bytes ++ more).length 0 (fuel + E2.length) [] (r ++ more)
    (by rw [hlen, nodes_bytes, hr]; simp; omega)
  have l2 := src_lexes [] d.root hw.root hw.element (d.bytes ++ more).length (srcBytes d.prolog).length fuel [] more
    (by rw [hlen, node_bytes])
  rw [hE1, nodes_bytes] at l1
  rw [hE2, node_bytes] at l2
  refine ⟨tokens u (d.bytes ++ more).length fuel ⟨more, [], [], none⟩, ?_⟩
  rw [lex, hf]
  have e1 : d.bytes ++ more = srcBytes d.prolog ++ 60 :: (r ++ more) := by simp [SrcDoc.bytes, hr]
  have e2 : (60 :: (r ++ more) : Str) = d.root.bytes ++ more := by rw [hr]; rfl
  generalize (d.bytes ++ more).length = T at *
  rw [e1, l1, List.append_assoc]
  congr 1
  rw [e2]
  simpa [nodes_bytes] using l2

theorem root_elem (u : Unicode) (d : SrcDoc) (hw : d.Wf u) : ∃ o n as ks c, d.root.node [] = .elem o n as ks c := by
  have := hw.element
  generalize d.root = s at this
  cases s <;> first | (cases this; done) | exact ⟨_, _, _, _, _, rfl⟩

theorem parse_source_mirrors (u : Unicode) (srt : Sorter nsLess) (d : SrcDoc) (hw : d.Wf u) (hd : d.root.depth ≤ 3001) (more : Str) :
    ∃ root, parse u srt (d.bytes ++ more) = .ok root ∧ Mirrors [] (d.root.node []) root := by
  obtain ⟨o, n, as, ks, c, hnode⟩ := root_elem u d hw
  generalize hdoc : (⟨d.prolog.map Src.bytes, o, n, as, ks, c⟩ : Doc) = D
  have hroot : D.root = d.root.node [] := by rw [hnode, ← hdoc]; rfl
  have hpn : D.prolog.map Node.text = srcNodes [] d.prolog := by rw [← hdoc, srcNodes_prolog hw.misc]
  have hbytes : D.bytes = d.bytes := by
    rw [Doc.bytes, Doc.nodes, bytesL_append, hpn, nodes_bytes, hroot]
    simp [bytesL, node_bytes, SrcDoc.bytes]
  have hev : D.events = eventsL 0 (srcNodes [] d.prolog) ++ (d.root.node []).events (srcBytes d.prolog).length := by
    rw [Doc.events, Doc.nodes, eventsL_append, hpn, hroot, nodes_bytes]
    simp [eventsL]
  obtain ⟨trailing, hlex⟩ := lex_source u d hw more
  rw [← hev] at hlex
  obtain ⟨root, p1, p2⟩ := C08_parse_mirrors srt D trailing more (by rw [hroot, node_height]; exact hd)
  refine ⟨root, by rw [parse, hlex, ← hbytes]; exact p1, ?_⟩
  rwa [hroot] at p2

theorem parse_source (u : Unicode) (srt : Sorter nsLess) (d : SrcDoc) (hw : d.Wf u) (hd : d.root.depth ≤ 3001) (more : Str) :
    ∃ root, parse u srt (d.bytes ++ more) = .ok root ∧ Means [] d.root root := by
  obtain ⟨root, h1, h2⟩ := parse_source_mirrors u srt d hw hd more
  exact ⟨root, h1, mirrors_means (fun _ h => by simp at h) bound_nil bound_nil d.root root hw.root hw.element h2⟩

end GoXml
