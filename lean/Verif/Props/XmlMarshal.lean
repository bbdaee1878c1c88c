import Verif.Proofs.Pieces
set_option autoImplicit false

/-! Property theorems C13-C16, C65, C66: Marshal. -/

namespace GoXml

open Lex

/-! ### C13: namespace declarations -/

/-- C13, one element: the declarations written on a root element are its whole scope; on a child
they are what is left of its scope after the longest common beginning with its parent's scope. -/
theorem C13_diffScope (child : Scope) :
    diffScope none child = child ∧
    ∀ parent, ∃ common rest, parent = common ++ rest ∧ child = common ++ diffScope (some parent) child ∧
      (∀ p c, rest.head? = some p → (diffScope (some parent) child).head? = some c → p ≠ c) := by
  refine ⟨rfl, ?_⟩
  simp only [diffScope]
  induction child with
  | nil =>
    intro parent
    refine ⟨[], parent, rfl, ?_, ?_⟩
    · cases parent <;> rfl
    · intro p c _ hc
      cases parent <;> simp [dropCommon] at hc
  | cons x xs ih =>
    intro parent
    cases parent with
    | nil => exact ⟨[], [], rfl, rfl, by simp⟩
    | cons p ps =>
      by_cases h : x = p
      · subst h
        obtain ⟨common, rest, h1, h2, h3⟩ := ih ps
        refine ⟨x :: common, rest, by rw [h1]; rfl, ?_, ?_⟩
        · simp only [dropCommon, if_true, List.cons_append]; rw [← h2]
        · simpa [dropCommon] using h3
      · refine ⟨[], p :: ps, rfl, ?_, ?_⟩
        · simp [dropCommon, h]
        · intro a b ha hb
          simp only [List.head?_cons, Option.some.injEq] at ha
          simp only [dropCommon, if_neg h, List.head?_cons, Option.some.injEq] at hb
          subst ha; subst hb
          exact fun e => h e.symm

/-- The declarations `encode` writes on the elements along a path, from the root. -/
def declsOnPath (parent : Option Scope) : Element → List Nat → List Scope
  | e, [] => [diffScope parent e.scope]
  | e, i :: p => diffScope parent e.scope :: (match e.children[i]? with
    | none => []
    | some c => declsOnPath (some e.scope) c p)

/-- The scope of every child extends the scope of its parent. -/
def NestedScopes (root : Element) : Prop :=
  ∀ (p : List Nat) (i : Nat) (e c : Element), root.at? p = some e → e.children[i]? = some c → ∃ own, c.scope = e.scope ++ own

theorem declsOnPath_aux (p : List Nat) : ∀ (root e : Element) (parent : Option Scope) (ps : Scope),
    (∀ own, diffScope parent (ps ++ own) = own) → (∃ own, root.scope = ps ++ own) → NestedScopes root →
    root.at? p = some e → ps ++ (declsOnPath parent root p).flatten = e.scope := by
  induction p with
  | nil =>
    intro root e parent ps hp ⟨own, ho⟩ hn he
    simp only [Element.at?, Option.some.injEq] at he
    subst he
    simp [declsOnPath, ho, hp]
  | cons i p ih =>
    intro root e parent ps hp ⟨own, ho⟩ hn he
    simp only [Element.at?] at he
    cases hc : root.children[i]? with
    | none => rw [hc] at he; cases he
    | some c =>
      rw [hc] at he
      obtain ⟨own', ho'⟩ := hn [] i root c rfl hc
      have := ih c e (some root.scope) root.scope (fun own => dropCommon_append _ own) ⟨own', ho'⟩
        (by
          intro q j e' c' h1 h2
          exact hn (i :: q) j e' c' (by simp only [Element.at?, hc]; exact h1) h2) he
      simp only [declsOnPath, hc, List.flatten_cons]
      rw [← this, ho, hp, List.append_assoc]

/-- C13: in a tree whose scopes are nested (as `Parse` makes them), the declarations written on the
way from the marshalled root to an element are, joined, that element's scope. -/
theorem C13_path_declarations (root e : Element) (p : List Nat) (hn : NestedScopes root)
    (he : root.at? p = some e) : (declsOnPath none root p).flatten = e.scope := by
  have := declsOnPath_aux p root e none [] (fun own => by simp [diffScope]) ⟨root.scope, by simp⟩ hn he
  simpa using this

/-! ### C14: Parse after Marshal -/

/-- C14: parsing what `Marshal` writes gives the same tree back: names, attributes, scopes and
children, and content where there are no children. This holds for every tokenizer table, every
sorting routine, and every tree that can be written (`Wf`), is within the nesting limit and whose
declarations are in the order `Parse` puts them in. -/
theorem C14_marshal_parse (u : Unicode) (srt : Sorter nsLess) (el : Element) (hw : Wf u [] el)
    (hs : SortedDecls [] el) (hh : el.height ≤ recursionLimit + 1) :
    ∃ el', parse u srt (marshal el) = .ok el' ∧ SameTree Eq el el' := by
  obtain ⟨el', h1, h2⟩ := parse_marshal u srt el hw hh
  exact ⟨el', h1, re_same h2 rfl hs⟩

/-- C14 for declarations in any order: the re-parsed scopes are permutations of the original ones. -/
theorem C14_marshal_parse_perm (u : Unicode) (srt : Sorter nsLess) (el : Element) (hw : Wf u [] el)
    (hh : el.height ≤ recursionLimit + 1) :
    ∃ el', parse u srt (marshal el) = .ok el' ∧ SameTree List.Perm el el' := by
  obtain ⟨el', h1, h2⟩ := parse_marshal u srt el hw hh
  exact ⟨el', h1, re_perm h2 (List.Perm.refl _)⟩

mutual
theorem encode_congr (e : Encoder) (parent : Option Scope) (depth : Nat) (a b : Element)
    (h : SameTree Eq a b) : encodeEl e parent depth a = encodeEl e parent depth b := by
  match a, b, h with
  | .mk name attrs s c [], .mk _ _ _ c' [], .mk h1 h2 h3 =>
    rw [← h1, ← h2 rfl]
  | .mk name attrs s c (k :: ks), .mk _ _ _ c' (k' :: ks'), .mk h1 h2 h3 =>
    rw [← h1]
    have := encodeKids_congr e s (depth + 1) _ _ h3
    have ho : encodeOpenTag e name attrs s c (k :: ks) (diffScope parent s) depth =
        encodeOpenTag e name attrs s c' (k' :: ks') (diffScope parent s) depth := by
      simp [encodeOpenTag, startText]
    have hc : encodeCloseTag e name s (k :: ks) depth = encodeCloseTag e name s (k' :: ks') depth := by
      simp [encodeCloseTag]
    simp only [encodeEl, ho, hc, this, List.isEmpty_cons, Bool.false_eq_true, if_false]
theorem encodeKids_congr (e : Encoder) (ps : Scope) (depth : Nat) (a b : List Element)
    (h : SameTreeL Eq a b) : encodeKids e ps depth a = encodeKids e ps depth b := by
  match a, b, h with
  | [], [], _ => rfl
  | k :: ks, k' :: ks', .cons h1 h2 =>
    rw [encodeKids, encodeKids, encode_congr e _ depth k k' h1, encodeKids_congr e ps depth ks ks' h2]
end

/-- C14, consequence: marshalling is stable; marshalling the re-parsed tree gives the same bytes. -/
theorem C14_marshal_stable (u : Unicode) (srt : Sorter nsLess) (el el' : Element) (hw : Wf u [] el)
    (hs : SortedDecls [] el) (hh : el.height ≤ recursionLimit + 1)
    (hp : parse u srt (marshal el) = .ok el') : marshal el' = marshal el := by
  obtain ⟨el'', h1, h2⟩ := C14_marshal_parse u srt el hw hs hh
  rw [h1] at hp
  simp only [Except.ok.injEq] at hp
  subst hp
  exact (encode_congr _ none 0 el _ h2).symm

/-- Tables for the examples: ASCII names that start with a letter or underscore. -/
def asciiTables : Unicode where
  okName s := match s with
    | [] => false
    | c :: _ => (65 ≤ c && c ≤ 90) || (97 ≤ c && c ≤ 122) || c == 95 || c == 58
  okText _ := true

/-- `<r k="1" xmlns="u" xmlns:p="v"><p:c p:a="2">te xt<!-- c --></p:c><d /></r>` -/
def demoTree : Element :=
  .mk ⟨b!"u", b!"r"⟩ [⟨⟨[], b!"k"⟩, b!"1"⟩] [⟨b!"u", []⟩, ⟨b!"v", b!"p"⟩] []
    [.mk ⟨b!"v", b!"c"⟩ [⟨⟨b!"v", b!"a"⟩, b!"2"⟩] [⟨b!"u", []⟩, ⟨b!"v", b!"p"⟩] b!"te xt<!-- c -->" [],
     .mk ⟨b!"u", b!"d"⟩ [] [⟨b!"u", []⟩, ⟨b!"v", b!"p"⟩] [] []]

theorem demoTree_wf : Wf asciiTables [] demoTree := by
  refine Wf.node (ps := []) (own := [⟨b!"u", []⟩, ⟨b!"v", b!"p"⟩]) ?_ ?_ ?_ (.cons ?_ (.cons ?_ .nil))
  · intro d hd
    simp only [List.mem_cons, List.not_mem_nil, or_false] at hd
    rcases hd with rfl | rfl <;> exact ⟨⟨rfl, by decide⟩, by decide, by decide, by decide⟩
  · exact ⟨[], b!"r", ⟨by decide, by decide, by decide, by decide, by decide, by decide⟩, by decide, by decide, by decide⟩
  · intro a ha
    simp only [List.mem_cons, List.not_mem_nil, or_false] at ha
    subst ha
    exact ⟨⟨by decide, by decide, [], b!"k", ⟨by decide, by decide, by decide, by decide, by decide, by decide⟩,
      by decide, by decide, .inl ⟨rfl, rfl⟩⟩, ⟨rfl, by decide⟩⟩
  · refine Wf.leaf (ps := [⟨b!"u", []⟩, ⟨b!"v", b!"p"⟩]) (own := []) (pieces := [b!"te xt", b!"<!-- c -->"])
      (by simp) ?_ ?_ (.cons ?_ ?_ (.cons ?_ ?_ .nil))
    · exact ⟨b!"p", b!"c", ⟨by decide, by decide, by decide, by decide, by decide, by decide⟩, by decide, by decide, by decide⟩
    · intro a ha
      simp only [List.mem_cons, List.not_mem_nil, or_false] at ha
      subst ha
      exact ⟨⟨by decide, by decide, b!"p", b!"a", ⟨by decide, by decide, by decide, by decide, by decide, by decide⟩,
        by decide, by decide, .inr ⟨by decide, by decide⟩⟩, ⟨rfl, by decide⟩⟩
    · exact otherPiece_text (by decide) rfl (by decide)
    · intro t ht
      simp only [List.head?_cons, Option.mem_def, Option.some.injEq] at ht
      exact ⟨_, ht.symm⟩
    · exact otherPiece_comment (t := b!" c ") (by decide)
    · simp
  · exact Wf.leaf (ps := [⟨b!"u", []⟩, ⟨b!"v", b!"p"⟩]) (own := []) (pieces := [])
      (by simp) ⟨[], b!"d", ⟨by decide, by decide, by decide, by decide, by decide, by decide⟩, by decide, by decide, by decide⟩
      (by simp) .nil

theorem demoTree_sorted : SortedDecls [] demoTree :=
  .mk (ps := []) (own := [⟨b!"u", []⟩, ⟨b!"v", b!"p"⟩]) (by decide)
    (.cons (.mk (ps := [⟨b!"u", []⟩, ⟨b!"v", b!"p"⟩]) (own := []) .nil .nil)
      (.cons (.mk (ps := [⟨b!"u", []⟩, ⟨b!"v", b!"p"⟩]) (own := []) .nil .nil) .nil))

/-- The hypotheses of C14 hold for the example tree, and this is what is written for it. -/
example : marshal demoTree =
    b!"<r k=\"1\" xmlns=\"u\" xmlns:p=\"v\"><p:c p:a=\"2\">te xt<!-- c --></p:c><d /></r>" := by decide +kernel
example : ∃ el', parse asciiTables nsSorter (marshal demoTree) = .ok el' ∧ SameTree Eq demoTree el' :=
  C14_marshal_parse _ _ _ demoTree_wf demoTree_sorted (by decide)

/-! ### C15: attribute values that need escaping -/

/-- What `Parse` then `Marshal` then `Parse` gives. -/
def reparse (u : Unicode) (srt : Sorter nsLess) (doc : Str) : Except ParseErr Element :=
  match parse u srt doc with
  | .error e => .error e
  | .ok el => parse u srt (marshal el)

def attrValues : Except ParseErr Element → Option (List Str)
  | .error _ => none
  | .ok el => some (el.attrs.map Attr.value)

/-- C15 is false: attribute values are written without escaping. For each of the three characters
there is a document that parses, with the character in an attribute value, such that the output of
`Marshal` does not parse. -/
theorem C15_escaping_refuted :
    (attrValues (parse asciiTables nsSorter b!"<a k=\"&quot;\"/>") = some [b!"\""] ∧
      attrValues (reparse asciiTables nsSorter b!"<a k=\"&quot;\"/>") = none) ∧
    (attrValues (parse asciiTables nsSorter b!"<a k=\"&lt;\"/>") = some [b!"<"] ∧
      attrValues (reparse asciiTables nsSorter b!"<a k=\"&lt;\"/>") = none) ∧
    (attrValues (parse asciiTables nsSorter b!"<a k=\"&amp;\"/>") = some [b!"&"] ∧
      attrValues (reparse asciiTables nsSorter b!"<a k=\"&amp;\"/>") = none) := by
  decide +kernel

/-- Worse, the output may parse to different attributes: a value can inject an attribute. -/
theorem C15_injection_refuted :
    attrValues (parse asciiTables nsSorter b!"<a k=\"x&quot; j=&quot;y\"/>") = some [b!"x\" j=\"y"] ∧
    attrValues (reparse asciiTables nsSorter b!"<a k=\"x&quot; j=&quot;y\"/>") = some [b!"x", b!"y"] := by
  decide +kernel

/-- C15, partial: for values without the characters `"`, `<`, `&` and carriage return, every value
is kept, whatever it is otherwise. Missing: values with these characters, for which it is false
(`C15_escaping_refuted`). Here on one element with any list of attributes; `C14_marshal_parse`
covers whole trees. -/
theorem C15_escaping_partial (u : Unicode) (srt : Sorter nsLess) (name : XName) (attrs : List Attr)
    (hn : ElemNameOk u [] name)
    (ha : ∀ a ∈ attrs, AttrNameOk u [] a.name ∧ u.okText a.value = true ∧
      ∀ c ∈ a.value, c ≠ 34 ∧ c ≠ 60 ∧ c ≠ 38 ∧ c ≠ 13) :
    attrValues (parse u srt (marshal (.mk name attrs [] [] []))) = some (attrs.map Attr.value) := by
  have hw : Wf u [] (.mk name attrs [] [] []) :=
    Wf.leaf (ps := []) (own := []) (pieces := []) (by simp) hn ha .nil
  obtain ⟨el', h1, h2⟩ := C14_marshal_parse u srt _ hw (.mk (ps := []) (own := []) .nil .nil)
    (by simp [Element.height, elHeightL, recursionLimit])
  rw [h1]
  cases h2
  rfl

example : attrValues (parse asciiTables nsSorter (marshal (.mk ⟨[], b!"e"⟩ [⟨⟨[], b!"a"⟩, b!"x > 'y'"⟩] [] [] []))) =
    some [b!"x > 'y'"] := by decide +kernel

/-! ### C65: character data -/

/-- C65 is false: character data between child elements is not written. -/
theorem C65_mixed_content_refuted :
    (match parse asciiTables nsSorter b!"<a>x<b/>y</a>" with
      | .error _ => none
      | .ok el => some (el.content, marshal el)) = some (b!"x<b/>y", b!"<a><b /></a>") := by
  decide +kernel

/-- C65, partial: the content of an element without children is written verbatim, between its
tags. Missing: elements with children, for which only the children are written. -/
theorem C65_leaf_content_partial (e : Element) (hk : e.children = []) (hc : e.content ≠ []) :
    ∃ before after, marshal e = before ++ e.content ++ after ∧ before.head? = some 60 ∧
      before.getLast? = some 62 ∧ after = endText e.name e.scope := by
  obtain ⟨name, attrs, sc, content, kids⟩ := e
  simp only [Element.children] at hk
  simp only [Element.content] at hc
  subst hk
  refine ⟨startText name attrs sc content [] sc, endText name sc, ?_, ?_, ?_, rfl⟩
  · have h : content.isEmpty = false := by simpa using hc
    simp [marshal, encodeEl, recursionLimit, diffScope, encodeOpenTag, encodeCloseTag, h, Element.content]
  · simp [startText]
  · have h : content.isEmpty = false := by simpa using hc
    simp only [startText, h, Bool.and_false, Bool.false_eq_true, if_false, List.getLast?_append]
    simp

/-! ### C66: marshalling a part of a document -/

/-- C66 is false. In `<a xmlns:p="v"><b xmlns:p="u">...</b></a>`, `p` is `u` in the inner element.
Marshal writes both declarations on that element, and parsing its output resolves `p` to `v`. -/
theorem C66_subelement_refuted :
    (match parse asciiTables nsSorter b!"<a xmlns:p=\"v\"><b xmlns:p=\"u\">t</b></a>" with
      | .error _ => none
      | .ok el => match el.children with
        | [b] => some (resolve b.scope b!"p:x", marshal b,
            match parse asciiTables nsSorter (marshal b) with
            | .error _ => none
            | .ok b' => some (resolve b'.scope b!"p:x"))
        | _ => none) =
    some (⟨b!"u", b!"x"⟩, b!"<b xmlns:p=\"v\" xmlns:p=\"u\">t</b>", some ⟨b!"v", b!"x"⟩) := by
  decide +kernel

/-- C66, partial: if the scope of the marshalled element binds no prefix twice, the document
produced from it resolves every QName as the element did, and the same holds for all elements
below it (which may shadow prefixes). Missing: scopes in which the marshalled element shadows a
prefix, for which it is false. -/
theorem C66_subelement_partial (u : Unicode) (srt : Sorter nsLess) (el : Element) (hw : Wf u [] el)
    (hd : DistinctPrefixes [] el) (hh : el.height ≤ recursionLimit + 1) :
    ∃ el', parse u srt (marshal el) = .ok el' ∧
      SameTree (fun s s' => ∀ q, resolveNS s q = resolveNS s' q) el el' := by
  obtain ⟨el', h1, h2⟩ := parse_marshal u srt el hw hh
  exact ⟨el', h1, re_resolves h2 (fun _ => rfl) hd⟩

theorem demoTree_distinct : DistinctPrefixes [] demoTree :=
  .mk (ps := []) (own := [⟨b!"u", []⟩, ⟨b!"v", b!"p"⟩]) (by decide)
    (.cons (.mk (ps := [⟨b!"u", []⟩, ⟨b!"v", b!"p"⟩]) (own := []) (by simp) .nil)
      (.cons (.mk (ps := [⟨b!"u", []⟩, ⟨b!"v", b!"p"⟩]) (own := []) (by simp) .nil) .nil))

example : ∃ el', parse asciiTables nsSorter (marshal demoTree) = .ok el' ∧
    SameTree (fun s s' => ∀ q, resolveNS s q = resolveNS s' q) demoTree el' :=
  C66_subelement_partial _ _ _ demoTree_wf demoTree_distinct (by decide)

/-! ### C16: MarshalIndent -/

/-- C16 is false: the prefix is ignored. The documentation says that each line begins with it. -/
theorem C16_prefix_refuted (el : Element) (pre indent : Str) :
    marshalIndent el pre indent = marshalIndent el [] indent ∧
    ¬ (b!">>").isPrefixOf (marshalIndent (.mk ⟨[], b!"a"⟩ [] [] [] []) b!">>" b!"  ") := by
  refine ⟨?_, by decide⟩
  have key : (∀ (el : Element) (parent : Option Scope) (d : Nat),
      encodeEl ⟨pre, indent, true⟩ parent d el = encodeEl ⟨[], indent, true⟩ parent d el) := by
    intro el
    induction el using Element.rec (motive_2 := fun ks => ∀ (ps : Scope) (d : Nat),
        encodeKids ⟨pre, indent, true⟩ ps d ks = encodeKids ⟨[], indent, true⟩ ps d ks) with
    | mk name attrs sc content kids ih =>
      intro parent d
      simp only [encodeEl, ih, encodeOpenTag, encodeCloseTag]
    | nil => rfl
    | cons k ks ih1 ih2 => simp only [encodeKids, ih1, ih2]
  exact key el none 0

mutual
/-- The lines of an element nested at depth `d`, each with its depth: an element without children
is one line, an element with children has a line for its start tag, the lines of its children one
level deeper, and a line for its end tag. Elements beyond the nesting limit have no lines. -/
inductive Lines : Nat → Element → List (Nat × Str) → Prop
  | none {d : Nat} {e : Element} : d > recursionLimit → Lines d e []
  | leaf {d : Nat} {e : Element} {t : Str} : d ≤ recursionLimit → e.children = [] → t.head? = some 60 →
      Lines d e [(d, t)]
  | node {d : Nat} {e : Element} {t t' : Str} {ls : List (Nat × Str)} : d ≤ recursionLimit → e.children ≠ [] →
      t.head? = some 60 → (b!"</").isPrefixOf t' → LinesL (d + 1) e.children ls →
      Lines d e ((d, t) :: (ls ++ [(d, t')]))
inductive LinesL : Nat → List Element → List (Nat × Str) → Prop
  | nil {d : Nat} : LinesL d [] []
  | cons {d : Nat} {e : Element} {es : List Element} {l ls : List (Nat × Str)} :
      Lines d e l → LinesL d es ls → LinesL d (e :: es) (l ++ ls)
end

theorem repeatStr_replicate (s : Str) (n : Nat) : repeatStr s n = (List.replicate n s).flatten := by
  induction n with
  | zero => rfl
  | succ n ih => simp [repeatStr, ih, List.replicate_succ]

theorem lines_exist (pre indent : Str) (el : Element) : ∀ (parent : Option Scope) (d : Nat),
    ∃ ls, Lines d el ls ∧ encodeEl ⟨[], [], false⟩ parent d el = (ls.map (·.2)).flatten ∧
      encodeEl ⟨pre, indent, true⟩ parent d el = (ls.map fun l => (List.replicate l.1 indent).flatten ++ l.2 ++ b!"\n").flatten := by
  induction el using Element.rec (motive_2 := fun ks => ∀ (ps : Scope) (d : Nat),
    ∃ ls, LinesL d ks ls ∧ encodeKids ⟨[], [], false⟩ ps d ks = (ls.map (·.2)).flatten ∧
      encodeKids ⟨pre, indent, true⟩ ps d ks = (ls.map fun l => (List.replicate l.1 indent).flatten ++ l.2 ++ b!"\n").flatten) with
  | mk name attrs sc content kids ih =>
    intro parent d
    by_cases hd : d > recursionLimit
    · exact ⟨[], .none hd, by simp [encodeEl, hd], by simp [encodeEl, hd]⟩
    · cases kids with
      | nil =>
        by_cases hc : content = []
        · subst hc
          refine ⟨[(d, startText name attrs sc [] [] (diffScope parent sc))], .leaf (by omega) rfl ?_, ?_, ?_⟩
          · simp [startText]
          · simp [encodeEl, hd, encodeOpenTag, repeatStr_replicate]
          · simp [encodeEl, hd, encodeOpenTag, repeatStr_replicate]
        · refine ⟨[(d, startText name attrs sc content [] (diffScope parent sc) ++ content ++ endText name sc)],
            .leaf (by omega) rfl ?_, ?_, ?_⟩
          · simp [startText]
          · simp [encodeEl, hd, encodeOpenTag, encodeCloseTag, repeatStr_replicate, hc]
          · simp [encodeEl, hd, encodeOpenTag, encodeCloseTag, repeatStr_replicate, hc]
      | cons k ks =>
        obtain ⟨ls, h1, h2, h3⟩ := ih sc (d + 1)
        refine ⟨_, .node (t := startText name attrs sc content (k :: ks) (diffScope parent sc))
          (t' := endText name sc) (by omega) (by simp [Element.children]) ?_ ?_ h1, ?_, ?_⟩
        · simp [startText]
        · simp [endText]
        · simp [encodeEl, hd, encodeOpenTag, encodeCloseTag, repeatStr_replicate, h2]
        · simp [encodeEl, hd, encodeOpenTag, encodeCloseTag, repeatStr_replicate, h3]
  | nil => exact ⟨[], .nil, rfl, rfl⟩
  | cons k ks ih1 ih2 =>
    rename_i ps d
    obtain ⟨l, a1, a2, a3⟩ := ih1 (some ps) d
    obtain ⟨ls, b1, b2, b3⟩ := ih2 ps d
    exact ⟨l ++ ls, .cons a1 b1, by simp [encodeKids, a2, b2], by simp [encodeKids, a3, b3]⟩

/-- C16, partial: `MarshalIndent` writes what `Marshal` writes, cut before tags into lines, each
preceded by as many copies of the indent string as the element is deep and followed by a newline.
Missing: the prefix, which is not written (`C16_prefix_refuted`). -/
theorem C16_layout_partial (el : Element) (pre indent : Str) :
    ∃ ls, Lines 0 el ls ∧ marshal el = (ls.map (·.2)).flatten ∧
      marshalIndent el pre indent = (ls.map fun l => (List.replicate l.1 indent).flatten ++ l.2 ++ b!"\n").flatten :=
  lines_exist pre indent el none 0

example : marshalIndent demoTree [] b!"  " =
    b!"<r k=\"1\" xmlns=\"u\" xmlns:p=\"v\">\n  <p:c p:a=\"2\">te xt<!-- c --></p:c>\n  <d />\n</r>\n" := by
  decide +kernel

end GoXml
