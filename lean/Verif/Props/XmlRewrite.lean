import Verif.Proofs.Rewrite
import Verif.Props.XmlSource
set_option autoImplicit false

/-! Property C130: documents that are read, written and read again. -/

namespace GoXml

open Lex

/-- C130. A document that is read, written by `Marshal` and read again keeps its elements: names, namespaces, attributes, values, prefixes, and the
content of elements without children. The full property has no `Rewritable`; see the refutations below. -/
theorem C130_rewrite_partial (u : Unicode) (srt : Sorter nsLess) (d : SrcDoc) (h : d.Wf u) (hd : d.root.depth ≤ 3001) (hr : Rewritable u [] d.root)
    (more : Str) :
    ∃ el el', parse u srt (d.bytes ++ more) = .ok el ∧ Means [] d.root el ∧ parse u srt (marshal el) = .ok el' ∧ SameTree List.Perm el el' := by
  obtain ⟨el, h1, h2⟩ := parse_source_mirrors u srt d h hd more
  have hw := mirrors_wf (fun _ h => by simp at h) bound_nil bound_nil (fun _ h => by simp at h) d.root el h.root h.element hr h2
  have hh : el.height ≤ recursionLimit + 1 := by
    rw [mirrors_height h2, node_height]
    exact hd
  obtain ⟨el', h3, h4⟩ := C14_marshal_parse_perm u srt el hw hh
  exact ⟨el, el', h1, mirrors_means (fun _ h => by simp at h) bound_nil bound_nil d.root el h.root h.element h2, h3, h4⟩

/-- The attributes of the root of the following document. -/
def listAttrs : List SrcAttr :=
  [⟨b!" ", b!"xmlns", b!"o", [], [], 39, b!"urn:o", b!"urn:o"⟩, ⟨b!"\n", [], b!"xmlns", [], [], 34, b!"urn:d", b!"urn:d"⟩,
    ⟨b!" ", b!"o", b!"at", [], [], 34, b!"x'y&gt;", b!"x'y>"⟩]

/-- The attributes of its last element. -/
def subAttrs : List SrcAttr :=
  [⟨b!" ", [], b!"xmlns", [], [], 34, b!"urn:e", b!"urn:e"⟩, ⟨b!" ", b!"o", b!"k", [], [], 34, b!"v", b!"v"⟩,
    ⟨b!" ", b!"xml", b!"lang", [], [], 34, b!"en", b!"en"⟩]

/-- A document in which the default namespace changes. -/
def listDoc : SrcDoc where
  prolog := [.comment b!" hi "]
  root := .elem b!"o" b!"list" listAttrs b!" "
    [.elem [] b!"item" [] [] [.cdata b!"a<b", .text b!" &lt;c ", .comment b!" d "] [], .text b!"\r\n", .empty [] b!"sub" subAttrs []] b!" "

example : listDoc.bytes = b!"<!-- hi --><o:list xmlns:o='urn:o'\nxmlns=\"urn:d\" o:at=\"x'y&gt;\" ><item><![CDATA[a<b]]> &lt;c <!-- d --></item>\r\n<sub xmlns=\"urn:e\" o:k=\"v\" xml:lang=\"en\"/></o:list >" := by
  decide +kernel

theorem listDoc_wf : listDoc.Wf asciiTables := by
  have root : TagWf asciiTables [] b!"o" b!"list" listAttrs b!" " := {
    name := ⟨.inr (ncName_ascii (by decide)), ncName_ascii (by decide), by decide⟩
    element := ⟨by decide, by decide, b!"urn:o", .inl (.inr ⟨by decide, .inl ⟨⟨⟨b!"xmlns", b!"o"⟩, b!"urn:o"⟩, by decide, rfl, .inl rfl⟩⟩)⟩
    each := by
      intro a ha
      simp only [listAttrs, List.mem_cons, List.not_mem_nil, or_false] at ha
      rcases ha with rfl | rfl | rfl
      · exact ⟨⟨by unfold White; decide, by decide⟩, ⟨.inr (ncName_ascii (by decide)), ncName_ascii (by decide), by decide⟩, by unfold White; decide,
          by unfold White; decide, by decide, by decodes, by decide⟩
      · exact ⟨⟨by unfold White; decide, by decide⟩, ⟨.inl rfl, ncName_ascii (by decide), by decide⟩, by unfold White; decide,
          by unfold White; decide, by decide, by decodes, by decide⟩
      · exact ⟨⟨by unfold White; decide, by decide⟩, ⟨.inr (ncName_ascii (by decide)), ncName_ascii (by decide), by decide⟩, by unfold White; decide,
          by unfold White; decide, by decide, by decodes, by decide⟩
    spaces := by
      intro a ha hd
      simp only [listAttrs, List.mem_cons, List.not_mem_nil, or_false] at ha
      rcases ha with rfl | rfl | rfl
      · exact absurd hd (by decide)
      · exact absurd hd (by decide)
      · exact ⟨b!"urn:o", .inr ⟨by decide, .inr ⟨by decide, .inl ⟨⟨⟨b!"xmlns", b!"o"⟩, b!"urn:o"⟩, by decide, rfl, .inl rfl⟩⟩⟩⟩
    declarations := by
      refine ⟨?_, by decide, by decide⟩
      intro a ha b hb p n m hn hm
      simp only [listAttrs, SrcAttr.toAttr, List.map_cons, List.map_nil, List.mem_cons, List.not_mem_nil, or_false] at ha hb
      rcases ha with rfl | rfl | rfl <;> rcases hb with rfl | rfl | rfl <;> first | exact hn.1.symm.trans hm.1 | simp_all [DeclAttr]
    reserved := by decide
    trailing := by unfold White; decide }
  have item : TagWf asciiTables [listAttrs.map SrcAttr.toAttr] [] b!"item" [] [] := {
    name := ⟨.inl rfl, ncName_ascii (by decide), by decide⟩
    element := ⟨by decide, by decide, b!"urn:d", .inl (.inr ⟨by decide, .inr ⟨by simp, .inl ⟨⟨⟨[], b!"xmlns"⟩, b!"urn:d"⟩, by decide, rfl, .inr ⟨rfl, rfl⟩⟩⟩⟩)⟩
    each := by simp
    spaces := by simp
    declarations := by simp [TagOk]
    reserved := by simp
    trailing := by simp [White] }
  have sub : TagWf asciiTables [listAttrs.map SrcAttr.toAttr] [] b!"sub" subAttrs [] := {
    name := ⟨.inl rfl, ncName_ascii (by decide), by decide⟩
    element := ⟨by decide, by decide, b!"urn:e", .inl (.inr ⟨by decide, .inl ⟨⟨⟨[], b!"xmlns"⟩, b!"urn:e"⟩, by decide, rfl, .inr ⟨rfl, rfl⟩⟩⟩)⟩
    each := by
      intro a ha
      simp only [subAttrs, List.mem_cons, List.not_mem_nil, or_false] at ha
      rcases ha with rfl | rfl | rfl
      · exact ⟨⟨by unfold White; decide, by decide⟩, ⟨.inl rfl, ncName_ascii (by decide), by decide⟩, by unfold White; decide,
          by unfold White; decide, by decide, by decodes, by decide⟩
      · exact ⟨⟨by unfold White; decide, by decide⟩, ⟨.inr (ncName_ascii (by decide)), ncName_ascii (by decide), by decide⟩, by unfold White; decide,
          by unfold White; decide, by decide, by decodes, by decide⟩
      · exact ⟨⟨by unfold White; decide, by decide⟩, ⟨.inr (ncName_ascii (by decide)), ncName_ascii (by decide), by decide⟩, by unfold White; decide,
          by unfold White; decide, by decide, by decodes, by decide⟩
    spaces := by
      intro a ha hd
      simp only [subAttrs, List.mem_cons, List.not_mem_nil, or_false] at ha
      rcases ha with rfl | rfl | rfl
      · exact absurd hd (by decide)
      · refine ⟨b!"urn:o", .inr ⟨by decide, .inr ⟨by decide, .inr ⟨?_, .inl ⟨⟨⟨b!"xmlns", b!"o"⟩, b!"urn:o"⟩, by decide, rfl, .inl rfl⟩⟩⟩⟩⟩
        simp [subAttrs, SrcAttr.toAttr, DeclAttr]
      · exact ⟨_, .inr ⟨by decide, .inl ⟨rfl, rfl⟩⟩⟩
    declarations := by
      refine ⟨?_, by decide, by decide⟩
      intro a ha b hb p n m hn hm
      simp only [subAttrs, SrcAttr.toAttr, List.map_cons, List.map_nil, List.mem_cons, List.not_mem_nil, or_false] at ha hb
      rcases ha with rfl | rfl | rfl <;> rcases hb with rfl | rfl | rfl <;> first | exact hn.1.symm.trans hm.1 | simp_all [DeclAttr]
    reserved := by decide
    trailing := by simp [White] }
  refine ⟨.cons (.comment (by decide)) .nil (by decide), by decide, .elem root (.cons (.elem item (.cons ?_ (.cons ?_ (.cons ?_ .nil ?_) ?_) ?_) ?_)
    (.cons ?_ (.cons (.empty sub) .nil ?_) ?_) ?_) ?_, rfl⟩
  · exact .cdata (by decide) rfl
  · exact .text (v := b!" <c ") (by decide) (by decodes) rfl (by decide)
  · exact .comment (by decide)
  · decide
  · decide
  · decide
  · simp [White]
  · exact .text (v := b!"\n") (by decide) (by decodes) rfl (by decide)
  · decide
  · decide
  · decide
  · unfold White; decide

theorem nearest_unique {p v w : Str} : ∀ {chain : List (List Attr)}, (∀ as ∈ chain, TagOk as) → Nearest p v chain → Nearest p w chain → v = w
  | as :: _, ok, .inl ⟨a, ha, h⟩, .inl ⟨b, hb, h'⟩ => (ok as (by simp)).1 a ha b hb p v w h h'
  | _ :: _, _, .inl ⟨a, ha, h⟩, .inr ⟨hn, _⟩ => absurd h (hn a ha v)
  | _ :: _, _, .inr ⟨hn, _⟩, .inl ⟨b, hb, h'⟩ => absurd h' (hn b hb w)
  | _ :: _, ok, .inr ⟨_, h⟩, .inr ⟨_, h'⟩ => nearest_unique (fun as h => ok as (by simp [h])) h h'

theorem binds_unique {p v w : Str} {chain : List (List Attr)} (ok : ∀ as ∈ chain, TagOk as) (hv : Binds chain p v) (hw : Binds chain p w) : v = w := by
  rcases hv with ⟨h, rfl⟩ | ⟨h, hv⟩ <;> rcases hw with ⟨h', rfl⟩ | ⟨h', hw⟩
  · rfl
  · exact absurd h h'
  · exact absurd h' h
  · exact nearest_unique ok hv hw

/-- The prefixes of a namespace with one declaration last. -/
theorem lasting_one {u : Unicode} {chain : List (List Attr)} {q ns loc : Str}
    (hns : ns ∉ [[], b!"http://www.w3.org/XML/1998/namespace", b!"http://www.w3.org/2000/xmlns/"])
    (h : ∀ as ∈ chain, ∀ a ∈ as, a.value = ns → a.name = ⟨b!"xmlns", q⟩ ∨ (a.name = ⟨[], b!"xmlns"⟩ ∧ q = []))
    (hb : Binds chain q ns) (hq : QualName u q loc) (hx : q ≠ b!"xmlns" ∧ (q = [] → loc ≠ b!"xmlns")) :
    Lasting u chain ns loc ∧ (q ≠ [] → NeverDefault chain ns) := by
  have key : ∀ as ∈ chain, ∀ a ∈ as, ∀ q', DeclAttr a q' ns → q' = q := by
    rintro as has a ha q' ⟨hv, hd⟩
    rcases h as has a ha hv with e | ⟨e, hq0⟩ <;> rcases hd with hd | ⟨hd, rfl⟩ <;> rw [e] at hd <;> simp_all
  refine ⟨⟨hns, fun as has a ha q' hd => ?_⟩, fun hne as has a ha hd => hne (key as has a ha [] hd).symm⟩
  rw [key as has a ha q' hd]
  exact ⟨hb, hq, hx⟩

theorem listDoc_rewritable : Rewritable asciiTables [] listDoc.root := by
  have ok1 : TagOk (listAttrs.map SrcAttr.toAttr) := by
    cases listDoc_wf.root with
    | elem h _ _ => exact h.declarations
  have ok2 : TagOk (subAttrs.map SrcAttr.toAttr) := by
    cases listDoc_wf.root with
    | elem _ h _ =>
      cases h with
      | cons _ h _ =>
        cases h with
        | cons _ h _ =>
          cases h with
          | cons h _ _ =>
            cases h with
            | empty h => exact h.declarations
  have o1 : Binds [listAttrs.map SrcAttr.toAttr] b!"o" b!"urn:o" := .inr ⟨by decide, .inl ⟨⟨⟨b!"xmlns", b!"o"⟩, b!"urn:o"⟩, by decide, rfl, .inl rfl⟩⟩
  have d1 : Nearest [] b!"urn:d" [[], listAttrs.map SrcAttr.toAttr] :=
    .inr ⟨by simp, .inl ⟨⟨⟨[], b!"xmlns"⟩, b!"urn:d"⟩, by decide, rfl, .inr ⟨rfl, rfl⟩⟩⟩
  have e1 : Nearest [] b!"urn:e" [subAttrs.map SrcAttr.toAttr, listAttrs.map SrcAttr.toAttr] :=
    .inl ⟨⟨⟨[], b!"xmlns"⟩, b!"urn:e"⟩, by decide, rfl, .inr ⟨rfl, rfl⟩⟩
  have o2 : Binds [subAttrs.map SrcAttr.toAttr, listAttrs.map SrcAttr.toAttr] b!"o" b!"urn:o" := by
    refine .inr ⟨by decide, .inr ⟨?_, .inl ⟨⟨⟨b!"xmlns", b!"o"⟩, b!"urn:o"⟩, by decide, rfl, .inl rfl⟩⟩⟩
    simp [subAttrs, SrcAttr.toAttr, DeclAttr]
  refine .elem ⟨?_, ?_, by decide⟩ ?_
  · intro ns h
    rcases h with h | ⟨h, _⟩
    · cases binds_unique (by simpa using ok1) h o1
      exact .inr (.inr (lasting_one (q := b!"o") (by decide) (by decide) o1 ⟨.inr (ncName_ascii (by decide)), ncName_ascii (by decide), by decide⟩ (by decide)).1)
    · cases h
  · intro a ha hd ns h
    simp only [listAttrs, List.mem_cons, List.not_mem_nil, or_false] at ha
    rcases ha with rfl | rfl | rfl
    · exact absurd hd (by decide)
    · exact absurd hd (by decide)
    · rcases h with ⟨h, _⟩ | ⟨_, h⟩
      · cases h
      · cases binds_unique (by simpa using ok1) h o1
        have := lasting_one (u := asciiTables) (loc := b!"at") (q := b!"o") (by decide) (by decide) o1
          ⟨.inr (ncName_ascii (by decide)), ncName_ascii (by decide), by decide⟩ (by decide)
        exact .inr (.inr ⟨this.1, this.2 (by decide)⟩)
  · intro k hk
    simp only [List.mem_cons, List.not_mem_nil, or_false] at hk
    rcases hk with rfl | rfl | rfl
    · refine .elem ⟨?_, by simp, by simp⟩ ?_
      · intro ns h
        rcases h with h | ⟨_, _, h⟩
        · cases binds_unique (by simpa [TagOk] using ok1) h (.inr ⟨by decide, d1⟩)
          exact .inr (.inr (lasting_one (q := []) (by decide) (by decide) (.inr ⟨by decide, d1⟩) ⟨.inl rfl, ncName_ascii (by decide), by decide⟩ (by decide)).1)
        · exact absurd d1 (h _)
      · intro k hk
        simp only [List.mem_cons, List.not_mem_nil, or_false] at hk
        rcases hk with rfl | rfl | rfl <;> exact .misc rfl
    · exact .misc rfl
    · refine .empty ⟨?_, ?_, by decide⟩
      · intro ns h
        rcases h with h | ⟨_, _, h⟩
        · cases binds_unique (by simpa using ⟨ok2, ok1⟩) h (.inr ⟨by decide, e1⟩)
          exact .inr (.inr (lasting_one (q := []) (by decide) (by decide) (.inr ⟨by decide, e1⟩) ⟨.inl rfl, ncName_ascii (by decide), by decide⟩ (by decide)).1)
        · exact absurd e1 (h _)
      · intro a ha hd ns h
        simp only [subAttrs, List.mem_cons, List.not_mem_nil, or_false] at ha
        rcases ha with rfl | rfl | rfl
        · exact absurd hd (by decide)
        · rcases h with ⟨h, _⟩ | ⟨_, h⟩
          · cases h
          · cases binds_unique (by simpa using ⟨ok2, ok1⟩) h o2
            have := lasting_one (u := asciiTables) (loc := b!"k") (q := b!"o") (by decide) (by decide) o2
              ⟨.inr (ncName_ascii (by decide)), ncName_ascii (by decide), by decide⟩ (by decide)
            exact .inr (.inr ⟨this.1, this.2 (by decide)⟩)
        · exact .inl rfl

example (more : Str) : ∃ el el', parse asciiTables nsSorter (listDoc.bytes ++ more) = .ok el ∧ Means [] listDoc.root el ∧
    parse asciiTables nsSorter (marshal el) = .ok el' ∧ SameTree List.Perm el el' :=
  C130_rewrite_partial _ _ _ listDoc_wf (by decide +kernel) listDoc_rewritable more

/-- The root and its children without their content, after reading, and after reading, writing and reading. -/
def tags : Except ParseErr Element → Option (List (XName × List Attr))
  | .error _ => none
  | .ok el => some ((el.name, el.attrs) :: el.children.map fun k => (k.name, k.attrs))

def rewritten (doc : Str) : Option (List (XName × List Attr)) :=
  match parse asciiTables nsSorter doc with
  | .error _ => none
  | .ok el => tags (parse asciiTables nsSorter (marshal el))

/-- C130 is false where a namespace is the default one and has a prefix as well: the attribute loses its namespace. -/
theorem C130_default_refuted :
    tags (parse asciiTables nsSorter b!"<a xmlns=\"u\" xmlns:p=\"u\" p:k=\"1\"/>") = some [(⟨b!"u", b!"a"⟩, [⟨⟨b!"u", b!"k"⟩, b!"1"⟩])] ∧
    rewritten b!"<a xmlns=\"u\" xmlns:p=\"u\" p:k=\"1\"/>" = some [(⟨b!"u", b!"a"⟩, [⟨⟨[], b!"k"⟩, b!"1"⟩])] := by
  decide +kernel

/-- C130 is false where one of two prefixes of a namespace is declared again: the element or attribute moves to the other namespace. -/
theorem C130_shadow_refuted :
    tags (parse asciiTables nsSorter b!"<r xmlns:p=\"v\" xmlns:q=\"v\"><p:x xmlns:q=\"w\" p:k=\"1\"/></r>") =
      some [(⟨[], b!"r"⟩, []), (⟨b!"v", b!"x"⟩, [⟨⟨b!"v", b!"k"⟩, b!"1"⟩])] ∧
    rewritten b!"<r xmlns:p=\"v\" xmlns:q=\"v\"><p:x xmlns:q=\"w\" p:k=\"1\"/></r>" =
      some [(⟨[], b!"r"⟩, []), (⟨b!"w", b!"x"⟩, [⟨⟨b!"w", b!"k"⟩, b!"1"⟩])] := by
  decide +kernel

/-- C130 is false for attribute values with double quotes: what is written is no XML. -/
theorem C130_quote_refuted :
    tags (parse asciiTables nsSorter b!"<a k='\"'/>") = some [(⟨[], b!"a"⟩, [⟨⟨[], b!"k"⟩, b!"\""⟩])] ∧ rewritten b!"<a k='\"'/>" = none := by
  decide +kernel

/-- C130 is false for carriage returns in attribute values, which are read as line ends. -/
theorem C130_return_refuted :
    tags (parse asciiTables nsSorter b!"<a k='&#13;'/>") = some [(⟨[], b!"a"⟩, [⟨⟨[], b!"k"⟩, b!"\r"⟩])] ∧
    rewritten b!"<a k='&#13;'/>" = some [(⟨[], b!"a"⟩, [⟨⟨[], b!"k"⟩, b!"\n"⟩])] := by
  decide +kernel

end GoXml
