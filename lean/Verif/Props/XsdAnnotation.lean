import Verif.Proofs.XsdAnnotation
import Verif.Props.XmlMarshal
import Verif.Props.XmlSource
set_option autoImplicit false

/-! C103: the documentation in an annotation. -/

namespace GoXml.Xsd
open Lex

/-- C103, partial: of the children of an annotation, the `documentation` elements before the first
other element are joined by blank lines, if they contain no elements; the text of each is its character data, with references replaced
and without comments. Missing: `documentation` elements
after another element such as `appinfo`, and text beside markup in a `documentation` element; both are
lost (see the `_refuted` theorems). The full statement is `C103_all`. -/
theorem C103_docs_partial (u : Unicode) (srt : Sorter nsLess) (el : Element) (ds rest : List Element) (texts : List Str) (hw : Wf u [] el)
    (hh : el.height ≤ 3001) (hs : el.children = ds ++ rest) (hd : List.Forall₂ (fun d t => IsDoc d ∧ HasText u d t) ds texts)
    (hr : ∀ e ∈ rest.head?, ¬ IsDoc e) : ∃ doc, parseAnnotation u el = some doc ∧ JoinedDocs texts doc :=
  parseAnnotation_docs u srt el ds rest texts hw hh hs hd hr

/-- C103 in full: every `documentation` child counts. -/
def C103_all : Prop := ∀ (u : Unicode) (el : Element) (texts : List Str), Wf u [] el → el.height ≤ 3001 →
  List.Forall₂ (HasText u) (el.children.filter fun e => decide (e.name = ⟨w3cSchemaNS, b!"documentation"⟩)) texts →
  ∃ doc, parseAnnotation u el = some doc ∧ JoinedDocs texts doc

/-- A text with a reference, a CDATA section with a line end of two bytes, and a comment. -/
def C103_src : List Src := [.text b!" a &lt; b", .cdata b!"<c>\x0d\n&amp;", .comment b!" x ", .text b!"\n"]

/-- An annotation with two `documentation` elements, one with the content of `C103_src`; another element in front if `app`. -/
def C103_el (app : Bool) : Element :=
  let sc : Scope := [⟨w3cSchemaNS, []⟩]
  let x (loc content : Str) (ks : List Element) : Element := .mk ⟨w3cSchemaNS, loc⟩ [] sc content ks
  x b!"annotation" [] ((if app then [x b!"appinfo" b!"q" []] else []) ++
    [x b!"documentation" (srcBytes C103_src) [], x b!"documentation" b!"b" []])

theorem C103_srcWf : SrcsWf asciiTables [] C103_src := by
  refine .cons (.text (v := b!" a < b") (by decide) ?_ rfl (by decide)) (.cons (.cdata (by decide) rfl) (.cons (.comment (by decide))
    (.cons (.text (v := b!"\n") (by decide) (by decodes) rfl (by decide)) .nil (by decide)) (by decide)) (by decide)) (by decide)
  decodes

theorem C103_pieces : List.Forall₂ PieceText C103_src [b!" a < b", b!"<c>\n&amp;", [], b!"\n"] := by
  refine .cons (.text (by decodes)) (.cons (.cdata ?_) (.cons .comment (.cons (.text (by decodes)) .nil)))
  exact .char (by decide) (by decide) (.char (by decide) (by decide) (.char (by decide) (by decide) (.cr (.crlf (.char (by decide) (by decide)
    (.char (by decide) (by decide) (.char (by decide) (by decide) (.char (by decide) (by decide) (.char (by decide) (by decide) .nil)))))))))

theorem C103_text1 (sc : Scope) : HasText asciiTables (.mk ⟨w3cSchemaNS, b!"documentation"⟩ [] sc (srcBytes C103_src) [])
    b!" a < b<c>\n&amp;\n" :=
  ⟨rfl, C103_src, _, C103_srcWf, rfl, C103_pieces, rfl⟩

theorem C103_text2 (sc : Scope) : HasText asciiTables (.mk ⟨w3cSchemaNS, b!"documentation"⟩ [] sc b!"b" []) b!"b" :=
  ⟨rfl, [.text b!"b"], [b!"b"], .cons (.text (v := b!"b") (by decide) (by decodes) rfl (by decide)) .nil (by decide), rfl,
    .cons (.text (by decodes)) .nil, rfl⟩

theorem C103_leaf (loc : Str) (t : Str) (hq : ElemNameOk asciiTables ([⟨w3cSchemaNS, []⟩] ++ []) ⟨w3cSchemaNS, loc⟩)
    (hm : OtherPiece asciiTables t) :
    Wf asciiTables [⟨w3cSchemaNS, []⟩] (.mk ⟨w3cSchemaNS, loc⟩ [] [⟨w3cSchemaNS, []⟩] t []) := by
  have := Wf.leaf (u := asciiTables) (ps := [⟨w3cSchemaNS, []⟩]) (own := []) (name := ⟨w3cSchemaNS, loc⟩) (attrs := [])
    (pieces := [t]) (by simp) hq (by simp) (.cons hm (by simp) .nil)
  simpa using this

theorem C103_wf (app : Bool) : Wf asciiTables [] (C103_el app) := by
  have hd : ∀ d ∈ ([⟨w3cSchemaNS, []⟩] : Scope), DeclOk asciiTables d := by
    intro d hd
    simp only [List.mem_cons, List.not_mem_nil, or_false] at hd
    subst hd
    exact ⟨⟨rfl, by decide⟩, by decide, by decide, by decide⟩
  have h1 : Wf asciiTables [⟨w3cSchemaNS, []⟩] (.mk ⟨w3cSchemaNS, b!"documentation"⟩ [] [⟨w3cSchemaNS, []⟩] (srcBytes C103_src) []) := by
    have := Wf.leaf (u := asciiTables) (ps := [⟨w3cSchemaNS, []⟩]) (own := []) (name := ⟨w3cSchemaNS, b!"documentation"⟩) (attrs := [])
      (pieces := C103_src.map Src.bytes) (by simp)
      ⟨[], b!"documentation", ⟨by decide, by decide, by decide, by decide, by decide, by decide⟩, by decide, by decide, by decide⟩ (by simp)
      (srcs_misc C103_srcWf (by decide))
    rw [srcBytes_flatten] at this
    simpa using this
  have h2 := C103_leaf b!"documentation" b!"b"
    ⟨[], b!"documentation", ⟨by decide, by decide, by decide, by decide, by decide, by decide⟩, by decide, by decide, by decide⟩
    (otherPiece_text (by decide) rfl (by decide))
  have h3 := C103_leaf b!"appinfo" b!"q"
    ⟨[], b!"appinfo", ⟨by decide, by decide, by decide, by decide, by decide, by decide⟩, by decide, by decide, by decide⟩
    (otherPiece_text (by decide) rfl (by decide))
  have hn : ElemNameOk asciiTables ([] ++ [⟨w3cSchemaNS, []⟩]) ⟨w3cSchemaNS, b!"annotation"⟩ :=
    ⟨[], b!"annotation", ⟨by decide, by decide, by decide, by decide, by decide, by decide⟩, by decide, by decide, by decide⟩
  cases app
  · exact Wf.node (ps := []) (own := [⟨w3cSchemaNS, []⟩]) hd hn (by simp) (.cons h1 (.cons h2 .nil))
  · exact Wf.node (ps := []) (own := [⟨w3cSchemaNS, []⟩]) hd hn (by simp) (.cons h3 (.cons h1 (.cons h2 .nil)))

/-- The hypotheses of `C103_docs_partial` hold for an annotation with two documentation elements. -/
example : parseAnnotation asciiTables (C103_el false) = some b!"a < b<c>\n&amp;\n\nb" := by decide +kernel
example : ∃ doc, parseAnnotation asciiTables (C103_el false) = some doc ∧ JoinedDocs [b!" a < b<c>\n&amp;\n", b!"b"] doc :=
  C103_docs_partial _ nsSorter _ (C103_el false).children [] _ (C103_wf false) (by decide) (by simp)
    (.cons ⟨rfl, C103_text1 _⟩ (.cons ⟨rfl, C103_text2 _⟩ .nil)) (by simp)

/-- C103 is false: an `appinfo` element hides the documentation that follows it in the same
annotation. The loop skips the element and then decodes the rest of the annotation as its content. -/
theorem C103_docs_refuted : ¬ C103_all := by
  intro h
  obtain ⟨doc, h1, texts, h2, h4⟩ := h asciiTables (C103_el true) _ (C103_wf true) (by decide)
    (.cons (C103_text1 _) (.cons (C103_text2 _) .nil))
  have h0 : parseAnnotation asciiTables (C103_el true) = some [] := by decide +kernel
  rw [h0] at h1
  obtain rfl := Option.some.inj h1
  match texts, h2 with
  | [t1, t2], .cons _ (.cons ht .nil) =>
    have hb : t2 = b!"b" := Gen.trimmedTo_unique ht (Gen.trimSpace_spec b!"b")
    obtain ⟨a, b, e, ha, hb', _⟩ := h4
    have hm : (98 : UInt8) ∈ a ++ [] ++ b := by
      rw [← e, hb]; simp [List.intercalate]
    simp only [List.append_nil, List.mem_append] at hm
    rcases hm with hm | hm
    · exact absurd (ha _ hm) (by decide)
    · exact absurd (hb' _ hm) (by decide)

/-- C103 does not extend to documentation with markup: as soon as a `documentation` element contains
an element, all of its text is lost, because `Marshal` writes only the children of such an element. -/
theorem C103_markup_refuted :
    (match parse asciiTables nsSorter
        b!"<annotation xmlns=\"http://www.w3.org/2001/XMLSchema\"><documentation>The <b>price</b> in cents.</documentation></annotation>" with
      | .error _ => none
      | .ok el => parseAnnotation asciiTables el) = some [] := by
  decide +kernel

end GoXml.Xsd
