import Verif.Proofs.SourceTree
import Verif.Props.XmlMarshal
set_option autoImplicit false

/-! Property C125: `Parse` on documents as they are written. -/

namespace GoXml

open Lex

/-- C125. `Parse` reads every well-formed document: any names, white space, kind of quotes, references, line ends, comments, CDATA sections,
processing instructions and document type declarations. What it returns has the elements of the document with their names, namespaces, attributes, values, prefixes and content.
Nothing after the document matters. The full property has no `TagWf.reserved`; see `C125_foreign_refuted`. -/
theorem C125_parse_partial (u : Unicode) (srt : Sorter nsLess) (d : SrcDoc) (h : d.Wf u) (hd : d.root.depth ≤ 3001) (more : Str) :
    ∃ root, parse u srt (d.bytes ++ more) = .ok root ∧ Means [] d.root root :=
  parse_source u srt d h hd more

/-- The attributes of the root of the following document. -/
def orderAttrs : List SrcAttr :=
  [⟨b!" ", b!"xmlns", b!"o", [], [], 39, b!"urn:o", b!"urn:o"⟩, ⟨b!"\n\t", [], b!"xmlns", b!" ", b!"\r", 34, b!"urn:d", b!"urn:d"⟩,
    ⟨b!" ", b!"o", b!"at", [], [], 34, b!"a&lt;'b\r\n&amp;\r&#65;&#x4a;&#13;", b!"a<'b\n&\nAJ\r"⟩, ⟨b!" ", [], b!"n", [], [], 39, b!"\"", b!"\""⟩]

/-- `<?xml …?><!--…--><!DOCTYPE …><o:order-list …>…</o:order-list >`, with both kinds of quotes, references and all line ends. -/
def srcDemo : SrcDoc where
  prolog := [.pi b!"xml" b!" version='1.0'", .text b!"\r\n", .comment b!" - an order ->- ",
    .doctype b!" o:order-list SYSTEM \"a'>b\" [<!ENTITY x 'y'><!--' - <-->]", .text b!"\n"]
  root := .elem b!"o" b!"order-list"
    orderAttrs b!" "
    [.text b!"x &gt; ]] y", .cdata b!"<no>]]&]", .empty [] b!"item" [] [], .pi b!"go" b!" ?a>", .text b!"\n",
      .elem [] b!"item.2" [⟨b!" ", [], b!"xmlns", [], [], 34, [], []⟩] [] [] []] b!"\n"

example : srcDemo.bytes = b!"<?xml version='1.0'?>\r\n<!-- - an order ->- --><!DOCTYPE o:order-list SYSTEM \"a'>b\" [<!ENTITY x 'y'><!--' - <-->]>\n<o:order-list xmlns:o='urn:o'\n\txmlns =\r\"urn:d\" o:at=\"a&lt;'b\r\n&amp;\r&#65;&#x4a;&#13;\" n='\"' >x &gt; ]] y<![CDATA[<no>]]&]]]><item/><?go ?a>?>\n<item.2 xmlns=\"\"></item.2></o:order-list\n>" := by
  decide +kernel

theorem ref65 : Reference b!"#65" b!"A" :=
  .dec (ds := b!"65") (n := 65) (by decide) (.snoc b!"6" 6 53 (.snoc [] 0 54 .nil (by decide) (by decide)) (by decide) (by decide)) (by unfold Gen.Scalar; decide)

theorem ref13 : Reference b!"#13" b!"\r" :=
  .dec (ds := b!"13") (n := 13) (by decide) (.snoc b!"1" 1 51 (.snoc [] 0 49 .nil (by decide) (by decide)) (by decide) (by decide)) (by unfold Gen.Scalar; decide)

theorem refx4a : Reference b!"#x4a" b!"J" :=
  .hex (ds := b!"4a") (n := 74) (by decide) (.snoc b!"4" 4 97 10 (.snoc [] 0 52 4 .nil (by unfold Gen.HexVal; decide)) (by unfold Gen.HexVal; decide))
    (by unfold Gen.Scalar; decide)

macro "decodes" : tactic => `(tactic| repeat (first
  | exact Decodes.nil
  | (refine Decodes.entity (name := b!"lt") .lt ?_)
  | (refine Decodes.entity (name := b!"gt") .gt ?_)
  | (refine Decodes.entity (name := b!"amp") .amp ?_)
  | (refine Decodes.entity (name := b!"#65") ref65 ?_)
  | (refine Decodes.entity (name := b!"#13") ref13 ?_)
  | (refine Decodes.entity (name := b!"#x4a") refx4a ?_)
  | (refine Decodes.cr ?_)
  | (refine Decodes.crlf ?_)
  | (refine Decodes.char (by decide) (by decide) (by decide) (by decide) (by decide) ?_)))

macro "doctype" : tactic => `(tactic| repeat (first
  | exact DoctypeBody.nil
  | (refine DoctypeBody.char (by decide) ?_)
  | (refine DoctypeBody.literal (t := b!"a'>b") (by decide) (by decide) ?_)
  | (refine DoctypeBody.literal (t := b!"y") (by decide) (by decide) ?_)
  | (refine DoctypeBody.comment (t := b!"' - <") (by decide) ?_)
  | (refine DoctypeBody.declaration (t := b!"!ENTITY x 'y'") ?_ (by decide) ?_)))

theorem ncName_ascii {s : Str} (h : s ≠ [] ∧ ∀ c ∈ s, c ∈ b!"ABCDEFGHIJKLMNOPQRSTUVWXYZabcdefghijklmnopqrstuvwxyz0123456789_.-") : NcName s :=
  ⟨h.1, fun c hc => .inl (h.2 c hc)⟩

theorem srcDemo_wf : srcDemo.Wf asciiTables := by
  have root : TagWf asciiTables [] b!"o" b!"order-list" orderAttrs b!" " := {
    name := ⟨.inr (ncName_ascii (by decide)), ncName_ascii (by decide), by decide⟩
    element := ⟨by decide, by decide, b!"urn:o", .inl (.inr ⟨by decide, .inl ⟨⟨⟨b!"xmlns", b!"o"⟩, b!"urn:o"⟩, by decide, rfl, .inl rfl⟩⟩)⟩
    each := by
      intro a ha
      simp only [orderAttrs, List.mem_cons, List.not_mem_nil, or_false] at ha
      rcases ha with rfl | rfl | rfl | rfl
      · exact ⟨⟨by unfold White; decide, by decide⟩, ⟨.inr (ncName_ascii (by decide)), ncName_ascii (by decide), by decide⟩, by unfold White; decide,
          by unfold White; decide, by decide, by decodes, by decide⟩
      · exact ⟨⟨by unfold White; decide, by decide⟩, ⟨.inl rfl, ncName_ascii (by decide), by decide⟩, by unfold White; decide,
          by unfold White; decide, by decide, by decodes, by decide⟩
      · exact ⟨⟨by unfold White; decide, by decide⟩, ⟨.inr (ncName_ascii (by decide)), ncName_ascii (by decide), by decide⟩, by unfold White; decide,
          by unfold White; decide, by decide, by decodes, by decide⟩
      · exact ⟨⟨by unfold White; decide, by decide⟩, ⟨.inl rfl, ncName_ascii (by decide), by decide⟩, by unfold White; decide,
          by unfold White; decide, by decide, by decodes, by decide⟩
    spaces := by
      intro a ha hd
      simp only [orderAttrs, List.mem_cons, List.not_mem_nil, or_false] at ha
      rcases ha with rfl | rfl | rfl | rfl
      · exact absurd hd (by decide)
      · exact absurd hd (by decide)
      · exact ⟨b!"urn:o", .inr ⟨by decide, .inr ⟨by decide, .inl ⟨⟨⟨b!"xmlns", b!"o"⟩, b!"urn:o"⟩, by decide, rfl, .inl rfl⟩⟩⟩⟩
      · exact ⟨[], .inl ⟨rfl, rfl⟩⟩
    declarations := by
      refine ⟨?_, by decide, by decide⟩
      intro a ha b hb p n m hn hm
      simp only [orderAttrs, SrcAttr.toAttr, List.map_cons, List.map_nil, List.mem_cons, List.not_mem_nil, or_false] at ha hb
      rcases ha with rfl | rfl | rfl | rfl <;> rcases hb with rfl | rfl | rfl | rfl <;> first | exact hn.1.symm.trans hm.1 | simp_all [DeclAttr]
    reserved := by decide
    trailing := by unfold White; decide }
  have near : Nearest [] b!"urn:d" [orderAttrs.map SrcAttr.toAttr] :=
    .inl ⟨⟨⟨[], b!"xmlns"⟩, b!"urn:d"⟩, by decide, rfl, .inr ⟨rfl, rfl⟩⟩
  have item : TagWf asciiTables [orderAttrs.map SrcAttr.toAttr] [] b!"item" [] [] := {
    name := ⟨.inl rfl, ncName_ascii (by decide), by decide⟩
    element := ⟨by decide, by decide, b!"urn:d", .inl (.inr ⟨by decide, .inr ⟨by simp, near⟩⟩)⟩
    each := by simp
    spaces := by simp
    declarations := by simp [TagOk]
    reserved := by simp
    trailing := by simp [White] }
  have item2 : TagWf asciiTables [orderAttrs.map SrcAttr.toAttr] [] b!"item.2" [⟨b!" ", [], b!"xmlns", [], [], 34, [], []⟩] [] := {
    name := ⟨.inl rfl, ncName_ascii (by decide), by decide⟩
    element := ⟨by decide, by decide, [], .inl (.inr ⟨by decide, .inl ⟨⟨⟨[], b!"xmlns"⟩, []⟩, by decide, rfl, .inr ⟨rfl, rfl⟩⟩⟩)⟩
    each := by
      intro a ha
      simp only [List.mem_cons, List.not_mem_nil, or_false] at ha
      subst ha
      exact ⟨⟨by unfold White; decide, by decide⟩, ⟨.inl rfl, ncName_ascii (by decide), by decide⟩, by unfold White; decide,
          by unfold White; decide, by decide, by decodes, by decide⟩
    spaces := by simp [SrcAttr.declares]
    declarations := by
      refine ⟨?_, by decide, by decide⟩
      intro a ha b hb p n m hn hm
      simp only [SrcAttr.toAttr, List.map_cons, List.map_nil, List.mem_cons, List.not_mem_nil, or_false] at ha hb
      subst ha; subst hb
      simp_all [DeclAttr]
    reserved := by decide
    trailing := by simp [White] }
  have dt : DoctypeBody b!"o:order-list SYSTEM \"a'>b\" [<!ENTITY x 'y'><!--' - <-->]" := by doctype
  refine ⟨.cons ?_ (.cons ?_ (.cons ?_ (.cons (.doctype (by unfold White; decide) dt) (.cons (.text (v := b!"\n") (by decide) (by decodes) rfl (by decide)) .nil ?_) ?_) ?_) ?_) ?_, by decide, .elem root (.cons ?_ (.cons ?_ (.cons ?_ (.cons ?_ (.cons ?_ (.cons ?_ .nil ?_) ?_) ?_) ?_) ?_) ?_) ?_, rfl⟩
  · exact .pi (ncName_ascii (by decide)) (by decide) (.inr ⟨32, _, rfl, by unfold White; decide⟩) (by decide) (by decide)
  · exact .text (v := b!"\n") (by decide) (by decodes) rfl (by decide)
  · exact .comment (by decide)
  · decide
  · decide
  · decide
  · decide
  · decide
  · exact .text (v := b!"x > ]] y") (by decide) (by decodes) rfl (by decide)
  · exact .cdata (by decide) rfl
  · exact .empty item
  · exact .pi (ncName_ascii (by decide)) (by decide) (.inr ⟨32, _, rfl, by unfold White; decide⟩) (by decide) (by decide)
  · exact .text (v := b!"\n") (by decide) (by decodes) rfl (by decide)
  · exact .elem item2 .nil (by simp [White])
  · decide
  · decide
  · decide
  · decide
  · decide
  · decide
  · unfold White; decide

example (more : Str) : ∃ root, parse asciiTables nsSorter (srcDemo.bytes ++ more) = .ok root ∧ Means [] srcDemo.root root :=
  C125_parse_partial _ _ _ srcDemo_wf (by decide +kernel) more

def attrsOf : Except ParseErr Element → Option (List Attr)
  | .error _ => none
  | .ok el => some el.attrs

/-- C125 is false for namespaces called `xmlns`: the attribute `p:k` of `<a xmlns:p="xmlns" p:k="v"/>` is lost, although it would be there with any
other namespace. -/
theorem C125_foreign_refuted :
    attrsOf (parse asciiTables nsSorter b!"<a xmlns:p=\"xmlns\" p:k=\"v\"/>") = some [] ∧
    attrsOf (parse asciiTables nsSorter b!"<a xmlns:p=\"other\" p:k=\"v\"/>") = some [⟨⟨b!"other", b!"k"⟩, b!"v"⟩] := by
  decide +kernel

/-- C125 is false for documents that use entities they declare: these cannot be read. -/
theorem C125_entity_refuted :
    attrsOf (parse asciiTables nsSorter b!"<!DOCTYPE a [<!ENTITY x 'y'>]><a k='&x;'/>") = none ∧
    attrsOf (parse asciiTables nsSorter b!"<!DOCTYPE a [<!ENTITY x 'y'>]><a k='y'/>") = some [⟨⟨[], b!"k"⟩, b!"y"⟩] := by
  decide +kernel

/-- C125 is false for processing instructions with an apostrophe inside document type declarations: it opens a literal that never ends. -/
theorem C125_instruction_refuted :
    attrsOf (parse asciiTables nsSorter b!"<!DOCTYPE a [<?p it's?>]><a/>") = none ∧
    attrsOf (parse asciiTables nsSorter b!"<!DOCTYPE a [<?p it is?>]><?p it's?><a/>") = some [] := by
  decide +kernel

/-- The value of an attribute without references according to XML 1.0, section 3.3.3: white space characters become spaces. -/
def attributeValue (raw : Str) : Str := raw.map fun c => if c = 9 ∨ c = 10 then 32 else c

/-- C125 is false for attribute values as XML 1.0 defines them: `Parse` keeps tabs and line ends where there should be spaces. The theorem above
says which value is returned. -/
theorem C125_spaces_refuted : ∃ raw, attrsOf (parse asciiTables nsSorter (b!"<a k=\"" ++ raw ++ b!"\"/>")) = some [⟨⟨[], b!"k"⟩, raw⟩] ∧
    raw ≠ attributeValue raw :=
  ⟨b!"x\ty\nz", by decide +kernel, by decide⟩

end GoXml
