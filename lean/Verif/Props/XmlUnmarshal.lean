import Verif.Proofs.XmlUnmarshal
import Verif.Props.XmlRewrite
import Verif.Props.XsdgenValues
set_option autoImplicit false

/-!
What `Unmarshal` gives to the decoder. The full statement, C145: for every element of a document that can be read, decoding the element with
`Unmarshal` gives what decoding this part of the document gives.
-/

namespace GoXml.Values
open Lex

/-- C145, for documents that use no entities of their own, where prefixes last and the values of attributes can be written
again (C130): of each element of the document, at the position `p`, the decoder sees what it sees there in the document, without the text beside
elements. -/
theorem C145_portion_partial (u : Unicode) (srt : Sorter nsLess) (d : SrcDoc) (h : d.Wf u) (hd : d.root.depth ≤ 3001)
    (hr : Rewritable u [] d.root) (more : Str) :
    ∃ el x, parse u srt (d.bytes ++ more) = .ok el ∧ decoderSees u (d.bytes ++ more) = some x ∧
      ∀ p e, el.at? p = some e → unmarshalSees u e = (x.at? p).map XNode.data :=
  unmarshal_source u srt d h hd hr more

/-- The element at a position, decoded with `Unmarshal`. -/
def unmarshalAt (doc : Str) (p : List Nat) : Option XNode :=
  match parse asciiTables nsSorter doc with
  | .error _ => none
  | .ok el => (el.at? p).bind (unmarshalSees asciiTables)

example (more : Str) : ∃ el x, parse asciiTables nsSorter (listDoc.bytes ++ more) = .ok el ∧ decoderSees asciiTables (listDoc.bytes ++ more) = some x ∧
    ∀ p e, el.at? p = some e → unmarshalSees asciiTables e = (x.at? p).map XNode.data :=
  C145_portion_partial _ _ _ listDoc_wf (by decide +kernel) listDoc_rewritable more

/-- What the decoder sees of this document, and of the two elements in it. -/
example : decoderSees asciiTables listDoc.bytes = some (.elem ⟨b!"urn:o", b!"list"⟩ [⟨⟨b!"urn:o", b!"at"⟩, b!"x'y>"⟩]
      [.elem ⟨b!"urn:d", b!"item"⟩ [] [.text b!"a<b <c "], .text b!"\n",
        .elem ⟨b!"urn:e", b!"sub"⟩ [⟨⟨b!"urn:o", b!"k"⟩, b!"v"⟩, ⟨⟨b!"http://www.w3.org/XML/1998/namespace", b!"lang"⟩, b!"en"⟩] []]) ∧
    unmarshalAt listDoc.bytes [0] = some (.elem ⟨b!"urn:d", b!"item"⟩ [] [.text b!"a<b <c "]) ∧
    unmarshalAt listDoc.bytes [1] = some (.elem ⟨b!"urn:e", b!"sub"⟩ [⟨⟨b!"urn:o", b!"k"⟩, b!"v"⟩,
      ⟨⟨b!"http://www.w3.org/XML/1998/namespace", b!"lang"⟩, b!"en"⟩] []) := by
  decide +kernel

/-- C145 is false for mixed content: the text beside elements is lost. -/
theorem C145_mixed_refuted :
    decoderSees asciiTables b!"<p>Hello <b>old</b> friend</p>" = some (.elem ⟨[], b!"p"⟩ [] [.text b!"Hello ",
      .elem ⟨[], b!"b"⟩ [] [.text b!"old"], .text b!" friend"]) ∧
    unmarshalAt b!"<p>Hello <b>old</b> friend</p>" [] = some (.elem ⟨[], b!"p"⟩ [] [.elem ⟨[], b!"b"⟩ [] [.text b!"old"]]) := by
  decide +kernel

/-- C145 is false where a prefix of a namespace is declared again: the element comes from another namespace. -/
theorem C145_shadow_refuted :
    (decoderSees asciiTables b!"<r xmlns:p=\"v\" xmlns:q=\"v\"><p:x xmlns:q=\"w\"/></r>").bind (·.at? [0]) = some (.elem ⟨b!"v", b!"x"⟩ [] []) ∧
    unmarshalAt b!"<r xmlns:p=\"v\" xmlns:q=\"v\"><p:x xmlns:q=\"w\"/></r>" [0] = some (.elem ⟨b!"w", b!"x"⟩ [] []) := by
  decide +kernel

/-- C145 is false for values of attributes that have to be escaped: nothing can be decoded, or something else. -/
theorem C145_escape_refuted :
    decoderSees asciiTables b!"<a k='say \"x\"'/>" = some (.elem ⟨[], b!"a"⟩ [⟨⟨[], b!"k"⟩, b!"say \"x\""⟩] []) ∧
    unmarshalAt b!"<a k='say \"x\"'/>" [] = none ∧
    decoderSees asciiTables b!"<a k='x&amp;lt;y'/>" = some (.elem ⟨[], b!"a"⟩ [⟨⟨[], b!"k"⟩, b!"x&lt;y"⟩] []) ∧
    unmarshalAt b!"<a k='x&amp;lt;y'/>" [] = some (.elem ⟨[], b!"a"⟩ [⟨⟨[], b!"k"⟩, b!"x<y"⟩] []) := by
  decide +kernel

end GoXml.Values
