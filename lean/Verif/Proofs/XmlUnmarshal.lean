import Verif.Model.XmlUnmarshal
import Verif.Spec.XmlUnmarshal
import Verif.Spec.Tree
import Verif.Proofs.XsdAnnotation
import Verif.Proofs.Rewrite
set_option autoImplicit false

namespace GoXml.Values
open Lex Xsd

mutual
/-- What the decoder sees of a piece of a document. -/
def seen : Node → XNode
  | .text b => .text b
  | .elem _ n as ks _ => .elem n (as.filter fun a => !isNsAttr a) (seenL [] ks).reverse
/-- The same for the content of an element, the last first. -/
def seenL : List XNode → List Node → List XNode
  | acc, [] => acc
  | acc, .text b :: ns => seenL (addText (tokenText b) acc) ns
  | acc, .elem o n as ks c :: ns => seenL (seen (.elem o n as ks c) :: acc) ns
end

theorem filter_isNsAttr (as : List Attr) :
    as.filter (fun a => !(a.name.space = b!"xmlns" || a.name.loc = b!"xmlns")) = as.filter fun a => !isNsAttr a := by
  congr 1
  funext a
  by_cases h1 : a.name.space = b!"xmlns" <;> by_cases h2 : a.name.loc = b!"xmlns" <;> simp [isNsAttr, h1, h2]

theorem buildNode_toksL (n : XName) (as : List Attr) (st : List (XName × List Attr × List XNode)) (r : List (Tok × Str)) :
    (ns : List Node) → (acc : List XNode) → buildNode ((n, as, acc) :: st) (toksL ns ++ r) = buildNode ((n, as, seenL acc ns) :: st) r
  | [], acc => rfl
  | .text b :: ns, acc => by
    simp only [toksL, nodeToks, List.cons_append, List.nil_append, buildNode, seenL]
    exact buildNode_toksL n as st r ns _
  | .elem o m bs ks c :: ns, acc => by
    simp only [toksL, nodeToks, List.cons_append, List.append_assoc, List.nil_append, buildNode, seenL, seen, filter_isNsAttr]
    rw [buildNode_toksL m _ ((n, as, acc) :: st) _ ks []]
    simp only [buildNode]
    exact buildNode_toksL n as st r ns _

theorem buildNode_root (o : Str) (n : XName) (as : List Attr) (ks : List Node) (c : Str) (r : List (Tok × Str)) :
    buildNode [] (nodeToks (.elem o n as ks c) ++ r) = some (seen (.elem o n as ks c)) := by
  simp only [nodeToks, List.cons_append, List.append_assoc, List.nil_append, buildNode, seen, filter_isNsAttr]
  rw [buildNode_toksL]
  simp only [buildNode]

theorem buildNode_prolog (bs : List Str) (r : List (Tok × Str)) : buildNode [] (toksL (bs.map .text) ++ r) = buildNode [] r := by
  induction bs with
  | nil => rfl
  | cons b bs ih => simp only [List.map_cons, toksL, nodeToks, List.cons_append, List.nil_append, buildNode]; exact ih

/-- The decoder on a document. -/
theorem decoderSees_source (u : Unicode) (d : SrcDoc) (hw : d.Wf u) (more : Str) :
    decoderSees u (d.bytes ++ more) = some (seen (d.root.node [])) := by
  obtain ⟨trailing, hlex⟩ := lex_source u d hw more
  obtain ⟨o, n, as, ks, c, hnode⟩ := root_elem u d hw
  have h1 := tokenBytes_list [] (d.root.bytes ++ more) ((d.root.node []).events (srcBytes d.prolog).length ++ trailing) (srcNodes [] d.prolog)
  have h2 := tokenBytes_node (srcBytes d.prolog) more trailing (d.root.node [])
  simp only [List.length_nil, List.nil_append, Nat.zero_add, nodes_bytes] at h1
  rw [node_bytes] at h2
  rw [decoderSees, hlex]
  have e : d.bytes ++ more = srcBytes d.prolog ++ (d.root.bytes ++ more) := by simp [SrcDoc.bytes]
  rw [e, List.append_assoc, h1, srcNodes_prolog hw.misc, buildNode_prolog]
  rw [List.append_assoc] at h2
  rw [h2, hnode, buildNode_root]

/-! ### What is written -/

/-- The elements among the pieces. -/
def elemNodes : List Node → List Node
  | [] => []
  | .text _ :: ns => elemNodes ns
  | .elem o n as ks c :: ns => .elem o n as ks c :: elemNodes ns

theorem elemsOf_append (a b : List XNode) : elemsOf (a ++ b) = elemsOf a ++ elemsOf b := by
  induction a with
  | nil => rfl
  | cons x a ih => cases x <;> simp [elemsOf, ih]

theorem elemsOf_reverse (a : List XNode) : elemsOf a.reverse = (elemsOf a).reverse := by
  induction a with
  | nil => rfl
  | cons x a ih => cases x <;> simp [elemsOf, elemsOf_append, ih]

theorem elemsOf_addText (t : Str) (ks : List XNode) : elemsOf (addText t ks) = elemsOf ks := by
  unfold addText
  split
  · rfl
  · split <;> simp [elemsOf]

theorem elemsOf_seenL : (ns : List Node) → (acc : List XNode) → elemsOf (seenL acc ns) = ((elemNodes ns).map seen).reverse ++ elemsOf acc
  | [], acc => by simp [seenL, elemNodes]
  | .text b :: ns, acc => by rw [seenL, elemsOf_seenL ns, elemsOf_addText, elemNodes]
  | .elem o n as ks c :: ns, acc => by rw [seenL, elemsOf_seenL ns]; simp [elemNodes, seen, elemsOf]

theorem elemsOf_seen (ns : List Node) : elemsOf (seenL [] ns).reverse = (elemNodes ns).map seen := by
  rw [elemsOf_reverse, elemsOf_seenL]; simp [elemsOf]

theorem dataL_eq (ks : List XNode) : dataL ks = (elemsOf ks).map XNode.data := by
  induction ks with
  | nil => rfl
  | cons x ks ih => cases x <;> simp [dataL, elemsOf, ih]

theorem seen_at (o : Str) (n : XName) (as : List Attr) (ks : List Node) (c : Str) (i : Nat) (p : List Nat) (k : Node)
    (h : (elemNodes ks)[i]? = some k) : (seen (.elem o n as ks c)).at? (i :: p) = (seen k).at? p := by
  rw [seen, XNode.at?, elemsOf_seen, List.getElem?_map, h]; rfl

theorem addText_two (a b : Str) : addText b (addText a []) = addText (a ++ b) [] := by
  unfold addText
  by_cases ha : a = []
  · subst ha; simp
  · by_cases hb : b = []
    · subst hb; simp [ha]
    · simp [ha, hb]

theorem seenL_texts (bs : List Str) : ∀ t, seenL (addText t []) (bs.map .text) = addText (t ++ textsOf (bs.map .text)) [] := by
  induction bs with
  | nil => intro t; simp [seenL, textsOf]
  | cons b bs ih => intro t; simp only [List.map_cons, seenL, textsOf]; rw [addText_two, ih]; simp

theorem lineEnds_total (raw : Str) : ∀ cr, ∃ v, LineEnds cr raw v := by
  induction raw with
  | nil => exact fun _ => ⟨[], .nil⟩
  | cons c raw ih =>
    intro cr
    by_cases h : c = 13
    · subst h; obtain ⟨v, hv⟩ := ih true; exact ⟨_, .cr hv⟩
    · obtain ⟨v, hv⟩ := ih false
      by_cases h2 : c = 10 ∧ cr = true
      · obtain ⟨rfl, rfl⟩ := h2; exact ⟨_, .crlf hv⟩
      · exact ⟨_, .char h (fun hc => by cases cr <;> simp_all) hv⟩

theorem re_inv {srt : Sorter nsLess} {acc ps : Scope} {e e' : Element} (h : Re srt acc ps e e') :
    e'.attrs = e.attrs ∧ ∃ acc' ps', e'.scope = acc' ∧ ∀ (i : Nat) (k k' : Element), e.children[i]? = some k → e'.children[i]? = some k' → Re srt acc' ps' k k' := by
  cases h with
  | mk _ _ h => exact ⟨rfl, _, _, rfl, h⟩

theorem pieces_text {u : Unicode} {as : List Attr} {chain : List (List Attr)} : ∀ {ss : List Src}, SrcsWf u (as :: chain) ss → (∀ s ∈ ss, s.isMisc = true) →
    SrcsWf u [] ss ∧ ∃ ts, List.Forall₂ PieceText ss ts ∧ textsOf ((ss.map Src.bytes).map .text) = ts.flatten
  | [], _, _ => ⟨.nil, [], .nil, rfl⟩
  | s :: ss, .cons h1 h2 h3, hm => by
    obtain ⟨i1, ts, i2, i3⟩ := pieces_text h2 fun x hx => hm x (by simp [hx])
    obtain ⟨j1, t, j2⟩ : SrcWf u [] s ∧ ∃ t, PieceText s t := by
      have := hm s (by simp)
      cases h1 with
      | text a b c d => exact ⟨.text a b c d, _, .text b⟩
      | comment a => exact ⟨.comment a, _, .comment⟩
      | @cdata _ body a b =>
        obtain ⟨v, hv⟩ := lineEnds_total body false
        exact ⟨.cdata a b, _, .cdata hv⟩
      | pi a b c d e => exact ⟨.pi a b c d e, _, .pi⟩
      | empty _ => cases this
      | elem _ _ _ => cases this
    refine ⟨.cons j1 i1 h3, t :: ts, .cons j2 i2, ?_⟩
    simp only [List.map_cons, textsOf, i3, tokenText_piece j1 j2, List.flatten_cons]

theorem node_elem {s : Src} (h : s.isMisc = false) (ns : Scope) : ∃ o n as ks c, s.node ns = .elem o n as ks c := by
  cases s <;> first | (cases h; done) | exact ⟨_, _, _, _, _, rfl⟩

theorem elemNodes_cons {n : Node} {o : Str} {m : XName} {as : List Attr} {ks : List Node} {c : Str} (h : n = .elem o m as ks c) (ns : List Node) :
    elemNodes (n :: ns) = n :: elemNodes ns := by subst h; rfl

theorem shape_elem {u : Unicode} {e : Element} {n : Node} (h : Shape u e n) : ∃ o m as ks c, n = .elem o m as ks c := by
  cases h <;> exact ⟨_, _, _, _, _, rfl⟩

theorem shapeL_elemNodes {u : Unicode} : ∀ {es : List Element} {ns : List Node}, ShapeL u es ns → elemNodes ns = ns ∧
    (seenL [] ns).reverse = ns.map seen := by
  intro es ns h
  suffices ∀ acc, elemNodes ns = ns ∧ (seenL acc ns).reverse = acc.reverse ++ ns.map seen by simpa using this []
  induction ns generalizing es with
  | nil => intro acc; simp [elemNodes, seenL]
  | cons n ns ih =>
    intro acc
    cases h with
    | cons h1 h2 =>
      obtain ⟨o, m, as, ks, c, rfl⟩ := shape_elem h1
      obtain ⟨i1, i2⟩ := ih h2 (seen (.elem o m as ks c) :: acc)
      refine ⟨by rw [elemNodes, i1], ?_⟩
      rw [seenL, i2]; simp

theorem srcs_misc_nil {ns sc : Scope} : ∀ (ss : List Src), MirrorsL sc (srcNodes ns ss) [] → ∀ s ∈ ss, s.isMisc = true
  | [], _ => by simp
  | s :: ss, h => by
    cases hm : s.isMisc with
    | true =>
      rw [srcNodes, node_misc hm] at h
      cases h with
      | text h => exact List.forall_mem_cons.mpr ⟨hm, srcs_misc_nil ss h⟩
    | false =>
      obtain ⟨o, m, as, ks, c, hn⟩ := node_elem hm ns
      rw [srcNodes, hn] at h
      cases h

mutual
theorem seen_written {u : Unicode} {srt : Sorter nsLess} {chain : List (List Attr)} {ns sc ps acc : Scope} :
    ∀ (s : Src) (e : Element) (n' : Node) (el' : Element), SrcWf u chain s → s.isMisc = false → Mirrors sc (s.node ns) e → Shape u e n' →
      denote srt acc n' = [el'] → Re srt acc ps e el' → seen n' = (seen (s.node ns)).data
  | .text _, _, _, _, _, hm, _, _, _, _ => by cases hm
  | .comment _, _, _, _, _, hm, _, _, _, _ => by cases hm
  | .cdata _, _, _, _, _, hm, _, _, _, _ => by cases hm
  | .pi _ _, _, _, _, _, hm, _, _, _, _ => by cases hm
  | .doctype _, _, _, _, _, hm, _, _, _, _ => by cases hm
  | .empty pre loc attrs space, e, n', el', h, _, hmir, hsh, hden, hre => by
    rw [Src.node] at hmir ⊢
    cases hmir with
    | elem _ hk =>
      cases hk
      generalize hc : bytesL [] = content at hsh hre
      cases hsh with
      | leaf hmisc =>
        rename_i pieces _ _
        have : pieces = [] := by
          cases pieces with
          | nil => rfl
          | cons t ts => exact absurd (List.append_eq_nil_iff.mp hc.symm).1 (misc_ne hmisc t (by simp))
        subst this
        rw [denote] at hden
        obtain ⟨ha, _⟩ := re_inv hre
        simp only [List.cons.injEq, and_true] at hden
        subst hden
        simp only [Element.attrs, nonNsAttrs_eq] at ha
        simp [seen, seenL, XNode.data, elemsOf, ha]
  | .elem pre loc attrs space kids endSpace, e, n', el', h, _, hmir, hsh, hden, hre => by
    rw [Src.node] at hmir ⊢
    cases h with
    | elem ht hk _ =>
      cases hmir with
      | elem _ hmk =>
        generalize hc : bytesL _ = content at hsh hre
        cases hsh with
        | leaf hmisc =>
          rename_i pieces _ _
          have hall := srcs_misc_nil kids hmk
          obtain ⟨k1, ts, k2, k3⟩ := pieces_text hk hall
          rw [nodes_bytes] at hc
          have hp := textsOf_pieces hmisc k1 hc.symm k2
          obtain ⟨ha, _⟩ := re_inv hre
          rw [denote] at hden
          simp only [List.cons.injEq, and_true] at hden
          subst hden
          simp only [Element.attrs, nonNsAttrs_eq] at ha
          have t1 := seenL_texts pieces []
          have t2 := seenL_texts (kids.map Src.bytes) []
          have z : addText [] [] = [] := rfl
          rw [z, List.nil_append] at t1 t2
          rw [srcNodes_prolog hall]
          simp only [seen, t1, t2, hp, k3, ha, XNode.data]
          have : (elemsOf (addText ts.flatten []).reverse).isEmpty = true := by
            rw [elemsOf_reverse, elemsOf_addText]; rfl
          rw [this]; rfl
        | node hsl =>
          obtain ⟨ha, acc', ps', hacc, hre'⟩ := re_inv hre
          rw [denote] at hden
          simp only [List.cons.injEq, and_true] at hden
          subst hden
          simp only [Element.attrs, nonNsAttrs_eq] at ha
          simp only [Element.scope] at hacc
          subst hacc
          simp only [Element.children] at hre'
          have hl := seen_writtenL kids _ _ hk hmk hsl hre'
          obtain ⟨e1, e2⟩ := shapeL_elemNodes hsl
          simp only [seen, e2, hl, ha, XNode.data, elemsOf_seen, dataL_eq, List.map_map]
          have hne : ((elemNodes (srcNodes (nsPush ns (attrs.map SrcAttr.toAttr)) kids)).map seen).isEmpty = false := by
            cases hsl with
            | cons _ _ =>
              have := congrArg List.length hl
              simp only [List.map_cons, List.length_cons, List.length_map] at this
              simp only [List.isEmpty_eq_false_iff, ne_eq, List.map_eq_nil_iff]
              intro h0; rw [h0] at this; cases this
          rw [hne]; rfl
theorem seen_writtenL {u : Unicode} {srt : Sorter nsLess} {chain : List (List Attr)} {ns sc ps acc : Scope} :
    ∀ (ss : List Src) (es : List Element) (ns' : List Node), SrcsWf u chain ss → MirrorsL sc (srcNodes ns ss) es → ShapeL u es ns' →
      (∀ (i : Nat) (k k' : Element), es[i]? = some k → (denoteL srt acc ns')[i]? = some k' → Re srt acc ps k k') →
      ns'.map seen = (elemNodes (srcNodes ns ss)).map fun n => (seen n).data
  | [], es, ns', _, hm, hs, _ => by cases hm; cases hs; rfl
  | s :: ss, es, ns', h, hm, hs, hre => by
    cases h with
    | cons h1 h2 _ =>
      cases hmisc : s.isMisc with
      | true =>
        rw [srcNodes, node_misc hmisc] at hm ⊢
        cases hm with
        | text hm => rw [elemNodes]; exact seen_writtenL ss es ns' h2 hm hs hre
      | false =>
        obtain ⟨o, m, as, ks, c, hn⟩ := node_elem hmisc ns
        rw [srcNodes, elemNodes_cons hn]
        rw [srcNodes, hn] at hm
        cases hm with
        | elem hm1 hm2 =>
          rw [← hn] at hm1
          cases hs with
          | cons s1 s2 =>
            rename_i n'' ns''
            obtain ⟨o', m', as', ks', c', hn'⟩ := shape_elem s1
            have hd : denoteL srt acc (n'' :: ns'') = denote srt acc n'' ++ denoteL srt acc ns'' := rfl
            obtain ⟨el', hel⟩ : ∃ el', denote srt acc n'' = [el'] := by subst hn'; exact ⟨_, rfl⟩
            rw [hd, hel] at hre
            rw [List.map_cons, List.map_cons, seen_written s _ n'' el' h1 hmisc hm1 s1 hel (hre 0 _ _ rfl rfl),
              seen_writtenL ss _ ns'' h2 hm2 s2 fun i k k' hk hk' => hre (i + 1) k k' (by simpa using hk) (by simpa using hk')]
end

/-! ### Elements inside the document -/

/-- What is known of the place where a piece of a document stands. -/
structure Place (u : Unicode) (chain : List (List Attr)) (ns sc : Scope) : Prop where
  reserved : Reserved chain
  bound : Bound ns chain
  scope : Bound sc chain
  tags : FromTags sc chain
  decls : ∀ d ∈ sc, DeclOk u d

theorem wf_alone {u : Unicode} {sc : Scope} {e : Element} (h : Wf u sc e) (hd : ∀ d ∈ sc, DeclOk u d) : Wf u [] e := by
  cases h with
  | @leaf _ own _ _ _ h1 h2 h3 h4 =>
    exact Wf.leaf (ps := []) (own := sc ++ own) (fun d hm => (List.mem_append.mp hm).elim (hd d) (h1 d)) h2 h3 h4
  | @node _ own _ _ _ _ _ h1 h2 h3 h4 =>
    exact Wf.node (ps := []) (own := sc ++ own) (fun d hm => (List.mem_append.mp hm).elim (hd d) (h1 d)) h2 h3 h4

theorem mirrorsL_at {u : Unicode} {chain : List (List Attr)} {ns sc : Scope} :
    ∀ (ss : List Src) (es : List Element) (i : Nat) (k : Element), SrcsWf u chain ss → (∀ s ∈ ss, Rewritable u chain s) →
      MirrorsL sc (srcNodes ns ss) es → es[i]? = some k →
      ∃ s ∈ ss, SrcWf u chain s ∧ s.isMisc = false ∧ Rewritable u chain s ∧ (elemNodes (srcNodes ns ss))[i]? = some (s.node ns) ∧
        Mirrors sc (s.node ns) k
  | [], es, i, k, _, _, hm, hi => by cases hm; simp at hi
  | s :: ss, es, i, k, h, hre, hm, hi => by
    cases h with
    | cons h1 h2 _ =>
      cases hmisc : s.isMisc with
      | true =>
        rw [srcNodes, node_misc hmisc] at hm ⊢
        cases hm with
        | text hm =>
          obtain ⟨t, t1, t2⟩ := mirrorsL_at ss es i k h2 (fun t ht => hre t (by simp [ht])) hm hi
          exact ⟨t, by simp [t1], t2⟩
      | false =>
        obtain ⟨o, m, as, ks, c, hn⟩ := node_elem hmisc ns
        rw [srcNodes, elemNodes_cons hn]
        rw [srcNodes, hn] at hm
        cases hm with
        | elem hm1 hm2 =>
          rw [← hn] at hm1
          cases i with
          | zero =>
            simp only [List.getElem?_cons_zero, Option.some.injEq] at hi
            subst hi
            exact ⟨s, by simp, h1, hmisc, hre s (by simp), rfl, hm1⟩
          | succ i =>
            simp only [List.getElem?_cons_succ] at hi
            obtain ⟨t, t1, t2⟩ := mirrorsL_at ss _ i k h2 (fun t ht => hre t (by simp [ht])) hm2 hi
            exact ⟨t, by simp [t1], by simpa using t2⟩

theorem elHeight_mem {es : List Element} {i : Nat} {k : Element} (h : es[i]? = some k) : k.height ≤ elHeightL es := by
  induction es generalizing i with
  | nil => simp at h
  | cons e es ih =>
    cases i with
    | zero => simp at h; subst h; exact Nat.le_max_left _ _
    | succ i => exact Nat.le_trans (ih (by simpa using h)) (Nat.le_max_right _ _)

theorem mirrors_at {u : Unicode} : ∀ (p : List Nat) {chain : List (List Attr)} {ns sc : Scope} (s : Src) (el e : Element),
    Place u chain ns sc → SrcWf u chain s → s.isMisc = false → Rewritable u chain s → Mirrors sc (s.node ns) el → el.at? p = some e →
    ∃ chain' ns' sc' s', Place u chain' ns' sc' ∧ SrcWf u chain' s' ∧ s'.isMisc = false ∧ Rewritable u chain' s' ∧
      Mirrors sc' (s'.node ns') e ∧ (seen (s.node ns)).at? p = some (seen (s'.node ns')) ∧ e.height ≤ el.height
  | [], chain, ns, sc, s, el, e, hp, h1, h2, h3, h4, hat => by
    simp only [Element.at?, Option.some.injEq] at hat
    subst hat
    exact ⟨chain, ns, sc, s, hp, h1, h2, h3, h4, by simp [XNode.at?], Nat.le_refl _⟩
  | i :: p, chain, ns, sc, .text _, el, e, hp, h1, h2, h3, h4, hat => by cases h2
  | i :: p, chain, ns, sc, .comment _, el, e, hp, h1, h2, h3, h4, hat => by cases h2
  | i :: p, chain, ns, sc, .cdata _, el, e, hp, h1, h2, h3, h4, hat => by cases h2
  | i :: p, chain, ns, sc, .pi _ _, el, e, hp, h1, h2, h3, h4, hat => by cases h2
  | i :: p, chain, ns, sc, .doctype _, el, e, hp, h1, h2, h3, h4, hat => by cases h2
  | i :: p, chain, ns, sc, .empty pre loc attrs space, el, e, hp, h1, h2, h3, h4, hat => by
    rw [Src.node] at h4
    cases h4 with
    | elem _ hk => cases hk; simp [Element.at?, Element.children] at hat
  | i :: p, chain, ns, sc, .elem pre loc attrs space kids endSpace, el, e, hp, h1, h2, h3, h4, hat => by
    cases h1 with
    | elem ht hk _ =>
      have hb' := tag_means ht hp.reserved hp.bound
      obtain ⟨s1, s2⟩ := spaced_attrs ht hp.reserved hb'
      obtain ⟨el1, el2, el3⟩ := ht.element
      obtain ⟨sp, t1, t2⟩ := translate_element (l := loc) hb' el1 el2 el3
      rw [Src.node] at h4 ⊢
      cases h4 with
      | @elem _ own _ _ _ _ _ cs hperm hmk =>
        rw [s1] at hperm
        cases h3 with
        | misc h => cases h
        | elem ho hkids =>
          obtain ⟨w1, _, _⟩ := tag_written ht hp.reserved hp.scope hp.tags hperm ho t2 s2
          have hp' : Place u (attrs.map SrcAttr.toAttr :: chain) (nsPush ns (attrs.map SrcAttr.toAttr)) (sc ++ own) :=
            ⟨reserved_push ht hp.reserved, hb', bound_push hp.scope ht.declarations hperm, fromTags_push hp.tags ht.declarations hperm,
              fun d hd => (List.mem_append.mp hd).elim (hp.decls d) (w1 d)⟩
          simp only [Element.at?, Element.children] at hat
          cases hi : cs[i]? with
          | none => rw [hi] at hat; cases hat
          | some k =>
            rw [hi] at hat
            obtain ⟨t, _, k1, k2, k3, k4, k5⟩ := mirrorsL_at kids cs i k hk hkids hmk hi
            obtain ⟨c', n', sc', t', r1, r2, r3, r4, r5, r6, r7⟩ := mirrors_at p t k e hp' k1 k2 k3 k5 hat
            refine ⟨c', n', sc', t', r1, r2, r3, r4, r5, by rw [seen_at _ _ _ _ _ _ _ _ k4]; exact r6, ?_⟩
            rw [Element.height]
            have := elHeight_mem hi
            omega

/-- The decoder on an element of the document that was written. -/
theorem unmarshal_source (u : Unicode) (srt : Sorter nsLess) (d : SrcDoc) (h : d.Wf u) (hd : d.root.depth ≤ 3001) (hr : Rewritable u [] d.root)
    (more : Str) :
    ∃ el x, parse u srt (d.bytes ++ more) = .ok el ∧ decoderSees u (d.bytes ++ more) = some x ∧
      ∀ p e, el.at? p = some e → unmarshalSees u e = (x.at? p).map XNode.data := by
  obtain ⟨el, p1, p2⟩ := parse_source_mirrors u srt d h hd more
  refine ⟨el, _, p1, decoderSees_source u d h more, ?_⟩
  intro p e hat
  have hp0 : Place u [] [] [] := ⟨fun _ h => by simp at h, bound_nil, bound_nil, fun _ h => by simp at h, by simp⟩
  obtain ⟨c', ns', sc', s', r1, r2, r3, r4, r5, r6, r7⟩ := mirrors_at p d.root el e hp0 h.root h.element hr p2 hat
  have hh : e.height ≤ recursionLimit + 1 := by
    have := mirrors_height p2
    rw [node_height] at this
    have : recursionLimit = 3000 := rfl
    omega
  have hw := wf_alone (mirrors_wf r1.reserved r1.bound r1.scope r1.tags s' e r2 r3 r4 r5) r1.decls
  obtain ⟨o, as, kids, c, hk⟩ := written_el u srt none 0 (fun own => by simp [diffScope]) e hw (by omega)
  have hb : marshal e = (Node.elem o e.name as kids c).bytes := hk.bytes.symm
  have hcount := hk.count 0
  rw [← hb] at hcount
  obtain ⟨fuel, hf⟩ : ∃ fuel, 2 * (marshal e).length + 1 = fuel + ((Node.elem o e.name as kids c).events 0).length :=
    ⟨2 * (marshal e).length + 1 - ((Node.elem o e.name as kids c).events 0).length, by omega⟩
  have hlex := hk.lexes (marshal e).length 0 fuel [] [] (by rw [hb]; simp)
  rw [← hb, List.append_nil] at hlex
  have ht := tokenBytes_node [] [] (tokens u (marshal e).length fuel ⟨[], [], [], none⟩) (.elem o e.name as kids c)
  simp only [List.length_nil, List.nil_append, List.append_nil, Nat.zero_add] at ht
  rw [← hb] at ht
  obtain ⟨el', re1, re2⟩ := hk.re []
  rw [unmarshalSees, decoderSees, Lex.lex, hf, hlex, ht, buildNode_root, r6]
  rw [seen_written s' e _ el' r2 r3 r5 hk.shape re1 re2]
  rfl

end GoXml.Values
