import Verif.Model.XsdAnnotation
import Verif.Spec.XsdAnnotation
import Verif.Proofs.RoundTrip
import Verif.Proofs.Source
import Verif.Proofs.Gen
set_option autoImplicit false

namespace GoXml.Xsd
open Lex

mutual
/-- The tokens of a piece of a document, each with its bytes. -/
def nodeToks : Node → List (Tok × Str)
  | .text b => [(.other, b)]
  | .elem o n as ks c => (.start n as, o) :: (toksL ks ++ [(.stop n, c)])
def toksL : List Node → List (Tok × Str)
  | [] => []
  | n :: ns => nodeToks n ++ toksL ns
end

theorem slice_mid (pre x post : Str) : slice (pre ++ x ++ post) pre.length (pre.length + x.length) = x := by
  simp [slice]

mutual
theorem tokenBytes_node (pre post : Str) (more : List (Tok × Nat)) : (n : Node) →
    tokenBytes (pre ++ n.bytes ++ post) pre.length (n.events pre.length ++ more) =
      nodeToks n ++ tokenBytes (pre ++ n.bytes ++ post) (pre.length + n.bytes.length) more
  | .text b => by
    simp only [Node.bytes, Node.events, nodeToks, List.cons_append, List.nil_append, tokenBytes, slice_mid]
  | .elem o n as ks c => by
    have h := tokenBytes_list (pre ++ o) (c ++ post) ((.stop n, pre.length + o.length + (bytesL ks).length + c.length) :: more) ks
    have e : pre ++ o ++ bytesL ks ++ (c ++ post) = pre ++ (o ++ bytesL ks ++ c) ++ post := by simp
    rw [e, List.length_append] at h
    have s1 : slice (pre ++ (o ++ bytesL ks ++ c) ++ post) pre.length (pre.length + o.length) = o := by
      have := slice_mid pre o (bytesL ks ++ c ++ post)
      simpa using this
    have s2 : slice (pre ++ (o ++ bytesL ks ++ c) ++ post) (pre.length + o.length + (bytesL ks).length)
        (pre.length + o.length + (bytesL ks).length + c.length) = c := by
      have := slice_mid (pre ++ o ++ bytesL ks) c post
      simpa [Nat.add_assoc] using this
    simp only [List.append_assoc] at h s1 s2
    simp only [Node.bytes, Node.events, nodeToks, List.cons_append, tokenBytes, List.append_assoc, List.nil_append, s1]
    rw [h]
    simp only [tokenBytes, s2, List.length_append]
    simp only [Nat.add_assoc]
theorem tokenBytes_list (pre post : Str) (more : List (Tok × Nat)) : (ns : List Node) →
    tokenBytes (pre ++ bytesL ns ++ post) pre.length (eventsL pre.length ns ++ more) =
      toksL ns ++ tokenBytes (pre ++ bytesL ns ++ post) (pre.length + (bytesL ns).length) more
  | [] => by simp [eventsL, toksL, bytesL]
  | n :: ns => by
    have h1 := tokenBytes_node pre (bytesL ns ++ post) (eventsL (pre.length + n.bytes.length) ns ++ more) n
    have h2 := tokenBytes_list (pre ++ n.bytes) post more ns
    simp only [List.length_append, List.append_assoc] at h1 h2
    simp only [bytesL, eventsL, toksL, List.append_assoc, List.length_append]
    rw [h1, h2, Nat.add_assoc]
end

theorem skipToks_other (d : Nat) (b : Str) (r : List (Tok × Str)) : skipToks d ((.other, b) :: r) = skipToks d r := by
  cases d <;> rfl

mutual
theorem skipToks_node (d : Nat) (r : List (Tok × Str)) : (n : Node) → skipToks d (nodeToks n ++ r) = skipToks d r
  | .text b => by simp only [nodeToks, List.cons_append, List.nil_append, skipToks_other]
  | .elem o n as ks c => by
    simp only [nodeToks, List.cons_append, List.append_assoc, List.nil_append, skipToks]
    rw [skipToks_list (d + 1) _ ks]
    rfl
theorem skipToks_list (d : Nat) (r : List (Tok × Str)) : (ns : List Node) → skipToks d (toksL ns ++ r) = skipToks d r
  | [] => by simp [toksL]
  | n :: ns => by
    simp only [toksL, List.append_assoc]
    rw [skipToks_node d _ n, skipToks_list d r ns]
end

mutual
theorem decodeBytes_skip (d : Nat) (r : List (Tok × Str)) : (n : Node) →
    decodeBytes (d + 1) (nodeToks n ++ r) = decodeBytes (d + 1) r
  | .text b => by simp only [nodeToks, List.cons_append, List.nil_append, decodeBytes]
  | .elem o n as ks c => by
    simp only [nodeToks, List.cons_append, List.append_assoc, List.nil_append, decodeBytes]
    rw [decodeBytes_skipL (d + 1) _ ks]
    rfl
theorem decodeBytes_skipL (d : Nat) (r : List (Tok × Str)) : (ns : List Node) →
    decodeBytes (d + 1) (toksL ns ++ r) = decodeBytes (d + 1) r
  | [] => by simp [toksL]
  | n :: ns => by
    simp only [toksL, List.append_assoc]
    rw [decodeBytes_skip d _ n, decodeBytes_skipL d r ns]
end

/-- The character data between pieces, outside elements. -/
def textsOf : List Node → Str
  | [] => []
  | .text b :: ns => tokenText b ++ textsOf ns
  | .elem .. :: ns => textsOf ns

theorem decodeBytes_list (n : XName) (c : Str) (r : List (Tok × Str)) : (ns : List Node) →
    decodeBytes 0 (toksL ns ++ (.stop n, c) :: r) = some (textsOf ns, r)
  | [] => by simp [toksL, decodeBytes, textsOf]
  | .text b :: ns => by
    simp only [toksL, nodeToks, List.cons_append, List.nil_append, decodeBytes, textsOf]
    rw [decodeBytes_list n c r ns]
    rfl
  | .elem o m as ks c' :: ns => by
    simp only [toksL, nodeToks, List.cons_append, List.append_assoc, List.nil_append, decodeBytes, textsOf]
    rw [decodeBytes_skipL 0 _ ks]
    simp only [decodeBytes]
    rw [decodeBytes_list n c r ns]

/-- The fragments that the loop collects from the pieces inside an annotation. -/
def frags : List Node → List Str
  | [] => []
  | .text _ :: ns => frags ns
  | .elem _ n _ ks _ :: ns =>
    if n ≠ ⟨schemaNS, b!"documentation"⟩ then [trimSpace (textsOf ns)] else trimSpace (textsOf ks) :: frags ns

theorem annotationLoop_list (n : XName) (c : Str) (r : List (Tok × Str)) : (ns : List Node) → (k : Nat) →
    (toksL ns).length + 1 ≤ k →
    annotationLoop k (toksL ns ++ (.stop n, c) :: r) = some (frags ns)
  | [], k, hk => by
    obtain ⟨k, rfl⟩ : ∃ j, k = j + 1 := ⟨k - 1, by simp [toksL] at hk; omega⟩
    simp [toksL, annotationLoop, frags]
  | .text b :: ns, k, hk => by
    simp only [toksL, nodeToks, List.cons_append, List.nil_append, List.length_cons] at hk ⊢
    obtain ⟨k, rfl⟩ : ∃ j, k = j + 1 := ⟨k - 1, by omega⟩
    simp only [annotationLoop, frags]
    exact annotationLoop_list n c r ns k (by omega)
  | .elem o m as ks c' :: ns, k, hk => by
    simp only [toksL, nodeToks, List.cons_append, List.append_assoc, List.nil_append, List.length_cons, List.length_append] at hk ⊢
    obtain ⟨k, rfl⟩ : ∃ j, k = j + 1 := ⟨k - 1, by omega⟩
    simp only [annotationLoop, frags]
    split
    · rw [skipToks_list 0 _ ks]
      simp only [skipToks]
      rw [decodeBytes_list n c r ns]
      rfl
    · rw [decodeBytes_list m c' _ ks]
      simp only
      rw [annotationLoop_list n c r ns k (by omega)]
      rfl

theorem unmarshalAnnotation_elem (o : Str) (n : XName) (as : List Attr) (ks : List Node) (c : Str) (r : List (Tok × Str)) :
    unmarshalAnnotation (nodeToks (.elem o n as ks c) ++ r) = some (trimSpace (joinFrags ([] :: frags ks))) := by
  simp only [nodeToks, List.cons_append, unmarshalAnnotation, afterRoot, List.append_assoc, List.nil_append]
  rw [annotationLoop_list n c r ks _ (by simp)]
  rfl

/-! ### Text -/

theorem newlines_spec {cr : Bool} {raw v : Str} (h : LineEnds cr raw v) : ∀ b1 : UInt8, (b1 = 13 ↔ cr = true) → newlines b1 raw = v := by
  induction h with
  | nil => intro b1 _; rfl
  | cr _ ih => intro b1 _; simp only [newlines, if_true]; rw [ih 13 (by decide)]
  | crlf _ ih =>
    intro b1 hb
    simp only [newlines, hb.mpr rfl]
    rw [if_neg (by decide), if_pos (by decide), ih 10 (by decide)]
  | @char cr c raw v h1 h2 _ ih =>
    intro b1 hb
    simp only [newlines]
    rw [if_neg h1, if_neg ?_, ih c (by simp [h1])]
    intro hc
    simp only [Bool.and_eq_true, decide_eq_true_eq] at hc
    have := hb.mp hc.1
    rw [h2 hc.2] at this
    cases this

theorem tokenText_piece {u : Unicode} {chain : List (List Attr)} {s : Src} {t : Str} (hw : SrcWf u chain s) (h : PieceText s t) :
    tokenText s.bytes = t := by
  cases h with
  | @text raw v hd =>
    cases hw with
    | text hne _ _ hi =>
      have := textLoop_decodes_end (quote := none) (tail := []) (after := []) (Or.inl rfl) (Or.inl ⟨rfl, rfl⟩) hd (raw.length + 1) 0 0 (by omega)
        (by decide) (fun _ hin => by
          apply hi
          obtain ⟨s, t, hst⟩ := hin
          rcases s with _ | ⟨a, _ | ⟨b, s⟩⟩
          · simp at hst
          · simp at hst
          · simp only [List.cons_append, List.cons.injEq] at hst
            exact ⟨s, t, hst.2.2⟩)
      rw [List.append_nil] at this
      have hc : ∀ r, raw ≠ 60 :: r := by
        rintro r rfl
        cases hd with
        | char _ h2 => exact h2 rfl
      simp only [Src.bytes]
      unfold tokenText
      split
      · rename_i r _; exact absurd rfl (hc _)
      · exact absurd rfl (hc _)
      · rw [this]
  | @cdata body v hl =>
    have : Src.bytes (.cdata body) = 60 :: 33 :: 91 :: 67 :: 68 :: 65 :: 84 :: 65 :: 91 :: (body ++ [93, 93, 62]) := by simp [Src.bytes]
    rw [this]
    simp only [tokenText, List.length_append, List.length_cons, List.length_nil, Nat.zero_add, Nat.reduceAdd, Nat.add_sub_cancel, List.take_left]
    exact newlines_spec hl 0 (by decide)
  | comment => simp [Src.bytes, tokenText]
  | pi => simp [Src.bytes, tokenText]

theorem pieceText_misc {s : Src} {t : Str} (h : PieceText s t) : s.isMisc = true := by cases h <;> rfl

/-- The tokenizer reads the first piece as one token. -/
theorem misc_token {u : Unicode} {t : Str} {ts : List Str} (h : Misc u (t :: ts)) (stack : List (XName × Scope)) (ns : Scope) :
    token u ⟨t ++ (ts.flatten ++ [60]), stack, ns, none⟩ = some (.other, ⟨ts.flatten ++ [60], stack, ns, none⟩) ∧ Misc u ts := by
  cases h with
  | cons ht hn hm =>
    refine ⟨?_, hm⟩
    cases ts with
    | nil => exact ht.2 stack ns []
    | cons t' ps =>
      obtain ⟨r, rfl⟩ := hn t' (by simp)
      simpa using ht.2 stack ns (r ++ (ps.flatten ++ [60]))
  | markup ht hm => exact ⟨ht.2 stack ns _, hm⟩

/-- Content is cut into tokens in one way only. -/
theorem textsOf_pieces {u : Unicode} : ∀ {pieces : List Str} {ss : List Src} {ts : List Str}, Misc u pieces → SrcsWf u [] ss →
    pieces.flatten = srcBytes ss → List.Forall₂ PieceText ss ts → textsOf (pieces.map .text) = ts.flatten
  | [], [], _, _, _, _, .nil => rfl
  | [], s :: ss, _, _, .cons hs _ _, he, _ => by
    exfalso
    simp only [List.flatten_nil, srcBytes] at he
    have := (List.append_eq_nil_iff.mp he.symm).1
    cases hs <;> simp [Src.bytes] at this
    contradiction
  | t :: pieces, [], _, hm, _, he, _ => by
    simp only [List.flatten_cons, srcBytes] at he
    exact absurd (List.append_eq_nil_iff.mp he).1 (misc_ne hm t (by simp))
  | t :: pieces, s :: ss, _, hm, .cons hs hss htx, he, .cons hp hps => by
    simp only [List.flatten_cons, srcBytes] at he
    obtain ⟨h1, hm⟩ := misc_token hm [] []
    have h2 : token u ⟨s.bytes ++ (srcBytes ss ++ [60]), [], [], none⟩ = some (.other, ⟨srcBytes ss ++ [60], [], [], none⟩) := by
      refine token_misc hs (pieceText_misc hp) [] [] _ fun hx => ?_
      cases hss with
      | nil => exact ⟨[], rfl⟩
      | @cons _ s' ss' h3 _ _ =>
        obtain ⟨r, hr⟩ := bytes_start h3 (htx hx s' (by simp))
        exact ⟨r ++ srcBytes ss' ++ [60], by simp [srcBytes, hr]⟩
    rw [← List.append_assoc, he, List.append_assoc, h2] at h1
    have e1 : srcBytes ss = pieces.flatten := by
      have := (Prod.mk.inj (Option.some.inj h1)).2
      have := congrArg St.inp this
      simpa using this
    have e2 : t = s.bytes := by
      rw [e1] at he
      exact List.append_cancel_right he
    rw [List.map_cons, textsOf, e2, tokenText_piece hs hp, textsOf_pieces hm hss e1.symm hps, List.flatten_cons]

theorem textsOf_shape {u : Unicode} {els : List Element} {ns : List Node} (h : ShapeL u els ns) : textsOf ns = [] := by
  match els, ns, h with
  | _, _, .nil => rfl
  | _, _, .cons (.leaf _) h2 => rw [textsOf]; exact textsOf_shape h2
  | _, _, .cons (.node _) h2 => rw [textsOf]; exact textsOf_shape h2

/-! ### Trimming -/

theorem trimLeft_space {a : Str} (ha : ∀ c ∈ a, isSpace c = true) (s : Str) : trimLeft (a ++ s) = trimLeft s := by
  induction a with
  | nil => rfl
  | cons c a ih =>
    simp only [List.cons_append, trimLeft, ha c (by simp), if_true]
    exact ih fun d hd => ha d (by simp [hd])

theorem trimLeft_append (s b : Str) : trimLeft (s ++ b) = if trimLeft s = [] then trimLeft b else trimLeft s ++ b := by
  induction s with
  | nil => simp [trimLeft]
  | cons c s ih =>
    simp only [List.cons_append, trimLeft]
    split
    · exact ih
    · simp

theorem trimSpace_around {a b : Str} (ha : ∀ c ∈ a, isSpace c = true) (hb : ∀ c ∈ b, isSpace c = true) (s : Str) :
    trimSpace (a ++ s ++ b) = trimSpace s := by
  have hb' : trimLeft b = [] := by
    have := trimLeft_space hb []
    simpa [trimLeft] using this
  unfold trimSpace
  rw [List.append_assoc, trimLeft_space ha, trimLeft_append]
  split
  · rename_i h; rw [h, hb']
  · rw [List.reverse_append, trimLeft_space (fun c hc => hb c (by simpa using hc))]

theorem joinFrags_eq (l : List Str) : joinFrags l = List.intercalate b!"\n\n" l := by
  induction l with
  | nil => rfl
  | cons s l ih =>
    cases l with
    | nil => simp [joinFrags, List.intercalate]
    | cons t l => rw [joinFrags, ih]; simp [List.intercalate, List.append_assoc]

theorem trimSpace_first (l : List Str) : trimSpace (joinFrags ([] :: l)) = trimSpace (joinFrags l) := by
  cases l with
  | nil => rfl
  | cons s l =>
    have := trimSpace_around (a := b!"\n\n") (b := []) (by decide) (by simp) (joinFrags (s :: l))
    simpa [joinFrags] using this

theorem joinFrags_last (l : List Str) : joinFrags (l ++ [[]]) = joinFrags l ∨ joinFrags (l ++ [[]]) = joinFrags l ++ b!"\n\n" := by
  induction l with
  | nil => exact .inl rfl
  | cons s l ih =>
    cases l with
    | nil => exact .inr (by simp [joinFrags])
    | cons t l =>
      simp only [List.cons_append, joinFrags] at ih ⊢
      rcases ih with ih | ih
      · rw [ih]; exact .inl rfl
      · rw [ih]; exact .inr (by simp)

theorem trimSpace_last (l : List Str) : trimSpace (joinFrags (l ++ [[]])) = trimSpace (joinFrags l) := by
  rcases joinFrags_last l with h | h
  · rw [h]
  · have := trimSpace_around (a := []) (b := b!"\n\n") (by simp) (by decide) (joinFrags l)
    rw [h]; simpa using this

/-! ### The annotation of an element -/

theorem frags_docs {u : Unicode} : ∀ {ds rest : List Element} {raws : List Str} {ns : List Node}, ShapeL u (ds ++ rest) ns →
    List.Forall₂ (fun d t => IsDoc d ∧ HasText u d t) ds raws → (∀ e ∈ rest.head?, ¬ IsDoc e) →
    ∃ texts : List Str, List.Forall₂ Gen.TrimmedTo raws texts ∧
      (frags ns = texts ∨ frags ns = texts ++ [[]])
  | [], rest, _, ns, h, .nil, hr => by
    refine ⟨[], .nil, ?_⟩
    match rest, ns, h with
    | [], _, .nil => exact .inl rfl
    | k :: ks, _, .cons hk hks =>
      right
      have hn : k.name ≠ ⟨schemaNS, b!"documentation"⟩ := hr k (by simp)
      have ht := textsOf_shape hks
      cases hk with
      | leaf _ => simp only [Element.name] at hn; simp [frags, hn, ht, trimSpace, trimLeft]
      | node _ => simp only [Element.name] at hn; simp [frags, hn, ht, trimSpace, trimLeft]
  | d :: ds, rest, _, ns, h, .cons hd hds, hr => by
    match ns, h with
    | n :: ns, .cons hk hks =>
      obtain ⟨texts, h1, h3⟩ := frags_docs hks hds hr
      obtain ⟨hdoc, hpl, ss, ts, hw, hc, hp, rfl⟩ := hd
      cases hk with
      | node _ => simp [Element.children] at hpl
      | @leaf name attrs as sc pieces o c hm =>
        have hname : name = ⟨schemaNS, b!"documentation"⟩ := hdoc
        simp only [Element.content] at hc
        refine ⟨trimSpace ts.flatten :: texts, .cons (Gen.trimSpace_spec _) h1, ?_⟩
        simp only [frags, hname, ne_eq, not_true, if_false, textsOf_pieces hm hw hc hp, List.cons_append, List.cons.injEq, true_and]
        exact h3

theorem parseAnnotation_docs (u : Unicode) (srt : Sorter nsLess) (el : Element) (ds rest : List Element) (raws : List Str) (hw : Wf u [] el)
    (hh : el.height ≤ 3001) (hs : el.children = ds ++ rest) (hd : List.Forall₂ (fun d t => IsDoc d ∧ HasText u d t) ds raws)
    (hr : ∀ e ∈ rest.head?, ¬ IsDoc e) : ∃ doc, parseAnnotation u el = some doc ∧ JoinedDocs raws doc := by
  obtain ⟨o, as, kids, c, more, h1, h2, h3⟩ := lex_marshal u srt el hw hh
  have ht := tokenBytes_node [] [] more (.elem o el.name as kids c)
  simp only [List.nil_append, List.append_nil, List.length_nil] at ht
  have hres : parseAnnotation u el = some (trimSpace (joinFrags ([] :: frags kids))) := by
    rw [parseAnnotation, h2, h1, ht, unmarshalAnnotation_elem]
  have hf : ∃ texts : List Str, List.Forall₂ Gen.TrimmedTo raws texts ∧
      trimSpace (joinFrags (frags kids)) = trimSpace (joinFrags texts) := by
    cases h3 with
    | @leaf name attrs as sc pieces o c hm =>
      simp only [Element.children] at hs
      obtain ⟨rfl, rfl⟩ := List.append_eq_nil_iff.mp hs.symm
      cases hd
      refine ⟨[], .nil, ?_⟩
      have : ∀ ps : List Str, frags (ps.map .text) = [] := by
        intro ps
        induction ps with
        | nil => rfl
        | cons p ps ih => simpa [frags] using ih
      rw [this]
    | node hl =>
      simp only [Element.children] at hs
      rw [hs] at hl
      obtain ⟨texts, a1, a3⟩ := frags_docs hl hd hr
      refine ⟨texts, a1, ?_⟩
      rcases a3 with a3 | a3
      · rw [a3]
      · rw [a3, trimSpace_last]
  obtain ⟨texts, a1, a3⟩ := hf
  refine ⟨_, hres, texts, a1, ?_⟩
  rw [trimSpace_first, a3, joinFrags_eq]
  exact Gen.trimSpace_spec _

end GoXml.Xsd
