import Verif.Spec.Rewrite
import Verif.Proofs.SourceTree
import Verif.Props.XmlScope
set_option autoImplicit false

/-! Lemmas: what `Parse` returns for a document can be written again. -/

namespace GoXml

open Lex

/-- Every declaration in the scope is in one of the tags. -/
def FromTags (sc : Scope) (chain : List (List Attr)) : Prop := ∀ d ∈ sc, ∃ as ∈ chain, ∃ a ∈ as, DeclAttr a d.loc d.space

theorem fromTags_push {sc own : Scope} {as : List Attr} {chain : List (List Attr)} (h : FromTags sc chain) (hok : TagOk as)
    (hp : own.Perm ((as.filter isNsAttr).map declOf)) : FromTags (sc ++ own) (as :: chain) := by
  intro d hd
  rcases List.mem_append.mp hd with hd | hd
  · obtain ⟨bs, hbs, h⟩ := h d hd
    exact ⟨bs, by simp [hbs], h⟩
  · exact ⟨as, by simp, (decl_mem hok d.loc d.space).mp (hp.mem_iff.mp hd)⟩

theorem nearest_mem {p v : Str} : ∀ {chain : List (List Attr)}, Nearest p v chain → ∃ as ∈ chain, ∃ a ∈ as, DeclAttr a p v
  | as :: chain, .inl ⟨a, ha, hd⟩ => ⟨as, by simp, a, ha, hd⟩
  | as :: chain, .inr ⟨_, h⟩ => by
    obtain ⟨bs, hbs, h⟩ := nearest_mem h
    exact ⟨bs, by simp [hbs], h⟩

theorem written_parts {u : Unicode} {pre loc : Str} (h : QualName u pre loc) : QNameParts (written pre loc) pre loc := by
  have hq := qualName_ok h
  unfold written
  split
  · next hp => exact .inr ⟨hq.lcolon, hp, rfl⟩
  · exact .inl ⟨rfl, hq.pcolon⟩

/-- `xml:` names. -/
theorem prefixOf_xml (sc : Scope) (loc : Str) : prefixOf sc ⟨b!"http://www.w3.org/XML/1998/namespace", loc⟩ = written b!"xml" loc := by
  simp only [prefixOf]
  rw [if_neg (by decide), if_pos (by rfl)]
  rfl

theorem binds_xml {chain : List (List Attr)} {ns : Str} (h : Binds chain b!"xml" ns) : ns = b!"http://www.w3.org/XML/1998/namespace" := by
  rcases h with ⟨_, h⟩ | ⟨h, _⟩
  · exact h
  · exact absurd rfl h

/-- The prefix that `Prefix` finds still stands for the namespace. -/
theorem prefixOf_lasting {u : Unicode} {sc : Scope} {chain : List (List Attr)} (hb : Bound sc chain) (hf : FromTags sc chain)
    {p ns loc : Str} (hx : p ≠ b!"xml") (h : Binds chain p ns) (ho : Lasting u chain ns loc) :
    ∃ q, prefixOf sc ⟨ns, loc⟩ = written q loc ∧ QualName u q loc ∧ (q ≠ b!"xmlns" ∧ (q = [] → loc ≠ b!"xmlns")) ∧ resolve sc (written q loc) = ⟨ns, loc⟩ ∧
      (NeverDefault chain ns → q ≠ []) := by
  obtain ⟨hns, hall⟩ := ho
  simp only [List.mem_cons, List.not_mem_nil, or_false, not_or] at hns
  have hn : Nearest p ns chain := by
    rcases h with ⟨h, _⟩ | ⟨_, h⟩
    · exact absurd h hx
    · exact h
  have hmem : (⟨ns, p⟩ : XName) ∈ sc := by
    obtain ⟨o, i, e, _⟩ := (hb p ns).mpr hn
    rw [e]; simp
  obtain ⟨q, hfav⟩ := favoured_exists ⟨_, hmem, rfl⟩
  have hqm : (⟨ns, q⟩ : XName) ∈ sc := by
    rcases hfav with ⟨rfl, hm⟩ | ⟨_, o, i, e, _⟩
    · exact hm
    · rw [e]; simp
  obtain ⟨as, has, a, ha, hd⟩ := hf _ hqm
  obtain ⟨q2, q3, q1, q4⟩ := hall as has a ha q hd
  obtain ⟨_, _, c3, _, c5⟩ := C03_resolveNS sc _ _ _ (written_parts q3)
  have hqx : q ≠ b!"xml" := by
    rintro rfl
    exact hns.2.1 (binds_xml q2)
  have hqn : Nearest q ns chain := by
    rcases q2 with ⟨h, _⟩ | ⟨_, h⟩
    · exact absurd h hqx
    · exact h
  refine ⟨q, C06_prefix_favoured sc ns loc q hns (qualName_ok q3).lne hfav, q3, ⟨q1, q4⟩, by rw [c5, c3 hqx q1 ns ((hb q ns).mpr hqn)], ?_⟩
  rintro hnd rfl
  exact hnd as has a ha hd

theorem elemName_written {u : Unicode} {sc : Scope} {chain : List (List Attr)} (hb : Bound sc chain) (hf : FromTags sc chain)
    {p ns loc : Str} (ho : ElemLasts u chain p loc) (hq : QualName u p loc) (hl : p = [] → loc ≠ b!"xmlns") (h : ElemSpace chain p ns) :
    ElemNameOk u sc ⟨ns, loc⟩ := by
  rcases ho ns h with rfl | ⟨rfl, rfl⟩ | hlast
  · rcases h with h | ⟨h, _⟩
    · obtain ⟨c1, _, _, _, c5⟩ := C03_resolveNS sc _ _ _ (written_parts hq)
      rw [binds_xml h]
      exact ⟨_, loc, by rw [prefixOf_xml]; exact qualName_ok hq, by decide, fun h => absurd h.1 (by decide), by rw [prefixOf_xml, c5, c1 rfl]⟩
    · cases h
  · have hpre : prefixOf sc ⟨[], loc⟩ = loc := by simp [prefixOf]
    have hw : written [] loc = loc := by simp [written]
    obtain ⟨_, _, c3, c4, c5⟩ := C03_resolveNS sc _ _ _ (written_parts hq)
    refine ⟨[], loc, by rw [hpre]; exact qualName_ok hq, by decide, fun h => hl rfl h.2, ?_⟩
    rw [hpre]
    rw [hw] at c5
    rcases h with h | ⟨_, _, hn⟩
    · rcases h with ⟨h, _⟩ | ⟨_, h⟩
      · cases h
      · rw [c5, ← hw, c3 (by decide) (by decide) _ ((hb _ _).mpr h), hw]
    · have hnd : ¬ Declared sc [] := fun hd => by
        obtain ⟨v, hv⟩ := innermost_exists hd
        exact hn v ((hb [] v).mp hv)
      rw [c5, ← hw, c4 (by decide) (by decide) hnd, hw]
  · by_cases hx : p = b!"xml"
    · subst hx
      rcases h with h | ⟨h, _⟩
      · have := hlast.1
        rw [binds_xml h] at this
        simp at this
      · cases h
    · rcases h with h | ⟨_, rfl, _⟩
      · obtain ⟨q, h1, h2, h3, h4, _⟩ := prefixOf_lasting hb hf hx h hlast
        exact ⟨q, loc, by rw [h1]; exact qualName_ok h2, h3.1, fun h => h3.2 h.1 h.2, by rw [h1, h4]⟩
      · exact absurd (by simp) hlast.1

theorem attrName_written {u : Unicode} {sc : Scope} {chain : List (List Attr)} (hb : Bound sc chain) (hf : FromTags sc chain)
    {p ns loc : Str} (ho : AttrLasts u chain p loc) (hq : QualName u p loc) (hl : loc ≠ b!"xmlns") (hr : ns ≠ b!"xmlns")
    (h : AttrSpace chain p ns) : AttrNameOk u sc ⟨ns, loc⟩ := by
  refine ⟨hr, hl, ?_⟩
  have ho := ho ns h
  rcases h with ⟨rfl, rfl⟩ | ⟨hne, h⟩
  · have hpre : prefixOf sc ⟨[], loc⟩ = loc := by simp [prefixOf]
    exact ⟨[], loc, by rw [hpre]; exact qualName_ok hq, by decide, hl, .inl ⟨rfl, rfl⟩⟩
  · by_cases hx : p = b!"xml"
    · subst hx
      obtain ⟨c1, _, _, _, c5⟩ := C03_resolveNS sc _ _ _ (written_parts hq)
      rw [binds_xml h]
      exact ⟨_, loc, by rw [prefixOf_xml]; exact qualName_ok hq, by decide, hl, .inr ⟨hne, by rw [prefixOf_xml, c5, c1 rfl]⟩⟩
    · rcases ho with ho | ho | ⟨ho, hnd⟩
      · exact absurd ho hx
      · exact absurd ho hne
      · obtain ⟨q, h1, h2, h3, h4, h5⟩ := prefixOf_lasting hb hf hx h ho
        exact ⟨q, loc, by rw [h1]; exact qualName_ok h2, h3.1, hl, .inr ⟨h5 hnd, by rw [h1, h4]⟩⟩

theorem value_written {u : Unicode} {a : SrcAttr} (h : a.Ok u) (hv : ∀ c ∈ a.value, c ≠ 34 ∧ c ≠ 60 ∧ c ≠ 38 ∧ c ≠ 13) : ValueOk u a.value :=
  ⟨h.chars, hv⟩

theorem decl_written {u : Unicode} {a : SrcAttr} (h : a.Ok u) (hv : ∀ c ∈ a.value, c ≠ 34 ∧ c ≠ 60 ∧ c ≠ 38 ∧ c ≠ 13) {d : XName}
    (hd : DeclAttr a.toAttr d.loc d.space) : DeclOk u d := by
  obtain ⟨h1, h2⟩ := hd
  have hq := qualName_ok h.name
  have hval := value_written h hv
  have e : a.value = d.space := h1
  rw [e] at hval
  refine ⟨hval, ?_⟩
  simp only [SrcAttr.toAttr, XName.mk.injEq] at h2
  rcases h2 with ⟨h3, h4⟩ | ⟨⟨h3, h4⟩, h5⟩
  · have hn := h.name
    rw [h3, h4] at hn hq
    refine ⟨hq.lcolon, fun c hc => hq.bytes c ?_, ?_⟩
    · simp [written, hc]
    · rw [if_neg hq.lne]
      simpa [written] using hq.name
  · have := hq.name
    rw [h3, h4] at this
    rw [h5]
    exact ⟨by simp, by simp, by simpa [written] using this⟩

/-- Everything about the tag of an element. -/
theorem tag_written {u : Unicode} {chain : List (List Attr)} {pre loc : Str} {attrs : List SrcAttr} {space : Str}
    (h : TagWf u chain pre loc attrs space) (hr : Reserved chain) {sc own : Scope} (hc : Bound sc chain) (hf : FromTags sc chain)
    (hp : own.Perm (((attrs.map SrcAttr.toAttr).filter isNsAttr).map declOf))
    (ho : TagLasts u (attrs.map SrcAttr.toAttr :: chain) pre loc attrs) {ns : Str} (hs : ElemSpace (attrs.map SrcAttr.toAttr :: chain) pre ns)
    {as : List Attr} (ha : MeansAttrs (attrs.map SrcAttr.toAttr :: chain) attrs as) :
    (∀ d ∈ own, DeclOk u d) ∧ ElemNameOk u (sc ++ own) ⟨ns, loc⟩ ∧ (∀ a ∈ as, AttrNameOk u (sc ++ own) a.name ∧ ValueOk u a.value) := by
  have hb := bound_push hc h.declarations hp
  have hf' := fromTags_push hf h.declarations hp
  have hr' := reserved_push h hr
  refine ⟨?_, elemName_written hb hf' ho.element h.name h.element.2.1 hs, ?_⟩
  · intro d hd
    obtain ⟨a, ha, hd⟩ := (decl_mem h.declarations d.loc d.space).mp (hp.mem_iff.mp hd)
    obtain ⟨s, hs, rfl⟩ := List.mem_map.mp ha
    exact decl_written (h.each s hs) (ho.values s hs) hd
  · intro a haa
    unfold MeansAttrs at ha
    have key : ∀ {l : List SrcAttr} {as : List Attr}, List.Forall₂ (fun (s : SrcAttr) (a : Attr) => a.name.loc = s.loc ∧ a.value = s.value ∧
        AttrSpace (attrs.map SrcAttr.toAttr :: chain) s.pre a.name.space) l as → a ∈ as → ∃ s ∈ l, a.name.loc = s.loc ∧ a.value = s.value ∧
        AttrSpace (attrs.map SrcAttr.toAttr :: chain) s.pre a.name.space := by
      intro l as hfa hm
      induction hfa with
      | nil => simp at hm
      | cons h1 _ ih =>
        rcases List.mem_cons.mp hm with rfl | hm
        · exact ⟨_, by simp, h1⟩
        · obtain ⟨s, hs, h⟩ := ih hm
          exact ⟨s, by simp [hs], h⟩
    obtain ⟨s, hs, h1, h2, h3⟩ := key ha haa
    simp only [List.mem_filter, Bool.not_eq_true'] at hs
    obtain ⟨hs, hd⟩ := hs
    have hd' := hd
    simp only [SrcAttr.declares, Bool.or_eq_false_iff, Bool.and_eq_false_iff, beq_eq_false_iff_ne, ne_eq] at hd'
    have hl : s.loc ≠ b!"xmlns" := by
      intro hl
      rcases h.declarations.2.1 s.toAttr (List.mem_map_of_mem hs) hl with h | h
      · rcases hd'.2 with hd | hd
        · exact hd h
        · exact hd hl
      · exact hd'.1 h
    refine ⟨?_, by rw [h2]; exact value_written (h.each s hs) (ho.values s hs)⟩
    have e : a.name = ⟨a.name.space, s.loc⟩ := by rw [← h1]
    rw [e]
    exact attrName_written hb hf' (ho.attributes s hs hd) (h.each s hs).name hl (attrSpace_reserved hr' h3) h3

theorem meansL_misc {chain : List (List Attr)} : ∀ {ss : List Src}, MeansL chain ss [] → ∀ s ∈ ss, s.isMisc = true
  | [], _ => by simp
  | s :: ss, .misc h1 h2 => List.forall_mem_cons.mpr ⟨h1, meansL_misc h2⟩

mutual
theorem mirrors_wf {u : Unicode} {chain : List (List Attr)} (hr : Reserved chain) {ns sc : Scope} (hb : Bound ns chain) (hc : Bound sc chain)
    (hf : FromTags sc chain) :
    ∀ (s : Src) (e : Element), SrcWf u chain s → s.isMisc = false → Rewritable u chain s → Mirrors sc (s.node ns) e → Wf u sc e
  | .text _, _, _, hm, _, _ => by cases hm
  | .comment _, _, _, hm, _, _ => by cases hm
  | .cdata _, _, _, hm, _, _ => by cases hm
  | .pi _ _, _, _, hm, _, _ => by cases hm
  | .doctype _, _, _, hm, _, _ => by cases hm
  | .empty pre loc attrs space, e, h, _, hre, hmir => by
    cases h with
    | empty ht =>
      have hb' := tag_means ht hr hb
      obtain ⟨s1, s2⟩ := spaced_attrs ht hr hb'
      obtain ⟨el1, el2, el3⟩ := ht.element
      obtain ⟨sp, t1, t2⟩ := translate_element (l := loc) hb' el1 el2 el3
      rw [Src.node, t1] at hmir
      cases hmir with
      | elem hp hk =>
        cases hk
        rw [s1] at hp
        cases hre with
        | misc h => cases h
        | empty ho =>
          obtain ⟨w1, w2, w3⟩ := tag_written ht hr hc hf hp ho t2 s2
          exact Wf.leaf (pieces := []) w1 w2 w3 .nil
  | .elem pre loc attrs space kids endSpace, e, h, _, hre, hmir => by
    cases h with
    | elem ht hk _ =>
      have hb' := tag_means ht hr hb
      obtain ⟨s1, s2⟩ := spaced_attrs ht hr hb'
      obtain ⟨el1, el2, el3⟩ := ht.element
      obtain ⟨sp, t1, t2⟩ := translate_element (l := loc) hb' el1 el2 el3
      rw [Src.node, t1] at hmir
      cases hmir with
      | @elem _ own _ _ _ _ _ cs hp hmk =>
        rw [s1] at hp
        cases hre with
        | misc h => cases h
        | elem ho hkids =>
          have hc' := bound_push hc ht.declarations hp
          obtain ⟨w1, w2, w3⟩ := tag_written ht hr hc hf hp ho t2 s2
          cases cs with
          | nil =>
            have hmisc := meansL_misc (mirrorsL_means (reserved_push ht hr) hb' hc' kids _ hk hmk)
            have := Wf.leaf w1 w2 w3 (srcs_misc hk hmisc)
            rw [srcBytes_flatten] at this
            rw [nodes_bytes]
            exact this
          | cons k ks =>
            exact Wf.node w1 w2 w3 (mirrorsL_wf (reserved_push ht hr) hb' hc' (fromTags_push hf ht.declarations hp) kids _ hk hkids hmk)
theorem mirrorsL_wf {u : Unicode} {chain : List (List Attr)} (hr : Reserved chain) {ns sc : Scope} (hb : Bound ns chain) (hc : Bound sc chain)
    (hf : FromTags sc chain) :
    ∀ (ss : List Src) (es : List Element), SrcsWf u chain ss → (∀ s ∈ ss, Rewritable u chain s) → MirrorsL sc (srcNodes ns ss) es → WfL u sc es
  | [], es, _, _, hm => by cases hm; exact .nil
  | s :: ss, es, h, hre, hm => by
    cases h with
    | cons h1 h2 _ =>
      cases hmisc : s.isMisc with
      | true =>
        rw [srcNodes, node_misc hmisc] at hm
        cases hm with
        | text hm => exact mirrorsL_wf hr hb hc hf ss _ h2 (fun t ht => hre t (by simp [ht])) hm
      | false =>
        rw [srcNodes] at hm
        generalize hn : s.node ns = n at hm
        cases hm with
        | text hm =>
          cases s <;> first | (cases hmisc; done) | (rw [Src.node] at hn; cases hn; done)
        | elem hm1 hm2 =>
          rw [← hn] at hm1
          exact .cons (mirrors_wf hr hb hc hf s _ h1 hmisc (hre s (by simp)) hm1)
            (mirrorsL_wf hr hb hc hf ss _ h2 (fun t ht => hre t (by simp [ht])) hm2)
end

mutual
theorem mirrors_height {sc : Scope} : ∀ {n : Node} {e : Element}, Mirrors sc n e → e.height = n.height
  | .elem _ _ _ _ _, _, .elem _ hk => by rw [Element.height, Node.height, mirrorsL_height hk]
theorem mirrorsL_height {sc : Scope} : ∀ {ns : List Node} {es : List Element}, MirrorsL sc ns es → elHeightL es = heightL ns
  | [], _, .nil => rfl
  | .text _ :: ns, _, .text h => by simp [heightL, Node.height, mirrorsL_height h]
  | .elem _ _ _ _ _ :: ns, _, .elem h1 h2 => by rw [elHeightL, heightL, mirrors_height h1, mirrorsL_height h2]
end

end GoXml
