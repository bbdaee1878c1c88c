import Verif.Proofs.XsdCanonical
import Verif.Proofs.XsdErrors
import Verif.Props.XsdExpand
import Verif.Spec.XsdNormal
set_option autoImplicit false

/-! Lemmas: what `dereference` does to schemas whose references lead to declarations without contents. -/

namespace GoXml.Xsd
open Wsdl

/-- As `Linked`, with nothing inside the elements referred to. -/
structure Tied (ts : List Element) : Prop where
  decl : ∀ t ∈ ts, ∀ x ∈ below t, IsRef x → Declaration x ∧ PlainAttrs x
  found : ∀ t ∈ ts, ∀ x ∈ below t, IsRef x → ∃ s ∈ ts, ∃ y ∈ below s, Meets (attrNamed s b!"targetNamespace") x y
  leaf : ∀ t ∈ ts, ∀ x ∈ below t, IsRef x → ∀ s ∈ ts, ∀ y ∈ below s, Meets (attrNamed s b!"targetNamespace") x y →
    ¬ IsRef y ∧ y.children = []

theorem relinkedAll_iff {T : Element → Element → Prop} {ks ks' : List Element} : RelinkedAll T ks ks' ↔ List.Forall₂ (Relinked T) ks ks' := by
  induction ks generalizing ks' with
  | nil =>
    cases ks' with
    | nil => simp [RelinkedAll]
    | cons k ks => simp [RelinkedAll]
  | cons k ks ih =>
    cases ks' with
    | nil => simp [RelinkedAll]
    | cons k' ks' => simp [RelinkedAll, ih]

theorem relinked_iff {T : Element → Element → Prop} {t t' : Element} : Relinked T t t' ↔
    (¬ IsRef t ∧ t'.name = t.name ∧ t'.attrs = t.attrs ∧ t'.scope = t.scope ∧ t'.content = t.content ∧ List.Forall₂ (Relinked T) t.children t'.children) ∨
    (IsRef t ∧ ∃ y, T t y ∧ t' = deref t y) := by
  cases t
  rw [Relinked, relinkedAll_iff]
  rfl

theorem hasRef_of_reads {h : EHeap} {t : Element} {e : HElem} (hr : Reads h t e) : HasRef e ↔ IsRef t := by
  unfold HasRef IsRef
  rw [attr_of_reads hr]

theorem forall2_back {α β : Type} {R : α → β → Prop} {l : List α} {m : List β} (h : List.Forall₂ R l m) : ∀ y ∈ m, ∃ x ∈ l, R x y := by
  induction h with
  | nil => intro y hy; cases hy
  | cons h _ ih =>
    intro y hy
    rcases List.mem_cons.mp hy with rfl | hy
    · exact ⟨_, by simp, h⟩
    · obtain ⟨x, h1, h2⟩ := ih y hy
      exact ⟨x, by simp [h1], h2⟩

theorem forall2_mem_right {α β : Type} {R : α → β → Prop} {ks : List α} {cs : List β} (hf : List.Forall₂ R ks cs) {i : Nat} {k : α} (hk : ks[i]? = some k) :
    ∃ c, cs[i]? = some c ∧ R k c := by
  induction hf generalizing i with
  | nil => simp at hk
  | cons h _ ih =>
    cases i with
    | zero => simp only [List.getElem?_cons_zero, Option.some.injEq] at hk; subst hk; exact ⟨_, rfl, h⟩
    | succ i => exact ih hk

theorem below_kid {t x k : Element} (hx : x ∈ below t) (hk : k ∈ x.children) : k ∈ below t := by
  obtain ⟨p, hp, h⟩ := (mem_below_iff t x).mp hx
  obtain ⟨i, hi⟩ := List.getElem?_of_mem hk
  refine (mem_below_iff t k).mpr ⟨p ++ [i], by simp, ?_⟩
  rw [at?_trans [i] h]
  simp [Element.at?, hi]

section
variable {h0 : EHeap} {n : Nat} {roots : List Ptr} {ts : List Element}

theorem below_of_ptr (hr : List.Forall₂ (Holds h0) roots ts) {root p : Ptr} {e : HElem} (hroot : root ∈ roots) (hb : Below h0 root p) (he : h0.get p = some e) :
    ∃ t ∈ ts, ∃ x ∈ below t, Holds h0 root t ∧ Reads h0 x e := by
  obtain ⟨t, ht, r, h1, h2⟩ := forall2_left hr root hroot
  obtain ⟨i, path, x, hx, hxe⟩ := reads_below hb h1 h2 he
  exact ⟨t, ht, x, (mem_below_iff t x).mpr ⟨_, by simp, hx⟩, ⟨r, h1, h2⟩, hxe⟩

theorem ptr_of_below {t : Element} {r : HElem} {root : Ptr} (hg : h0.get root = some r) (hr : Reads h0 t r) {y : Element} (hy : y ∈ below t) :
    ∃ q e, Below h0 root q ∧ h0.get q = some e ∧ Reads h0 y e := by
  obtain ⟨p, hp, hy⟩ := (mem_below_iff t y).mp hy
  have kid : ∀ {t : Element} {r : HElem} {i : Nat} {k : Element}, Reads h0 t r → t.children[i]? = some k →
      ∃ e, KidOf r ⟨r.kids.arr, i⟩ ∧ h0.get ⟨r.kids.arr, i⟩ = some e ∧ Reads h0 k e := by
    intro t r i k hr hk
    obtain ⟨_, _, _, _, r5⟩ := reads_iff.mp hr
    obtain ⟨e, he, hre⟩ := forall2_mem_right r5 hk
    rw [cells_get] at he
    by_cases hi : i < r.kids.len
    · rw [if_pos hi] at he
      exact ⟨e, ⟨rfl, hi⟩, he, hre⟩
    · rw [if_neg hi] at he
      cases he
  have go : ∀ (p : List Nat) {q : Ptr} {t : Element} {e : HElem}, Below h0 root q → h0.get q = some e → Reads h0 t e → t.at? p = some y →
      ∃ q e, Below h0 root q ∧ h0.get q = some e ∧ Reads h0 y e := by
    intro p
    induction p with
    | nil => intro q t e h1 h2 h3 h4; cases t; cases h4; exact ⟨q, e, h1, h2, h3⟩
    | cons i p ih =>
      intro q t e h1 h2 h3 h4
      obtain ⟨k, hk, hx⟩ := at_cons h4
      obtain ⟨e', g1, g2, g3⟩ := kid h3 hk
      exact ih (.step h1 h2 g1) g2 g3 hx
  cases p with
  | nil => exact absurd rfl hp
  | cons i p =>
    obtain ⟨k, hk, hx⟩ := at_cons hy
    obtain ⟨e', g1, g2, g3⟩ := kid hr hk
    exact go p (.kid hg g1) g2 g3 hx

theorem resolveDefault_reads {x : Element} {e : HElem} (hr : Reads h0 x e) (tns : Str) :
    resolveDefault e.scope (e.attr [] b!"name") tns = defines tns x := by
  obtain ⟨_, r2, r3, _⟩ := reads_iff.mp hr
  rw [← Wsdl.resolveDefault_eq, r3]
  unfold HElem.attr Element.attr
  rw [r2]

theorem resolve_reads {x : Element} {e : HElem} (hr : Reads h0 x e) : resolve e.scope (e.attr [] b!"ref") = refersTo x b!"ref" := by
  obtain ⟨_, _, r3, _⟩ := reads_iff.mp hr
  rw [Wsdl.resolve_eq, r3, attr_of_reads hr]
  rfl

/-- Between pointers and elements. -/
theorem refersTo_meets (hr : List.Forall₂ (Holds h0) roots ts) {p q : Ptr} {e r : HElem} {x : Element} (hp : h0.get p = some e) (hx : Reads h0 x e)
    (hq : h0.get q = some r) (h : RefersTo h0 roots p q) :
    IsRef x ∧ ∃ s ∈ ts, ∃ y ∈ below s, Reads h0 y r ∧ Meets (attrNamed s b!"targetNamespace") x y := by
  obtain ⟨e', name, ⟨_, g1, g2, rfl⟩, root, hroot, r0, d, g4, g5, g6, g7, g8, g9⟩ := h
  rw [hp] at g1; cases g1
  rw [hq] at g6; cases g6
  obtain ⟨s, hs, y, hy, ⟨r', k1, k2⟩, hyr⟩ := below_of_ptr hr hroot g5 hq
  rw [g4] at k1; cases k1
  refine ⟨(hasRef_of_reads hx).mp g2, s, hs, y, hy, hyr, ?_, ?_, ?_⟩
  · rw [← name_of_reads hyr, g7, name_of_reads hx]
  · rw [← attr_of_reads hyr]; exact g8
  · rw [← resolveDefault_reads hyr, ← resolve_reads hx, ← attr_of_reads k2]
    exact g9

theorem indexSchemas_some (hr : List.Forall₂ (Holds h0) roots ts) (hn : ∀ t ∈ ts, depth t ≤ n) : ∃ ix, indexSchemas h0 n roots {} = some ix := by
  have hix : ∀ (rs : List Ptr) (ix : Index), (∀ root ∈ rs, ∃ t ∈ ts, Holds h0 root t) → ∃ ix', indexSchemas h0 n rs ix = some ix' := by
    intro rs
    induction rs with
    | nil => intro ix _; exact ⟨ix, rfl⟩
    | cons r rs ih =>
      intro ix hrs
      obtain ⟨t, ht, e, h1, h2⟩ := hrs r List.mem_cons_self
      obtain ⟨ps, hps⟩ := searchPtr_reads (fun _ => true) ⟨e, h1, h2⟩ (hn t ht)
      simp only [indexSchemas, h1, hps]
      exact ih _ fun root hm => hrs root (List.mem_cons_of_mem _ hm)
  exact hix roots {} fun root hm => forall2_left hr root hm

theorem refEdges_tied (hr : List.Forall₂ (Holds h0) roots ts) (L : Tied ts) {ix : Index} (hx : indexSchemas h0 n roots {} = some ix) :
    ∃ es, refEdges h0 ix 0 ix.eltByID = some es := by
  cases hes : refEdges h0 ix 0 ix.eltByID with
  | some es => exact ⟨es, rfl⟩
  | none =>
    exfalso
    obtain ⟨p, hp, key, hk, hg⟩ := (refEdges_none _).mp hes
    obtain ⟨M, hM, hmem⟩ := indexed_schemas roots (indexed_nil h0) hx
    rw [hM.ids, List.nil_append] at hp
    obtain ⟨⟨p', tns⟩, hq, rfl⟩ := List.mem_map.mp hp
    obtain ⟨root, hroot, r, _, _, hb, hs⟩ := (hmem p' tns).mp hq
    obtain ⟨e, he⟩ := Option.isSome_iff_exists.mp hs
    obtain ⟨t, ht, x, hxt, _, hxe⟩ := below_of_ptr hr hroot hb he
    simp only at he hk
    rw [he, Option.bind_some] at hk
    unfold refKey at hk
    split at hk
    · cases hk
    · rename_i href
      have hrx : IsRef x := (hasRef_of_reads hxe).mp href
      cases hk
      obtain ⟨s, hs, y, hy, m1, m2, m3⟩ := L.found t ht x hxt hrx
      obtain ⟨root', hroot', r', k1, k2⟩ := forall2_back hr s hs
      obtain ⟨q, d, k3, k4, k5⟩ := ptr_of_below k1 k2 hy
      have hin : (q, r'.attr [] b!"targetNamespace") ∈ M := (hmem q _).mpr ⟨root', hroot', r', k1, rfl, k3, by rw [k4]; rfl⟩
      have := hM.complete (q, r'.attr [] b!"targetNamespace") (by rw [List.nil_append]; exact hin) (resolve e.scope (e.attr [] b!"ref"), e.name) (by
        unfold keyOf
        simp only [k4, Option.bind_some]
        rw [attr_of_reads k5, if_pos m2, ← attr_of_reads k5, resolveDefault_reads k5, attr_of_reads k2, m3, resolve_reads hxe, name_of_reads k5, name_of_reads hxe, m1])
      rw [hg] at this
      cases this

theorem relink (hs : SlicesOk h0) (hr : List.Forall₂ (Holds h0) roots ts) (hn : ∀ t ∈ ts, depth t ≤ n) (hsch : ∀ t ∈ ts, ¬ Declaration t) (L : Tied ts) :
    ∃ h1 ts', dereference n h0 roots = .ok h1 ∧ List.Forall₂ (Holds h1) roots ts' ∧
      List.Forall₂ (DocRelinked (Target ts)) ts ts' := by
  obtain ⟨ix, hx⟩ := indexSchemas_some hr hn
  obtain ⟨es, he⟩ := refEdges_tied hr L hx
  have sc := scene hx he
  have elem : ∀ {p : Ptr} {e : HElem}, (∃ root ∈ roots, Below h0 root p) → h0.get p = some e → ∃ t ∈ ts, ∃ x ∈ below t, Reads h0 x e := by
    rintro p e ⟨root, hroot, hb⟩ he
    obtain ⟨t, ht, x, hx, _, hxe⟩ := below_of_ptr hr hroot hb he
    exact ⟨t, ht, x, hx, hxe⟩
  have target : ∀ {p q : Ptr} {r : HElem}, RefersTo h0 roots p q → h0.get q = some r → ¬ HasRef r ∧ ∃ y, Reads h0 y r ∧ y.children = [] := by
    intro p q r hpq hq
    have hpq' := hpq
    obtain ⟨e, _, ⟨g0, g1, _, _⟩, _⟩ := hpq
    obtain ⟨t, ht, x, hx, hxe⟩ := elem g0 g1
    obtain ⟨g3, s, hs, y, hy, hyr, hm⟩ := refersTo_meets hr g1 hxe hq hpq'
    obtain ⟨g5, g6⟩ := L.leaf t ht x hx g3 s hs y hy hm
    exact ⟨fun hh => g5 ((hasRef_of_reads hyr).mp hh), y, hyr, g6⟩
  have nokids : ∀ {y : Element} {r : HElem}, Reads h0 y r → y.children = [] → h0.cells r.kids = [] := by
    intro y r hyr hy
    obtain ⟨_, _, _, _, r5⟩ := reads_iff.mp hyr
    rw [hy] at r5
    cases hc : h0.cells r.kids with
    | nil => rfl
    | cons c cs => rw [hc] at r5; cases r5
  have hac : AcyclicRefs h0 roots := by
    have hno : ∀ p q, Relation.TransGen (RefersTo h0 roots) p q → ∀ e, h0.get q = some e → ¬ HasRef e := by
      intro p q h e hq
      cases h with
      | single h => exact (target h hq).1
      | tail _ h => exact (target h hq).1
    intro p hp
    have : ∃ q, RefersTo h0 roots p q := by
      rcases Relation.TransGen.head'_iff.mp hp with ⟨q, h, _⟩
      exact ⟨q, h⟩
    obtain ⟨q, e, _, ⟨_, g1, g2, _⟩, _⟩ := this
    exact hno p p hp e g1 g2
  have hpt : PlainTargets h0 roots := by
    intro p q e c d hpq hq hc hd
    obtain ⟨_, y, hyr, hy⟩ := target hpq hq
    have := nokids hyr hy
    have hm : d ∈ h0.cells e.kids := mem_cells.mpr ⟨c.idx, hc.2, by rw [← hc.1]; exact hd⟩
    rw [this] at hm
    cases hm
  have hpr : PlainRefs h0 roots := by
    intro root hroot p e hb he href a ha _
    obtain ⟨t, ht, x, hx, hxe⟩ := elem ⟨root, hroot, hb⟩ he
    obtain ⟨_, hp, _⟩ := L.decl t ht x hx ((hasRef_of_reads hxe).mp href)
    obtain ⟨_, r2, _⟩ := reads_iff.mp hxe
    rw [r2] at ha
    exact hp a ha
  obtain ⟨h1, hd, inv⟩ := dereference_run hs hx he hac hpt hpr
  -- not a reference: unchanged
  have same : ∀ {p : Ptr} {e : HElem}, h0.get p = some e → ¬ HasRef e → h1.get p = some e := by
    intro p e hp hn
    by_cases hm : p ∈ ix.eltByID
    · rcases inv.old p hm e hp with h | ⟨h, _⟩
      · exact h
      · exact absurd h hn
    · rw [inv.other p hm (get_lt hp)]; exact hp
  have hidx : ∀ {p : Ptr} {e : HElem}, p ∈ ix.eltByID → h0.get p = some e → HasRef e → ∃ e', h1.get p = some e' ∧ ¬ HasRef e' := by
    intro p e hm hp hh
    obtain ⟨k, hk⟩ := List.getElem?_of_mem hm
    obtain ⟨_, dep, _, _, _, _, _, hedge⟩ := sc.target k p e hk hp hh
    exact inv.done k p ⟨_, hedge, .inl rfl⟩ hk
  have kids : ∀ (ks : List Element), (∀ k ∈ ks, ∀ (p : Ptr) (e : HElem), (∃ root ∈ roots, Below h0 root p) → h0.get p = some e → Reads h0 k e → (∃ t ∈ ts, k ∈ below t) →
      ∃ e' k', h1.get p = some e' ∧ Reads h1 k' e' ∧ Relinked (Target ts) k k') →
      ∀ (e : HElem) (p : Ptr), (∀ c, KidOf e c → ∃ root ∈ roots, Below h0 root c) → h0.get p = some e → (∀ k ∈ ks, ∃ t ∈ ts, k ∈ below t) →
        List.Forall₂ (Reads h0) ks (h0.cells e.kids) → ∃ ks', List.Forall₂ (Reads h1) ks' (h1.cells e.kids) ∧ List.Forall₂ (Relinked (Target ts)) ks ks' := by
    intro ks ih e p hb hp hin hall
    have hlen : ks.length = e.kids.len := by rw [hall.length_eq, cells_length (hs p e hp)]
    have step : ∀ i (hi : i < ks.length), ∃ k', (∃ e', (h1.cells e.kids)[i]? = some e' ∧ Reads h1 k' e') ∧ Relinked (Target ts) ks[i] k' := by
      intro i hi
      obtain ⟨d, hd, hrd⟩ := forall2_mem_right hall (List.getElem?_eq_getElem hi)
      have hil : i < e.kids.len := by omega
      rw [cells_get, if_pos hil] at hd
      obtain ⟨e', k', g1, g2, g3⟩ := ih ks[i] (List.getElem_mem hi) ⟨e.kids.arr, i⟩ d (hb _ ⟨rfl, hil⟩) hd hrd (hin _ (List.getElem_mem hi))
      exact ⟨k', ⟨e', by rw [cells_get, if_pos hil]; exact g1, g2⟩, g3⟩
    choose f hf1 hf2 using step
    have hlen1 : (h1.cells e.kids).length = ks.length := by
      apply Nat.le_antisymm
      · rw [hlen]; unfold EHeap.cells; simp [Nat.min_le_left]
      · by_contra hc
        obtain ⟨e', g, _⟩ := hf1 (h1.cells e.kids).length (by omega)
        simp at g
    refine ⟨List.ofFn fun i : Fin ks.length => f i.1 i.2, ?_, ?_⟩
    · rw [List.forall₂_iff_get]
      refine ⟨by simp [hlen1], fun i g1 g2 => ?_⟩
      simp only [List.length_ofFn] at g1
      obtain ⟨e', k1, k2⟩ := hf1 i g1
      rw [List.getElem?_eq_getElem g2] at k1
      cases k1
      simpa using k2
    · rw [List.forall₂_iff_get]
      refine ⟨by simp, fun i g1 g2 => ?_⟩
      simpa using hf2 i g1
  have main : ∀ (x : Element) (p : Ptr) (e : HElem), (∃ root ∈ roots, Below h0 root p) → h0.get p = some e → Reads h0 x e → (∃ t ∈ ts, x ∈ below t) →
      ∃ e' x', h1.get p = some e' ∧ Reads h1 x' e' ∧ Relinked (Target ts) x x' := by
    intro x
    induction x using Element.ind with
    | hP n a s c ks ih =>
      intro p e hb hp hrd hin
      obtain ⟨r1, r2, r3, r4, r5⟩ := reads_iff.mp hrd
      have hm : p ∈ ix.eltByID := (sc.ids p).mpr ⟨hb, by rw [hp]; rfl⟩
      by_cases href : HasRef e
      · obtain ⟨e', g1, g2⟩ := hidx hm hp href
        rcases inv.old p hm e hp with h | ⟨_, e'', q, g3, _, _, hpq, real, k1, _, _, k4, k5, k6, k7, k8⟩
        · rw [g1] at h; cases h; exact absurd href g2
        · obtain ⟨q0, hq0⟩ : ∃ r, h0.get q = some r := by
            obtain ⟨_, _, _, _, _, _, d, _, _, g6, _⟩ := hpq
            exact ⟨d, g6⟩
          obtain ⟨m1, sd, hsd, y, hy, hyr, hm2⟩ := refersTo_meets hr hp hrd hq0 hpq
          obtain ⟨t0, ht0, hx0⟩ := hin
          obtain ⟨l1, l2⟩ := L.leaf t0 ht0 _ hx0 m1 sd hsd y hy hm2
          have hreal : real = q0 := by
            have := same hq0 fun hh => l1 ((hasRef_of_reads hyr).mp hh)
            rw [k1] at this
            cases this; rfl
          subst hreal
          obtain ⟨y1, y2, y3, y4, _⟩ := reads_iff.mp hyr
          have hlen0 : real.kids.len = 0 := by
            rw [← cells_length (hs q real hq0), nokids hyr l2]; rfl
          have hc1 : h1.cells real.kids = [] := by unfold EHeap.cells; rw [hlen0]; rfl
          refine ⟨e'', deref (.mk n a s c ks) y, g3, ?_, relinked_iff.mpr (.inr ⟨m1, y, ⟨⟨t0, ht0, hx0⟩, sd, hsd, hy, hm2⟩, rfl⟩)⟩
          rw [reads_iff]
          unfold deref
          refine ⟨by rw [k4, y1]; rfl, ?_, ?_, ?_, ?_⟩
          · rw [k5, r3, r2, y3, y2]; rfl
          · rw [k6, hc1, r3, l2]; rfl
          · rw [k7, y4]; rfl
          · rw [k8, hc1]
            show List.Forall₂ _ y.children []
            rw [l2]
            exact .nil
      · obtain ⟨root, hroot, hbl⟩ := hb
        obtain ⟨t0, ht0, hx0⟩ := hin
        obtain ⟨ks', g1, g2⟩ := kids ks (fun k hk p e b1 b2 b3 b4 => ih k hk p e b1 b2 b3 b4) e p (fun c hc => ⟨root, hroot, .step hbl hp hc⟩) hp
          (fun k hk => ⟨t0, ht0, below_kid hx0 hk⟩) r5
        refine ⟨e, .mk n a s c ks', same hp href, reads_iff.mpr ⟨r1, r2, r3, r4, g1⟩, relinked_iff.mpr (.inl ⟨fun hh => href ((hasRef_of_reads hrd).mpr hh), rfl, rfl, rfl, rfl, g2⟩)⟩
  have roots_main : ∀ root ∈ roots, ∀ t ∈ ts, Holds h0 root t →
      ∃ t', Holds h1 root t' ∧ DocRelinked (Target ts) t t' := by
    rintro root hroot t ht ⟨e, hg, hrd⟩
    have hget : h1.get root = some e := by
      by_cases hm : root ∈ ix.eltByID
      · rcases inv.old root hm e hg with h | ⟨h, _⟩
        · exact h
        · obtain ⟨hb, _⟩ := (sc.ids root).mp hm
          obtain ⟨t2, ht2, x, hx, hxe⟩ := elem hb hg
          obtain ⟨hd, _⟩ := L.decl t2 ht2 x hx ((hasRef_of_reads hxe).mp h)
          refine absurd ?_ (hsch t ht)
          unfold Declaration IsXs at hd ⊢
          rw [← name_of_reads hrd, name_of_reads hxe]
          exact hd
      · rw [inv.other root hm (get_lt hg)]; exact hg
    cases t with
    | mk n a s c ks =>
      obtain ⟨r1, r2, r3, r4, r5⟩ := reads_iff.mp hrd
      obtain ⟨ks', g1, g2⟩ := kids ks (fun k hk p e b1 b2 b3 b4 => main k p e b1 b2 b3 b4) e root (fun c hc => ⟨root, hroot, .kid hg hc⟩) hg
        (fun k hk => ⟨_, ht, child_below hk⟩) r5
      exact ⟨.mk n a s c ks', ⟨e, hget, reads_iff.mpr ⟨r1, r2, r3, r4, g1⟩⟩, rfl, rfl, rfl, rfl, g2⟩
  have fin : ∀ {rs : List Ptr} {us : List Element}, List.Forall₂ (Holds h0) rs us → (∀ r ∈ rs, r ∈ roots) → (∀ u ∈ us, u ∈ ts) →
      ∃ us', List.Forall₂ (Holds h1) rs us' ∧
        List.Forall₂ (DocRelinked (Target ts)) us us' := by
    intro rs us h
    induction h with
    | nil => intro _ _; exact ⟨[], .nil, .nil⟩
    | @cons r u rs us h1' _ ih =>
      intro k1 k2
      obtain ⟨us', i1, i2⟩ := ih (fun r hr => k1 r (by simp [hr])) fun u hu => k2 u (by simp [hu])
      obtain ⟨t', j1, j2⟩ := roots_main r (k1 r (by simp)) u (k2 u (by simp)) h1'
      exact ⟨t' :: us', .cons j1 i1, .cons j2 i2⟩
  obtain ⟨ts', f1, f2⟩ := fin hr (fun _ h => h) fun _ h => h
  exact ⟨h1, ts', hd, f1, f2⟩

end

end GoXml.Xsd
