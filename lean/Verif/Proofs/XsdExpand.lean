import Verif.Spec.XsdExpand
import Verif.Proofs.XsdHeapCycle
import Mathlib.Data.List.Forall2
set_option autoImplicit false

/-! Expansion of complex types in memory. -/

namespace GoXml

theorem Element.ind {P : Element → Prop} (hP : ∀ n a s c ks, (∀ k ∈ ks, P k) → P (.mk n a s c ks)) (t : Element) : P t := by
  refine Element.rec (motive_1 := P) (motive_2 := fun ks => ∀ k ∈ ks, P k) ?_ ?_ ?_ t
  · intro n a s c ks ih; exact hP n a s c ks ih
  · intro k hk; cases hk
  · intro k ks h1 h2 x hx
    rcases List.mem_cons.mp hx with rfl | h3
    · exact h1
    · exact h2 x h3

namespace Xsd

theorem expandTrees_map (ks : List Element) : expandTrees ks = ks.map expandTree := by
  induction ks with
  | nil => rfl
  | cons k ks ih => rw [expandTrees, ih]; rfl

theorem readsAll_iff (h : EHeap) (ks : List Element) : ∀ (cs : List HElem), ReadsAll h ks cs ↔ List.Forall₂ (Reads h) ks cs := by
  induction ks with
  | nil => intro cs; cases cs <;> simp [ReadsAll]
  | cons k ks ih => intro cs; cases cs <;> simp [ReadsAll, ih]

theorem reads_iff {h : EHeap} {t : Element} {e : HElem} : Reads h t e ↔
    e.name = t.name ∧ e.attrs = t.attrs ∧ e.scope = t.scope ∧ e.content = t.content ∧ List.Forall₂ (Reads h) t.children (h.cells e.kids) := by
  cases t
  rw [Reads, readsAll_iff]
  rfl

theorem expandTree_eq (t : Element) : expandTree t = if Shorthand t then canonical (expandBelow t) else expandBelow t := by
  cases t
  rw [expandTree, expandTrees_map]
  rfl

theorem expandBelow_name (t : Element) : (expandBelow t).name = t.name := by cases t; rfl

theorem canonical_name (t : Element) : (canonical t).name = t.name := by cases t; rfl

theorem expandTree_name (t : Element) : (expandTree t).name = t.name := by
  rw [expandTree_eq]
  split
  · rw [canonical_name, expandBelow_name]
  · exact expandBelow_name t

/-- Whether an element in memory is a shorthand complex type. -/
def shorthandH (h : EHeap) (e : HElem) : Bool :=
  decide (e.name = ⟨schemaNS, b!"complexType"⟩) && !(h.cells e.kids).any isContent

theorem isElem_iff (e : HElem) : isElem schemaNS b!"complexType" e.tag = true ↔ e.name = ⟨schemaNS, b!"complexType"⟩ := by
  obtain ⟨⟨sp, lo⟩, _, _, _, _⟩ := e
  unfold isElem
  simp only [HElem.tag, Element.name, XName.mk.injEq]
  have hne : schemaNS ≠ [] := by decide
  by_cases h1 : lo = b!"complexType"
  · simp [h1, hne]
  · simp [h1]

theorem isContent_iff (e : HElem) : isContent e = true ↔ e.name = ⟨schemaNS, b!"simpleContent"⟩ ∨ e.name = ⟨schemaNS, b!"complexContent"⟩ := by
  obtain ⟨⟨sp, lo⟩, _, _, _, _⟩ := e
  unfold isContent
  simp only [XName.mk.injEq, decide_eq_true_eq]
  constructor
  · rintro ⟨h1, h2 | h2⟩
    · exact Or.inl ⟨h1, h2⟩
    · exact Or.inr ⟨h1, h2⟩
  · rintro (⟨h1, h2⟩ | ⟨h1, h2⟩)
    · exact ⟨h1, Or.inl h2⟩
    · exact ⟨h1, Or.inr h2⟩

theorem forall2_names {h : EHeap} {ks : List Element} {cs : List HElem} (hf : List.Forall₂ (Reads h) ks cs) :
    ks.map (·.name) = cs.map (·.name) := by
  induction hf with
  | nil => rfl
  | cons h1 _ ih => simp only [List.map_cons, ih, (reads_iff.mp h1).1]

theorem shorthand_iff {h : EHeap} {t : Element} {e : HElem} (hr : Reads h t e) : Shorthand t ↔ shorthandH h e = true := by
  obtain ⟨h1, _, _, _, h2⟩ := reads_iff.mp hr
  unfold Shorthand shorthandH
  rw [Bool.and_eq_true, decide_eq_true_eq, h1, Bool.not_eq_true', Bool.eq_false_iff, Ne, List.any_eq_true]
  refine and_congr_right fun _ => ?_
  have hn := forall2_names h2
  constructor
  · rintro hk ⟨c, hc, hcc⟩
    have : c.name ∈ t.children.map (·.name) := by rw [hn]; exact List.mem_map_of_mem hc
    obtain ⟨k, hk1, hk2⟩ := List.mem_map.mp this
    have := hk k hk1
    rw [hk2] at this
    rcases (isContent_iff c).mp hcc with h3 | h3
    · exact this.1 h3
    · exact this.2 h3
  · intro hno k hk
    have : k.name ∈ (h.cells e.kids).map (·.name) := by rw [← hn]; exact List.mem_map_of_mem hk
    obtain ⟨c, hc1, hc2⟩ := List.mem_map.mp this
    refine ⟨fun h3 => hno ⟨c, hc1, (isContent_iff c).mpr (Or.inl (by rw [hc2, h3]))⟩, fun h3 => hno ⟨c, hc1, (isContent_iff c).mpr (Or.inr (by rw [hc2, h3]))⟩⟩

/-! ### One step -/

/-- The array of the slice is one of those made after the first `b`. -/
def Fresh (b : Nat) (h : EHeap) (s : HSlice) : Prop := b ≤ s.arr ∧ s.arr < h.length

/-- `el'` is the canonical form of `el`, which has the children `cs`; the new arrays have numbers from `b`. -/
def Expanded (b : Nat) (h : EHeap) (el : HElem) (cs : List HElem) (el' : HElem) : Prop :=
  el'.name = el.name ∧ el'.attrs = el.attrs ∧ el'.scope = el.scope ∧ el'.content = [] ∧ Fresh b h el'.kids ∧
  ∃ content restrict : HElem, h.cells el'.kids = cs.filter staysInType ++ [content] ∧
    content.name = ⟨schemaNS, b!"complexContent"⟩ ∧ content.attrs = [] ∧ content.scope = el.scope ∧ content.content = [] ∧
    Fresh b h content.kids ∧ h.cells content.kids = [restrict] ∧
    restrict.name = ⟨schemaNS, b!"restriction"⟩ ∧ restrict.attrs = [⟨⟨[], b!"base"⟩, prefixOf el.scope ⟨schemaNS, b!"anyType"⟩⟩] ∧
    restrict.scope = el.scope ∧ restrict.content = [] ∧ Fresh b h restrict.kids ∧ h.cells restrict.kids = cs.filter (!staysInType ·)

theorem cells_arr {h h' : EHeap} {s : HSlice} (ha : h'[s.arr]? = h[s.arr]?) : h'.cells s = h.cells s := by
  unfold EHeap.cells; rw [ha]

theorem modify_ne (h : EHeap) (f : List HElem → List HElem) {i j : Nat} (hn : i ≠ j) : (h.modify i f)[j]? = h[j]? := by
  rw [List.getElem?_modify]
  cases h[j]? <;> simp [hn]

theorem modify_self {h : EHeap} (f : List HElem → List HElem) {i : Nat} {a : List HElem} (ha : h[i]? = some a) :
    (h.modify i f)[i]? = some (f a) := by
  rw [List.getElem?_modify, ha]
  simp

theorem padded_take (cap : Nat) (cells : List HElem) : (padded cap cells).take cells.length = cells := by
  unfold padded; simp

theorem expandAt_spec (grow : Nat → Nat → Nat) {h : EHeap} {p : Ptr} {el : HElem} (hg : h.get p = some el)
    (hc : (h.cells el.kids).any isContent = false) :
    h.length ≤ (expandAt grow h p).length ∧ (∀ q, q.arr < h.length → q ≠ p → (expandAt grow h p).get q = h.get q) ∧
    ∃ el', (expandAt grow h p).get p = some el' ∧ Expanded h.length (expandAt grow h p) el (h.cells el.kids) el' := by
  have hp := get_lt hg
  unfold expandAt
  rw [hg]
  simp only [hc, Bool.false_eq_true, if_false]
  generalize h.cells el.kids = cs
  generalize hmv : cs.filter (!staysInType ·) = moved
  generalize hkp : cs.filter staysInType = kept
  generalize hre : (⟨⟨schemaNS, b!"restriction"⟩, [⟨⟨[], b!"base"⟩, prefixOf el.scope ⟨schemaNS, b!"anyType"⟩⟩], el.scope, [],
          ⟨h.length, moved.length⟩⟩ : HElem) = restrict
  generalize hco : (⟨⟨schemaNS, b!"complexContent"⟩, [], el.scope, [], ⟨h.length + 1, 1⟩⟩ : HElem) = content
  have hl : (h ++ [padded cs.length moved, [restrict], padded cs.length kept]).length = h.length + 3 := by simp
  rw [hl]
  -- the memory before the assignment
  generalize hr : appendCells grow (h ++ [padded cs.length moved, [restrict], padded cs.length kept]) ⟨h.length + 3 - 1, kept.length⟩ [content] = r
  have key : h.length ≤ r.1.length ∧ (∀ a, a < h.length → r.1[a]? = h[a]?) ∧ h.length ≤ r.2.arr ∧ r.2.arr < r.1.length ∧ r.1.cells r.2 = kept ++ [content] ∧
      r.1[h.length]? = some (padded cs.length moved) ∧ r.1[h.length + 1]? = some [restrict] := by
    unfold appendCells at hr
    have hA : ((h ++ [padded cs.length moved, [restrict], padded cs.length kept])[h.length + 3 - 1]?).getD [] = padded cs.length kept := by
      simp
    dsimp only at hr
    split at hr
    · rename_i hle
      rw [hA] at hle
      subst hr
      refine ⟨by simp, ?_, by simp, by simp, ?_, ?_, ?_⟩
      · intro a ha
        rw [modify_ne _ _ (by omega), List.getElem?_append_left ha]
      · unfold EHeap.cells
        simp only [List.length_singleton]
        rw [modify_self _ (a := padded cs.length kept) (by simp)]
        simp only [Option.getD_some]
        rw [padded_take]
        have : (kept ++ [content]).length = kept.length + 1 := by simp
        rw [← this, List.take_left']
        rfl
      · rw [modify_ne _ _ (by omega)]; simp
      · rw [modify_ne _ _ (by omega)]; simp
    · subst hr
      refine ⟨by simp, ?_, by simp, by simp, ?_, by simp, by simp⟩
      · intro a ha
        rw [List.getElem?_append_left (by simp; omega), List.getElem?_append_left ha]
      · unfold EHeap.cells
        rw [hA]
        simp only [List.length_singleton]
        rw [padded_take]
        rw [List.getElem?_append_right (by simp)]
        simp only [hl, Nat.sub_self, List.getElem?_cons_zero, Option.getD_some]
        have : (kept ++ [content]).length = kept.length + 1 := by simp
        rw [← this, padded_take]
  obtain ⟨k1, k2, k3, k3', k4, k5, k6⟩ := key
  have k7 : h.length + 1 < r.1.length := (List.getElem?_eq_some_iff.mp k6).1
  have hget : ∀ q : Ptr, q.arr < h.length → r.1.get q = h.get q := by
    intro q hq; unfold EHeap.get; rw [k2 _ hq]
  have hpr : r.1.get p = some el := by rw [hget p hp, hg]
  have hcell : ∀ s : HSlice, h.length ≤ s.arr → ∀ e, (r.1.put p e).cells s = r.1.cells s := by
    intro s hs e
    apply cells_stable
    intro i _
    exact get_put_ne e (by rintro rfl; simp at hp; omega)
  refine ⟨by rw [put_length]; exact k1, ?_, ?_⟩
  · intro q hq hqp
    rw [get_put_ne _ (Ne.symm hqp), hget q hq]
  · refine ⟨_, get_put_self _ hpr, rfl, rfl, rfl, rfl, ⟨k3, by rw [put_length]; exact k3'⟩, content, restrict, ?_, ?_⟩
    · rw [hcell _ k3, k4, hkp]
    · subst hco
      refine ⟨rfl, rfl, rfl, rfl, ⟨by simp, by rw [put_length]; exact k7⟩, ?_, ?_⟩
      · rw [hcell _ (by simp)]
        unfold EHeap.cells
        rw [k6]; rfl
      · subst hre
        refine ⟨rfl, rfl, rfl, rfl, ⟨Nat.le_refl _, by rw [put_length]; exact Nat.lt_of_succ_lt k7⟩, ?_⟩
        rw [hcell _ (Nat.le_refl _)]
        unfold EHeap.cells
        rw [k5, hmv]
        exact padded_take _ _

theorem expandAt_none (grow : Nat → Nat → Nat) {h : EHeap} {p : Ptr} {el : HElem} (hg : h.get p = some el)
    (hc : (h.cells el.kids).any isContent = true) : expandAt grow h p = h := by
  unfold expandAt
  rw [hg]
  simp only [hc, if_true]

theorem expanded_stable {b : Nat} {h h' : EHeap} {el el' : HElem} {cs : List HElem} (hl : h.length ≤ h'.length)
    (hg : ∀ q : Ptr, b ≤ q.arr → q.arr < h.length → h'.get q = h.get q) (hx : Expanded b h el cs el') : Expanded b h' el cs el' := by
  have hc : ∀ s, Fresh b h s → h'.cells s = h.cells s := fun s hs => cells_stable fun i _ => hg ⟨s.arr, i⟩ hs.1 hs.2
  have hf : ∀ s, Fresh b h s → Fresh b h' s := fun s hs => ⟨hs.1, Nat.lt_of_lt_of_le hs.2 hl⟩
  obtain ⟨a1, a2, a3, a4, a5, content, restrict, b1, b2, b3, b4, b5, b6, b7, c1, c2, c3, c4, c5, c6⟩ := hx
  exact ⟨a1, a2, a3, a4, hf _ a5, content, restrict, by rw [hc _ a5, b1], b2, b3, b4, b5, hf _ b6, by rw [hc _ b6, b7],
    c1, c2, c3, c4, hf _ c5, by rw [hc _ c5, c6]⟩

theorem expanded_mono {b b' : Nat} (hb : b' ≤ b) {h : EHeap} {el el' : HElem} {cs : List HElem} (hx : Expanded b h el cs el') :
    Expanded b' h el cs el' := by
  have hf : ∀ s, Fresh b h s → Fresh b' h s := fun s hs => ⟨Nat.le_trans hb hs.1, hs.2⟩
  obtain ⟨a1, a2, a3, a4, a5, content, restrict, b1, b2, b3, b4, b5, b6, b7, c1, c2, c3, c4, c5, c6⟩ := hx
  exact ⟨a1, a2, a3, a4, hf _ a5, content, restrict, b1, b2, b3, b4, b5, hf _ b6, b7, c1, c2, c3, c4, hf _ c5, c6⟩

/-- The state of the memory when the elements in `D` have been visited. -/
structure ExpInv (h0 : EHeap) (D : Ptr → Prop) (h : EHeap) : Prop where
  len : h0.length ≤ h.length
  same : ∀ q e, h0.get q = some e → ¬ (D q ∧ shorthandH h0 e = true) → h.get q = some e
  changed : ∀ q e, h0.get q = some e → D q → shorthandH h0 e = true →
    ∃ e', h.get q = some e' ∧ Expanded h0.length h e (h0.cells e.kids) e'

theorem expInv_name {h0 h : EHeap} {D : Ptr → Prop} (inv : ExpInv h0 D h) {q : Ptr} {e : HElem} (hq : h0.get q = some e) :
    ∃ e', h.get q = some e' ∧ e'.name = e.name := by
  by_cases hd : D q ∧ shorthandH h0 e = true
  · obtain ⟨e', h1, h2⟩ := inv.changed q e hq hd.1 hd.2
    exact ⟨e', h1, h2.1⟩
  · exact ⟨e, inv.same q e hq hd, rfl⟩

theorem expInv_any {h0 h : EHeap} {D : Ptr → Prop} (hs : SlicesOk h0) (inv : ExpInv h0 D h) {p : Ptr} {e : HElem} (hp : h0.get p = some e) :
    (h.cells e.kids).any isContent = (h0.cells e.kids).any isContent := by
  have hn : (h.cells e.kids).map (·.name) = (h0.cells e.kids).map (·.name) := by
    apply List.ext_getElem?
    intro i
    rw [List.getElem?_map, List.getElem?_map, cells_get, cells_get]
    split
    · rename_i hi
      obtain ⟨d, hd⟩ := get_some_of_len (hs p e hp) hi
      obtain ⟨d', h1, h2⟩ := expInv_name inv hd
      rw [hd, h1]; simp [h2]
    · rfl
  have : ∀ cs : List HElem, cs.any isContent = (cs.map (·.name)).any
      (fun n => decide (n.space = schemaNS ∧ (n.loc = b!"simpleContent" ∨ n.loc = b!"complexContent"))) := by
    intro cs; rw [List.any_map]; rfl
  rw [this, this, hn]

theorem expInv_step (grow : Nat → Nat → Nat) {h0 h : EHeap} {D : Ptr → Prop} (hs : SlicesOk h0) (inv : ExpInv h0 D h) {p : Ptr} {e : HElem}
    (hp : h0.get p = some e) (hct : e.name = ⟨schemaNS, b!"complexType"⟩)
    (hno : shorthandH h0 e = true → ∀ c ∈ h0.cells e.kids, shorthandH h0 c = false) :
    ExpInv h0 (fun q => D q ∨ q = p) (expandAt grow h p) := by
  by_cases hsh : shorthandH h0 e = true
  · by_cases hd : D p
    · -- visited before
      obtain ⟨e', h1, h2⟩ := inv.changed p e hp hd hsh
      have : expandAt grow h p = h := by
        apply expandAt_none grow h1
        obtain ⟨_, _, _, _, _, content, _, h3, h4, _⟩ := h2
        rw [h3, List.any_append]
        simp [(isContent_iff content).mpr (Or.inr h4)]
      rw [this]
      refine ⟨inv.len, fun q x hq hn => inv.same q x hq (fun hh => hn ⟨Or.inl hh.1, hh.2⟩), ?_⟩
      rintro q x hq (hq1 | rfl) hx
      · exact inv.changed q x hq hq1 hx
      · exact inv.changed q x hq hd hx
    · have hg : h.get p = some e := inv.same p e hp (fun hh => hd hh.1)
      have hany : (h0.cells e.kids).any isContent = false := by
        unfold shorthandH at hsh
        simpa [hct] using hsh
      have hcells : h.cells e.kids = h0.cells e.kids := by
        apply cells_stable
        intro i hi
        obtain ⟨d, hd⟩ := get_some_of_len (hs p e hp) hi
        rw [hd]
        refine inv.same _ d hd (fun hh => ?_)
        have := hno hsh d (mem_cells.mpr ⟨i, hi, hd⟩)
        rw [hh.2] at this; cases this
      obtain ⟨h1, h2, e', h3, h4⟩ := expandAt_spec grow hg (by rw [hcells]; exact hany)
      have hp0 := get_lt hp
      have hkeep : ∀ q : Ptr, h0.length ≤ q.arr → q.arr < h.length → (expandAt grow h p).get q = h.get q :=
        fun q hq1 hq2 => h2 q hq2 (by rintro rfl; omega)
      refine ⟨Nat.le_trans inv.len h1, ?_, ?_⟩
      · intro q x hq hn
        have hqp : q ≠ p := by
          rintro rfl
          rw [hp] at hq; cases hq
          exact hn ⟨Or.inr rfl, hsh⟩
        rw [h2 q (Nat.lt_of_lt_of_le (get_lt hq) inv.len) hqp]
        exact inv.same q x hq (fun hh => hn ⟨Or.inl hh.1, hh.2⟩)
      · intro q x hq hq1 hx
        by_cases hqp : q = p
        · subst hqp
          rw [hp] at hq; cases hq
          rw [hcells] at h4
          exact ⟨e', h3, expanded_mono inv.len h4⟩
        · obtain ⟨x', g1, g2⟩ := inv.changed q x hq (hq1.resolve_right hqp) hx
          refine ⟨x', ?_, expanded_stable h1 hkeep g2⟩
          rw [h2 q (Nat.lt_of_lt_of_le (get_lt hq) inv.len) hqp]
          exact g1
  · have hg : h.get p = some e := inv.same p e hp (fun hh => hsh hh.2)
    have : expandAt grow h p = h := by
      apply expandAt_none grow hg
      rw [expInv_any hs inv hp]
      unfold shorthandH at hsh
      simpa [hct] using hsh
    rw [this]
    refine ⟨inv.len, fun q x hq hn => inv.same q x hq (fun hh => hn ⟨Or.inl hh.1, hh.2⟩), ?_⟩
    rintro q x hq (hq1 | rfl) hx
    · exact inv.changed q x hq hq1 hx
    · rw [hp] at hq; cases hq; exact absurd hx hsh

theorem expInv_fold (grow : Nat → Nat → Nat) {h0 : EHeap} (hs : SlicesOk h0) (ps : List Ptr)
    (hps : ∀ p ∈ ps, ∃ e, h0.get p = some e ∧ e.name = ⟨schemaNS, b!"complexType"⟩ ∧
      (shorthandH h0 e = true → ∀ c ∈ h0.cells e.kids, shorthandH h0 c = false)) : ∀ {h : EHeap} {D : Ptr → Prop}, ExpInv h0 D h →
    ExpInv h0 (fun q => D q ∨ q ∈ ps) (ps.foldl (expandAt grow) h) := by
  induction ps with
  | nil => intro h D inv; simpa using inv
  | cons p ps ih =>
    intro h D inv
    obtain ⟨e, h1, h2, h3⟩ := hps p (by simp)
    have := ih (fun q hq => hps q (by simp [hq])) (expInv_step grow hs inv h1 h2 h3)
    rw [List.foldl_cons]
    have hD : (fun q => (D q ∨ q = p) ∨ q ∈ ps) = (fun q => D q ∨ q ∈ p :: ps) := by
      funext q; simp [or_assoc]
    rwa [hD] at this

/-! ### The result as a tree -/

theorem forall2_filter {h : EHeap} {ks : List Element} {cs : List HElem} (hf : List.Forall₂ (Reads h) ks cs) (f : Element → Bool) (g : HElem → Bool)
    (hfg : ∀ k c, k.name = c.name → f k = g c) : List.Forall₂ (Reads h) (ks.filter f) (cs.filter g) := by
  induction hf with
  | nil => exact .nil
  | @cons k c ks cs h1 _ ih =>
    have := hfg k c (reads_iff.mp h1).1.symm
    rw [List.filter_cons, List.filter_cons, this]
    split
    · exact .cons h1 ih
    · exact ih

theorem stays_iff {k : Element} {c : HElem} (hn : k.name = c.name) : decide (¬ BelongsToContent k) = staysInType c := by
  unfold staysInType
  apply decide_eq_decide.mpr
  unfold BelongsToContent
  rw [hn]
  constructor
  · intro hh
    by_cases h1 : c.name.space = schemaNS
    · exact Or.inr (Classical.byContradiction fun h2 => hh ⟨h1, h2⟩)
    · exact Or.inl h1
  · rintro (h1 | h1) ⟨h2, h3⟩
    · exact h1 h2
    · exact h3 h1

/-- The canonical form of what has been read. -/
theorem reads_canonical {b : Nat} {h : EHeap} {t : Element} {e e' : HElem} {cs : List HElem} (hn : t.name = e.name ∧ t.attrs = e.attrs ∧ t.scope = e.scope)
    (hk : List.Forall₂ (Reads h) t.children cs) (hx : Expanded b h e cs e') : Reads h (canonical t) e' := by
  obtain ⟨a1, a2, a3, a4, a5, content, restrict, b1, b2, b3, b4, b5, b6, b7, c1, c2, c3, c4, c5, c6⟩ := hx
  obtain ⟨n1, n2, n3⟩ := hn
  cases t with
  | mk n a s c ks =>
    simp only [Element.name, Element.attrs, Element.scope, Element.children] at n1 n2 n3 hk
    subst n1 n2 n3
    rw [reads_iff]
    refine ⟨a1, a2, a3, a4, ?_⟩
    rw [b1]
    refine List.rel_append (forall2_filter hk _ _ fun k c hkc => stays_iff hkc) (.cons ?_ .nil)
    rw [reads_iff]
    refine ⟨b2, b3, b4, b5, ?_⟩
    rw [b7]
    refine .cons ?_ .nil
    rw [reads_iff]
    refine ⟨c1, c2, c3, c4, ?_⟩
    rw [c6]
    refine forall2_filter hk _ _ fun k c hkc => ?_
    rw [← stays_iff hkc]
    simp

theorem forall2_mem_left {h : EHeap} {ks : List Element} {cs : List HElem} (hf : List.Forall₂ (Reads h) ks cs) {i : Nat} {c : HElem} (hc : cs[i]? = some c) :
    ∃ k, ks[i]? = some k ∧ Reads h k c := by
  induction hf generalizing i with
  | nil => simp at hc
  | cons h1 _ ih =>
    cases i with
    | zero => simp only [List.getElem?_cons_zero, Option.some.injEq] at hc; subst hc; exact ⟨_, rfl, h1⟩
    | succ i => exact ih (by simpa using hc)

theorem forall2_of_getElem {α β : Type} {R : α → β → Prop} (ks : List α) : ∀ (cs : List β), ks.length = cs.length →
    (∀ (i : Nat) k c, ks[i]? = some k → cs[i]? = some c → R k c) → List.Forall₂ R ks cs := by
  induction ks with
  | nil => intro cs hl _; cases cs; exact .nil; simp at hl
  | cons k ks ih =>
    intro cs hl hR
    cases cs with
    | nil => simp at hl
    | cons c cs =>
      exact .cons (hR 0 k c rfl rfl) (ih cs (by simpa using hl) fun i k' c' h1 h2 => hR (i + 1) k' c' (by simpa using h1) (by simpa using h2))

theorem reads_final {h0 h : EHeap} {D : Ptr → Prop} (hs : SlicesOk h0) (inv : ExpInv h0 D h) (t : Element) : NoNestedTypes t →
    ∀ q e, h0.get q = some e → Reads h0 t e → (∀ c, Below h0 q c → ∀ d, h0.get c = some d → d.name = ⟨schemaNS, b!"complexType"⟩ → D c) →
      Reads h (expandBelow t) e ∧ (D q → Holds h q (expandTree t)) := by
  induction t using Element.ind with
  | hP n a s c ks ih =>
    intro hno q e hq hr hD
    obtain ⟨r1, r2, r3, r4, r5⟩ := reads_iff.mp hr
    have hkidno : ∀ k ∈ ks, NoNestedTypes k := by
      intro k hk p x hp
      obtain ⟨i, hi⟩ := List.mem_iff_getElem?.mp hk
      refine hno (i :: p) x ?_
      simp only [Element.at?, Element.children, hi]
      exact hp
    -- the children, where they were
    have hkid : ∀ (i : Nat) k c0, ks[i]? = some k → (h0.cells e.kids)[i]? = some c0 → Reads h0 k c0 →
        Reads h (expandBelow k) c0 ∧ (D ⟨e.kids.arr, i⟩ → Holds h ⟨e.kids.arr, i⟩ (expandTree k)) ∧ h0.get ⟨e.kids.arr, i⟩ = some c0 ∧
          (c0.name = ⟨schemaNS, b!"complexType"⟩ → D ⟨e.kids.arr, i⟩) := by
      intro i k c0 h1 h2 h3
      rw [cells_get] at h2
      split at h2
      · rename_i hi
        have hb : Below h0 q ⟨e.kids.arr, i⟩ := .kid hq ⟨rfl, hi⟩
        obtain ⟨h4, h5⟩ := ih k (List.mem_of_getElem? h1) (hkidno k (List.mem_of_getElem? h1)) _ _ h2 h3
          (fun c hc => hD c (below_trans hb hc))
        exact ⟨h4, h5, h2, hD _ hb _ h2⟩
      · cases h2
    have hlen : ks.length = (h0.cells e.kids).length := r5.length_eq
    have hval : Reads h (expandBelow (.mk n a s c ks)) e := by
      rw [reads_iff]
      refine ⟨r1, r2, r3, r4, ?_⟩
      simp only [expandBelow, Element.children]
      have hlen2 : (h.cells e.kids).length = (h0.cells e.kids).length := by
        rw [cells_length (hs q e hq)]
        have : ((h.cells e.kids).length : Nat) = e.kids.len := by
          apply Nat.le_antisymm
          · unfold EHeap.cells; simp; omega
          · refine Nat.le_of_not_lt fun hlt => ?_
            obtain ⟨d, hd⟩ := get_some_of_len (hs q e hq) hlt
            obtain ⟨d', h1, _⟩ := expInv_name inv hd
            have := cells_get h e.kids (h.cells e.kids).length
            rw [if_pos hlt, h1] at this
            simp at this
        exact this
      refine forall2_of_getElem _ _ (by rw [List.length_map, hlen, hlen2]) ?_
      intro i k' c' hk' hc'
      rw [List.getElem?_map] at hk'
      obtain ⟨k, hk, rfl⟩ := Option.map_eq_some_iff.mp hk'
      have hi : i < (h0.cells e.kids).length := by rw [← hlen]; exact (List.getElem?_eq_some_iff.mp hk).1
      obtain ⟨k2, hk2, hrk⟩ := forall2_mem_left r5 (List.getElem?_eq_getElem hi)
      simp only [Element.children] at hk2
      rw [hk] at hk2; cases hk2
      obtain ⟨g1, g2, g3, g4⟩ := hkid i k _ hk (List.getElem?_eq_getElem hi) hrk
      have hi' : i < e.kids.len := by rw [← cells_length (hs q e hq)]; exact hi
      rw [cells_get, if_pos hi'] at hc'
      by_cases hd : D ⟨e.kids.arr, i⟩
      · obtain ⟨x, g5, g6⟩ := g2 hd
        rw [hc'] at g5; cases g5
        exact g6
      · have hne : (h0.cells e.kids)[i].name ≠ ⟨schemaNS, b!"complexType"⟩ := fun hh => hd (g4 hh)
        rw [inv.same _ _ g3 (fun hh => hd hh.1)] at hc'
        cases hc'
        rw [expandTree_eq, if_neg]
        · exact g1
        · rintro ⟨hh, _⟩
          rw [← (reads_iff.mp hrk).1] at hh
          exact hne hh
    refine ⟨hval, fun hd => ?_⟩
    rw [expandTree_eq]
    by_cases hsh : Shorthand (.mk n a s c ks)
    · rw [if_pos hsh]
      have hshH := (shorthand_iff hr).mp hsh
      obtain ⟨e', h1, h2⟩ := inv.changed q e hq hd hshH
      refine ⟨e', h1, reads_canonical (t := expandBelow (.mk n a s c ks)) ⟨r1.symm, r2.symm, r3.symm⟩ ?_ h2⟩
      simp only [expandBelow, Element.children]
      refine forall2_of_getElem _ _ (by rw [List.length_map, hlen]) ?_
      intro i k' c' hk' hc'
      rw [List.getElem?_map] at hk'
      obtain ⟨k, hk, rfl⟩ := Option.map_eq_some_iff.mp hk'
      obtain ⟨k2, hk2, hrk⟩ := forall2_mem_left r5 hc'
      simp only [Element.children] at hk2
      rw [hk] at hk2; cases hk2
      obtain ⟨g1, _⟩ := hkid i k _ hk hc' hrk
      rw [expandTree_eq, if_neg (hno [] _ rfl hsh k (List.mem_of_getElem? hk))]
      exact g1
    · rw [if_neg hsh]
      exact ⟨e, inv.same q e hq (fun hh => hsh ((shorthand_iff hr).mpr hh.2)), hval⟩

/-! ### The search -/

theorem reads_below {h : EHeap} {root p : Ptr} (hb : Below h root p) : ∀ {t : Element} {r e : HElem}, h.get root = some r → Reads h t r → h.get p = some e →
    ∃ i path x, t.at? (i :: path) = some x ∧ Reads h x e := by
  have kid : ∀ {t : Element} {r e : HElem} {p : Ptr}, Reads h t r → KidOf r p → h.get p = some e → ∃ k, t.children[p.idx]? = some k ∧ Reads h k e := by
    intro t r e p hr hk hg
    obtain ⟨_, _, _, _, r5⟩ := reads_iff.mp hr
    refine forall2_mem_left r5 ?_
    rw [cells_get, if_pos hk.2, ← hk.1]; exact hg
  induction hb with
  | @kid _ p hg hk =>
    intro t r e hr1 hr2 hp
    rw [hg] at hr1; cases hr1
    obtain ⟨k, h1, h2⟩ := kid hr2 hk hp
    exact ⟨p.idx, [], k, by simp only [Element.at?, h1], h2⟩
  | @step q e0 p _ hg hk ih =>
    intro t r e hr1 hr2 hp
    obtain ⟨i, path, x, h1, h2⟩ := ih hr1 hr2 hg
    obtain ⟨k, h3, h4⟩ := kid h2 hk hp
    refine ⟨i, path ++ [p.idx], k, ?_, h4⟩
    have happ : ∀ (p q : List Nat) (e : Element), e.at? (p ++ q) = (e.at? p).bind fun x => x.at? q := by
      intro p q
      induction p with
      | nil => intro e; rfl
      | cons i p ih =>
        intro e
        simp only [List.cons_append, Element.at?]
        cases e.children[i]? with
        | none => rfl
        | some c => exact ih c
    have : i :: (path ++ [p.idx]) = (i :: path) ++ [p.idx] := rfl
    rw [this, happ, h1]
    simp only [Option.bind_some, Element.at?, h3]

theorem depth_kid {t k : Element} (hk : k ∈ t.children) : depth k < depth t := by
  cases t with
  | mk n a s c ks =>
    rw [depth]
    have : ∀ ks : List Element, k ∈ ks → depth k ≤ depths ks := by
      intro ks
      induction ks with
      | nil => intro h; cases h
      | cons x ks ih =>
        intro h
        rw [depths]
        rcases List.mem_cons.mp h with rfl | h
        · omega
        · have := ih h; omega
    have := this ks hk
    omega

theorem searchCells_some {recur : HSlice → Option (List Ptr)} (pred : HElem → Bool) (arr : Nat) (es : List HElem) : ∀ (i : Nat),
    (∀ e ∈ es, ∃ ps, recur e.kids = some ps) → ∃ ps, searchCells recur pred arr i es = some ps := by
  induction es with
  | nil => intro i _; exact ⟨[], rfl⟩
  | cons e es ih =>
    intro i hr
    obtain ⟨a, ha⟩ := hr e (by simp)
    obtain ⟨b, hb⟩ := ih (i + 1) (fun e he => hr e (by simp [he]))
    rw [searchCells, ha, hb]
    exact ⟨_, rfl⟩

theorem searchH_reads {h : EHeap} (pred : HElem → Bool) (n : Nat) : ∀ {t : Element} {e : HElem}, Reads h t e → depth t ≤ n →
    ∃ ps, searchH h pred n e.kids = some ps := by
  induction n with
  | zero => intro t e _ hn; cases t; rw [depth] at hn; omega
  | succ n ih =>
    intro t e hr hn
    rw [searchH]
    refine searchCells_some _ _ _ _ ?_
    intro c hc
    obtain ⟨i, hi⟩ := List.mem_iff_getElem?.mp hc
    obtain ⟨k, h1, h2⟩ := forall2_mem_left (reads_iff.mp hr).2.2.2.2 hi
    have := depth_kid (List.mem_of_getElem? h1)
    exact ih h2 (by omega)

/-- A search below a tree ends if there is room for as many nested calls as the tree has levels. -/
theorem searchPtr_reads {h : EHeap} (pred : HElem → Bool) {n : Nat} {t : Element} {root : Ptr} (hr : Holds h root t) (hn : depth t ≤ n) :
    ∃ ps, searchPtr h n pred root = some ps := by
  obtain ⟨e, h1, h2⟩ := hr
  unfold searchPtr
  rw [h1]
  exact searchH_reads pred n h2 hn

/-! ### Documents -/

theorem load_mono (grow : Nat → Nat → Nat) (t : Element) : ∀ h : EHeap, ∃ xs, (load grow t h).1 = h ++ xs := by
  induction t using Element.ind with
  | hP n a s c ks ih =>
    intro h
    have hall : ∀ (ks : List Element), (∀ k ∈ ks, ∀ h : EHeap, ∃ xs, (load grow k h).1 = h ++ xs) → ∀ h : EHeap, ∃ xs, (loadAll grow ks h).1 = h ++ xs := by
      intro ks
      induction ks with
      | nil => intro _ h; exact ⟨[], by simp [loadAll]⟩
      | cons k ks ih2 =>
        intro hk h
        obtain ⟨xs, h1⟩ := hk k (by simp) h
        obtain ⟨ys, h2⟩ := ih2 (fun k' hk' => hk k' (by simp [hk'])) (load grow k h).1
        exact ⟨xs ++ ys, by rw [loadAll]; dsimp only; rw [h2, h1, List.append_assoc]⟩
    obtain ⟨xs, h1⟩ := hall ks ih h
    exact ⟨xs ++ [padded (capAfter grow ks.length) (loadAll grow ks h).2], by rw [load]; dsimp only; rw [h1, List.append_assoc]⟩

/-- The slice lies within its array. -/
def SliceOk (h : EHeap) (s : HSlice) : Prop := s.len ≤ ((h[s.arr]?).getD []).length

theorem sliceOk_append {h : EHeap} (xs : EHeap) {s : HSlice} (hs : SliceOk h s) : SliceOk (h ++ xs) s :=
  Nat.le_trans hs (arr_append_length h xs s.arr)

theorem cells_append {h : EHeap} (xs : EHeap) {s : HSlice} (hs : SliceOk h s) : EHeap.cells (h ++ xs) s = h.cells s := by
  apply cells_stable
  intro i hi
  obtain ⟨e, he⟩ := get_some_of_len hs hi
  rw [he, get_append_of_some _ he]

/-- A tree that is held is still held when more arrays have been made. -/
theorem reads_append {h : EHeap} (hs : SlicesOk h) (xs : EHeap) (t : Element) : ∀ {e : HElem}, SliceOk h e.kids → Reads h t e → Reads (h ++ xs) t e := by
  induction t using Element.ind with
  | hP n a s c ks ih =>
    intro e hsl hr
    obtain ⟨r1, r2, r3, r4, r5⟩ := reads_iff.mp hr
    rw [reads_iff, cells_append xs hsl]
    refine ⟨r1, r2, r3, r4, forall2_of_getElem _ _ r5.length_eq ?_⟩
    intro i k c0 hk hc
    obtain ⟨k', h1, h2⟩ := forall2_mem_left r5 hc
    rw [hk] at h1; cases h1
    obtain ⟨j, _, hj⟩ := mem_cells.mp (List.mem_of_getElem? hc)
    exact ih k (List.mem_of_getElem? hk) (hs _ _ hj) h2

theorem slicesOk_append {h : EHeap} (hs : SlicesOk h) (a : List HElem) (ha : ∀ e ∈ a, SliceOk h e.kids) : SlicesOk (h ++ [a]) := by
  intro p e hg
  by_cases hlt : p.arr < h.length
  · rw [get_append_left _ _ hlt] at hg
    exact sliceOk_append [a] (hs p e hg)
  · have hq : p.arr = h.length := by
      have := get_lt hg
      simp at this; omega
    have : EHeap.get (h ++ [a]) p = a[p.idx]? := by
      have := get_new h a p.idx
      rw [← hq] at this; exact this
    rw [this] at hg
    exact sliceOk_append [a] (ha e (List.mem_of_getElem? hg))

theorem sliceOk_zero (h : EHeap) : SliceOk h zeroElem.kids := Nat.zero_le _

theorem loadAll_reads (grow : Nat → Nat → Nat) (ks : List Element)
    (ih : ∀ k ∈ ks, ∀ h : EHeap, SlicesOk h → SlicesOk (load grow k h).1 ∧ SliceOk (load grow k h).1 (load grow k h).2.kids ∧
      Reads (load grow k h).1 k (load grow k h).2) :
    ∀ h : EHeap, SlicesOk h → SlicesOk (loadAll grow ks h).1 ∧ (∀ e ∈ (loadAll grow ks h).2, SliceOk (loadAll grow ks h).1 e.kids) ∧
      List.Forall₂ (Reads (loadAll grow ks h).1) ks (loadAll grow ks h).2 ∧ ∃ xs, (loadAll grow ks h).1 = h ++ xs := by
  induction ks with
  | nil => intro h hs; exact ⟨hs, by simp [loadAll], by simp [loadAll], [], by simp [loadAll]⟩
  | cons k ks ih2 =>
    intro h hs
    obtain ⟨h1, h2, h3⟩ := ih k (by simp) h hs
    obtain ⟨g1, g2, g3, xs, g4⟩ := ih2 (fun k' hk' => ih k' (by simp [hk'])) _ h1
    rw [loadAll]
    dsimp only
    obtain ⟨ys, h4⟩ := load_mono grow k h
    refine ⟨g1, ?_, .cons ?_ g3, ys ++ xs, by rw [g4, h4, List.append_assoc]⟩
    · intro e he
      rcases List.mem_cons.mp he with rfl | he
      · rw [g4]; exact sliceOk_append xs h2
      · exact g2 e he
    · rw [g4]; exact reads_append h1 xs k h2 h3

theorem load_reads (grow : Nat → Nat → Nat) (t : Element) : ∀ h : EHeap, SlicesOk h → SlicesOk (load grow t h).1 ∧
    SliceOk (load grow t h).1 (load grow t h).2.kids ∧ Reads (load grow t h).1 t (load grow t h).2 := by
  induction t using Element.ind with
  | hP n a s c ks ih =>
    intro h hs
    obtain ⟨h1, h2, h3, _⟩ := loadAll_reads grow ks ih h hs
    rw [load]
    dsimp only
    have hlen := h3.length_eq
    have hok : SliceOk ((loadAll grow ks h).1 ++ [padded (capAfter grow ks.length) (loadAll grow ks h).2]) ⟨(loadAll grow ks h).1.length, ks.length⟩ := by
      unfold SliceOk
      simp [padded, hlen]
    refine ⟨slicesOk_append h1 _ ?_, hok, ?_⟩
    · intro e he
      unfold padded at he
      rcases List.mem_append.mp he with he | he
      · exact h2 e he
      · rw [(List.mem_replicate.mp he).2]; exact sliceOk_zero _
    · rw [reads_iff]
      refine ⟨rfl, rfl, rfl, rfl, ?_⟩
      have hcell : EHeap.cells ((loadAll grow ks h).1 ++ [padded (capAfter grow ks.length) (loadAll grow ks h).2]) ⟨(loadAll grow ks h).1.length, ks.length⟩ =
          (loadAll grow ks h).2 := by
        unfold EHeap.cells
        simp only [List.getElem?_concat_length, Option.getD_some]
        rw [hlen]; exact padded_take _ _
      dsimp only
      rw [hcell]
      simp only [Element.children]
      refine forall2_of_getElem _ _ hlen ?_
      intro i k c0 hk hc
      obtain ⟨k', g1, g2⟩ := forall2_mem_left h3 hc
      rw [hk] at g1; cases g1
      exact reads_append h1 _ k (h2 c0 (List.mem_of_getElem? hc)) g2

/-- A document that has been parsed is held in memory. -/
theorem loadDoc_holds (grow : Nat → Nat → Nat) (t : Element) {h : EHeap} (hs : SlicesOk h) :
    SlicesOk (loadDoc grow t h).1 ∧ Holds (loadDoc grow t h).1 (loadDoc grow t h).2 t := by
  obtain ⟨h1, h2, h3⟩ := load_reads grow t h hs
  unfold loadDoc
  dsimp only
  refine ⟨slicesOk_append h1 _ (by simpa using h2), (load grow t h).2, ?_, reads_append h1 _ t h2 h3⟩
  rw [get_new]; rfl

end GoXml.Xsd
