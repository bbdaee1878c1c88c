import Verif.Proofs.XsdNames
set_option autoImplicit false

/-! A pass that moves anonymous types, in memory. -/

namespace GoXml.Xsd

/-! ### Which elements are looked at -/

/-- The elements that the search of a pass finds. -/
def predH {σ : Type} (P : Plan σ) (h : EHeap) (e : HElem) : Bool := P.cand e.tag && hasAnonymousType h e

theorem isType_iff (e : HElem) : isType e = true ↔ e.name = ⟨schemaNS, b!"complexType"⟩ ∨ e.name = ⟨schemaNS, b!"simpleType"⟩ := by
  obtain ⟨⟨sp, lo⟩, _, _, _, _⟩ := e
  unfold isType isElem
  simp only [HElem.tag, Element.name, XName.mk.injEq, Bool.or_eq_true]
  have hne : schemaNS ≠ [] := by decide
  by_cases h1 : lo = b!"complexType"
  · simp [h1, hne]
  · by_cases h2 : lo = b!"simpleType"
    · simp [h2, hne]
    · simp [h1, h2]

theorem anon_iff {h : EHeap} {k : Element} {c : HElem} {fp : List Nat} (ho : Owns h k c fp) : isAnonymousType c = decide (AnonType k) := by
  obtain ⟨h1, h2, _⟩ := owns_iff.mp ho
  rw [Bool.eq_iff_iff, decide_eq_true_eq]
  unfold isAnonymousType AnonType
  rw [Bool.and_eq_true, isType_iff, h1]
  refine and_congr_right fun _ => ?_
  unfold hasAttrValue
  rw [decide_eq_true_eq]
  cases k
  simp only [HElem.tag, Element.attr, Element.attrs] at *
  rw [h2]

theorem findIdx_anon {h : EHeap} (ks : List Element) : ∀ {cs : List HElem} {fp : List Nat}, OwnsAll h ks cs fp →
    cs.findIdx? isAnonymousType = ks.findIdx? AnonType := by
  induction ks with
  | nil => intro cs fp ho; cases cs with
    | nil => rfl
    | cons => simp [OwnsAll] at ho
  | cons k ks ih => intro cs fp ho; cases cs with
    | nil => simp [OwnsAll] at ho
    | cons c cs =>
      obtain ⟨f, g, rfl, h3, h4⟩ := ho
      rw [List.findIdx?_cons, List.findIdx?_cons, anon_iff h3, ih h4]

theorem filter_anon {h : EHeap} (ks : List Element) : ∀ {cs : List HElem} {fp : List Nat}, OwnsAll h ks cs fp →
    (cs.filter isAnonymousType).length = (ks.filter AnonType).length := by
  induction ks with
  | nil => intro cs fp ho; cases cs with
    | nil => rfl
    | cons => simp [OwnsAll] at ho
  | cons k ks ih => intro cs fp ho; cases cs with
    | nil => simp [OwnsAll] at ho
    | cons c cs =>
      obtain ⟨f, g, rfl, h3, h4⟩ := ho
      rw [List.filter_cons, List.filter_cons, anon_iff h3]
      split
      · simp [ih h4]
      · exact ih h4

/-- The tag of a tree: the element without its children. -/
def tagOf : Element → Element
  | .mk n a s c _ => .mk n a s c []

theorem owns_tag {h : EHeap} {t : Element} {e : HElem} {fp : List Nat} (ho : Owns h t e fp) : e.tag = tagOf t := by
  obtain ⟨h1, h2, h3, h4, _⟩ := owns_iff.mp ho
  cases t
  simp only [HElem.tag, tagOf, Element.name, Element.attrs, Element.scope, Element.content] at *
  rw [h1, h2, h3, h4]

/-! ### Searching -/

theorem searchCells_cons {recur : HSlice → Option (List Ptr)} {pred : HElem → Bool} {arr i : Nat} {e : HElem} {es : List HElem} {ps : List Ptr}
    (hs : searchCells recur pred arr i (e :: es) = some ps) :
    ∃ a b, recur e.kids = some a ∧ searchCells recur pred arr (i + 1) es = some b ∧ ps = (if pred e then [⟨arr, i⟩] else []) ++ a ++ b := by
  unfold searchCells at hs
  split at hs
  · rename_i a b h1 h2
    cases hs
    exact ⟨a, b, h1, h2, rfl⟩
  · cases hs

theorem predH_stable {σ : Type} (P : Plan σ) {h h' : EHeap} {k : Element} {c : HElem} {fp : List Nat} (ho : Owns h k c fp)
    (hs : ∀ a ∈ fp, ∀ i, h'.get ⟨a, i⟩ = h.get ⟨a, i⟩) : predH P h' c = predH P h c := by
  obtain ⟨_, _, _, _, _, _, fps, rfl, _⟩ := owns_iff.mp ho
  unfold predH hasAnonymousType
  rw [cells_stable fun i _ => hs _ (by simp) i]

theorem searchCells_stable {σ : Type} (P : Plan σ) {h h' : EHeap} (n : Nat) : ∀ (ks : List Element) {cs : List HElem} {fp : List Nat} (arr i : Nat),
    OwnsAll h ks cs fp → (∀ a ∈ fp, ∀ i, h'.get ⟨a, i⟩ = h.get ⟨a, i⟩) →
    searchCells (searchH h' (predH P h') n) (predH P h') arr i cs = searchCells (searchH h (predH P h) n) (predH P h) arr i cs := by
  induction n with
  | zero =>
    intro ks cs fp arr i ho hs
    cases cs <;> rfl
  | succ n ih =>
    intro ks
    induction ks with
    | nil => intro cs fp arr i ho hs; cases cs with
      | nil => rfl
      | cons => simp [OwnsAll] at ho
    | cons k ks ih2 => intro cs fp arr i ho hs; cases cs with
      | nil => simp [OwnsAll] at ho
      | cons c cs =>
        obtain ⟨f, g, rfl, h3, h4⟩ := ho
        have e1 := predH_stable P h3 fun a ha => hs a (by simp [ha])
        have e2 := ih2 arr (i + 1) h4 fun a ha => hs a (by simp [ha])
        have e3 : searchH h' (predH P h') (n + 1) c.kids = searchH h (predH P h) (n + 1) c.kids := by
          obtain ⟨_, _, _, _, _, _, fps, rfl, h7⟩ := owns_iff.mp h3
          rw [searchH, searchH, cells_stable fun i _ => hs _ (by simp) i]
          exact ih _ _ _ h7 fun a ha => hs a (by simp [ha])
        unfold searchCells
        rw [e1, e2, e3]

theorem searchH_stable {σ : Type} (P : Plan σ) {h h' : EHeap} (n : Nat) {k : Element} {c : HElem} {fp : List Nat} (ho : Owns h k c fp)
    (hs : ∀ a ∈ fp, ∀ i, h'.get ⟨a, i⟩ = h.get ⟨a, i⟩) : searchH h' (predH P h') n c.kids = searchH h (predH P h) n c.kids := by
  cases n with
  | zero => rfl
  | succ n =>
    obtain ⟨_, _, _, _, _, _, fps, rfl, h7⟩ := owns_iff.mp ho
    rw [searchH, searchH, cells_stable fun i _ => hs _ (by simp) i]
    exact searchCells_stable P n _ _ _ h7 fun a ha => hs a (by simp [ha])

/-! ### The pass -/

/-- What a pass over a list of pointers does, if the elements have one anonymous type each. -/
structure Pass {σ : Type} (P : Plan σ) (grow : Nat → Nat → Nat) (R : Ptr) (ok : Element → Prop) where
  cand_tag : ∀ t, P.cand (tagOf t) = P.cand t
  move_tag : ∀ st t, P.move st (tagOf t) = P.move st t
  run : List Ptr → EHeap × σ → Option (EHeap × σ)
  run_nil : ∀ st, run [] st = some st
  run_append : ∀ ps qs st, run (ps ++ qs) st = (run ps st).bind (run qs)
  run_one : ∀ (h : EHeap) (st : σ) (q : Ptr) (r e : HElem) (i : Nat) (t : HElem), RootAt h R r → h.get q = some e →
    SliceOk h e.kids → e.kids.arr < h.length → q ≠ R → q.arr ≠ e.kids.arr → q.arr ≠ r.kids.arr → R.arr ≠ e.kids.arr → r.kids.arr ≠ e.kids.arr →
    ok e.tag → (h.cells e.kids).findIdx? isAnonymousType = some i → (h.cells e.kids)[i]? = some t →
    ((h.cells e.kids).filter isAnonymousType).length = 1 →
    run [q] (h, st) = some (match P.move st e.tag with
      | (st, none) => (h, st)
      | (st, some m) => (moveToRoot grow h R q e m.attr m.value i { t with attrs := m.rename t.attrs }, st))

/-- The conditions on a tree, for a pass. -/
def Fine {σ : Type} (P : Plan σ) (ok : Element → Prop) (t : Element) : Prop :=
  ∀ p x, t.at? p = some x → P.pick x ≠ none → (x.children.filter AnonType).length = 1 ∧ (∀ k ∈ x.children, P.pick k = none) ∧ ok (tagOf x)

theorem fine_kid {σ : Type} {P : Plan σ} {ok : Element → Prop} {t k : Element} (hf : Fine P ok t) (hk : k ∈ t.children) : Fine P ok k := by
  intro p x hx hp
  obtain ⟨i, hi⟩ := List.getElem?_of_mem hk
  exact hf (i :: p) x (by rw [Element.at?, hi]; exact hx) hp

/-- The part of `hoist` below an element. -/
def hoistBelow {σ : Type} (P : Plan σ) : Element → σ → Element × List Element × σ
  | .mk n a s c ks, st => let r := hoistAll P ks st
    (.mk n a s c r.1, r.2)

theorem hoist_eq {σ : Type} (P : Plan σ) (t : Element) (st : σ) : hoist P t st = match P.pick t with
    | none => hoistBelow P t st
    | some i => match P.move st t with
      | (st, none) => hoistBelow P t st
      | (st, some m) => (.mk t.name (attrSet [] m.attr m.value t.attrs) t.scope [] ((hoistAll P t.children st).1.eraseIdx i),
          (((hoistAll P t.children st).1[i]?).map (withAttrs m.rename)).toList ++ (hoistAll P t.children st).2.1, (hoistAll P t.children st).2.2) := by
  cases t
  rw [hoist]
  rfl

theorem hoistAll_length {σ : Type} (P : Plan σ) (ks : List Element) : ∀ st : σ, (hoistAll P ks st).1.length = ks.length := by
  induction ks with
  | nil => intro st; rfl
  | cons k ks ih => intro st; rw [hoistAll]; simp [ih]

theorem pick_iff {σ : Type} {P : Plan σ} (hc : ∀ t, P.cand (tagOf t) = P.cand t) {h : EHeap} {t : Element} {e : HElem} {fp : List Nat} (ho : Owns h t e fp) :
    (P.pick t = none ↔ predH P h e = false) ∧ ∀ i, P.pick t = some i → (h.cells e.kids).findIdx? isAnonymousType = some i := by
  obtain ⟨_, _, _, _, _, _, fps, _, h7⟩ := owns_iff.mp ho
  unfold Plan.pick predH hasAnonymousType
  rw [owns_tag ho, hc, ← findIdx_anon _ h7]
  constructor
  · by_cases hcand : P.cand t = true
    · simp [hcand]
    · simp [hcand]
  · intro i hi
    split at hi
    · exact hi
    · cases hi

theorem perm4 {α : Type} (a b c d : List α) : ((a ++ c) ++ (b ++ d)).Perm ((a ++ b) ++ (c ++ d)) := by
  rw [List.append_assoc, List.append_assoc]
  refine List.Perm.append_left a ?_
  rw [← List.append_assoc, ← List.append_assoc]
  exact List.perm_append_comm.append_right d

/-- Nothing has changed outside of the given arrays, the root and its children, and perhaps one element. -/
def Same (h h' : EHeap) (R : Ptr) (ra : Nat) (fp : List Nat) (ex : Option Ptr) : Prop :=
  ∀ p : Ptr, p.arr < h.length → p.arr ∉ fp → p ≠ R → p.arr ≠ ra → ex ≠ some p → h'.get p = h.get p

section
variable {σ : Type} {P : Plan σ} {grow : Nat → Nat → Nat} {R : Ptr} {ok : Element → Prop} (A : Pass P grow R ok)

/-- The pass below an element. -/
def BelowRun (A : Pass P grow R ok) (t : Element) : Prop :=
  ∀ {h : EHeap} {st : σ} {e : HElem} {fp : List Nat} {r : HElem} {n : Nat} {ps : List Ptr}, RootAt h R r → Owns h t e fp → fp.Nodup → R.arr ∉ fp → r.kids.arr ∉ fp →
    searchH h (predH P h) n e.kids = some ps →
    ∃ h' r' ts f g, A.run ps (h, st) = some (h', (hoistBelow P t st).2.2) ∧ Grown h h' R r r' ts ∧ Same h h' R r.kids.arr fp none ∧
      Owns h' (hoistBelow P t st).1 e f ∧ OwnsAll h' (hoistBelow P t st).2.1 ts g ∧ (f ++ g).Perm fp

/-- The pass on an element and below it. -/
def AtRun (A : Pass P grow R ok) (t : Element) : Prop :=
  ∀ {h : EHeap} {st : σ} {q : Ptr} {e : HElem} {fp : List Nat} {r : HElem} {n : Nat} {ps : List Ptr}, RootAt h R r → h.get q = some e → Owns h t e fp → fp.Nodup →
    R.arr ∉ fp → r.kids.arr ∉ fp → q.arr ∉ fp → q ≠ R → q.arr ≠ r.kids.arr → searchH h (predH P h) n e.kids = some ps →
    ∃ h' r' ts f g e', A.run ((if predH P h e then [q] else []) ++ ps) (h, st) = some (h', (hoist P t st).2.2) ∧ Grown h h' R r r' ts ∧
      Same h h' R r.kids.arr fp (some q) ∧ h'.get q = some e' ∧ Owns h' (hoist P t st).1 e' f ∧ OwnsAll h' (hoist P t st).2.1 ts g ∧ (f ++ g).Perm fp

include A in
theorem root_notin {h h' : EHeap} {r r' : HElem} {ts : List HElem} (gr : Grown h h' R r r' ts) {fp : List Nat} (hlt : ∀ a ∈ fp, a < h.length)
    (hr : r.kids.arr ∉ fp) : r'.kids.arr ∉ fp := by
  intro hm
  rcases gr.arr with h1 | h1
  · rw [h1] at hm; exact hr hm
  · have := hlt _ hm; omega

/-- A list of elements that are not looked at themselves. -/
theorem run_values (ks : List Element) (ih : ∀ k ∈ ks, BelowRun A k) : ∀ {h : EHeap} {st : σ} {cs : List HElem} {fp : List Nat} {r : HElem} {n arr i : Nat} {ps : List Ptr},
    RootAt h R r → OwnsAll h ks cs fp → fp.Nodup → R.arr ∉ fp → r.kids.arr ∉ fp → (∀ k ∈ ks, P.pick k = none) →
    searchCells (searchH h (predH P h) n) (predH P h) arr i cs = some ps →
    ∃ h' r' ts f g, A.run ps (h, st) = some (h', (hoistAll P ks st).2.2) ∧ Grown h h' R r r' ts ∧ Same h h' R r.kids.arr fp none ∧
      OwnsAll h' (hoistAll P ks st).1 cs f ∧ OwnsAll h' (hoistAll P ks st).2.1 ts g ∧ (f ++ g).Perm fp := by
  induction ks with
  | nil =>
    intro h st cs fp r n arr i ps w ho hnd hR hr _ hs
    cases cs with
    | cons => simp [OwnsAll] at ho
    | nil =>
      cases hs
      simp only [OwnsAll] at ho
      subst ho
      exact ⟨h, r, [], [], [], A.run_nil _, Grown.refl w, fun _ _ _ _ _ _ => rfl, by simp [hoistAll, OwnsAll], by simp [hoistAll, OwnsAll], by simp⟩
  | cons k ks ih2 =>
    intro h st cs fp r n arr i ps w ho hnd hR hr hpk hs
    cases cs with
    | nil => simp [OwnsAll] at ho
    | cons c cs =>
      obtain ⟨f0, g0, rfl, o1, o2⟩ := ho
      obtain ⟨nd1, nd2, nd3⟩ := List.nodup_append.mp hnd
      rw [List.mem_append, not_or] at hR hr
      obtain ⟨pa, pb, s1, s2, rfl⟩ := searchCells_cons hs
      have hp0 := (pick_iff A.cand_tag o1).1.mp (hpk k (by simp))
      rw [hp0]
      obtain ⟨h1, r1, ts1, f1, g1, b1, b2, b3, b4, b5, b6⟩ := ih k (by simp) (st := st) w o1 nd1 hR.1 hr.1 s1
      have hlt1 := owns_lt k o1
      have hlt2 := ownsAll_lt ks (fun k _ => owns_lt k) o2
      have hst : ∀ a ∈ g0, ∀ i, h1.get ⟨a, i⟩ = h.get ⟨a, i⟩ := by
        intro a ha i
        exact b3 ⟨a, i⟩ (hlt2 a ha) (fun hm => nd3 _ hm _ ha rfl) (by rintro rfl; exact hR.2 ha) (by rintro rfl; exact hr.2 ha) (by simp)
      have o2' := owns_all_stable b2.mono o2 hst
      have s2' := s2
      rw [← searchCells_stable P n ks arr (i + 1) o2 hst] at s2'
      have hr1 := root_notin A b2 hlt2 hr.2
      obtain ⟨h2, r2, ts2, f2, g2, c1, c2, c3, c4, c5, c6⟩ := ih2 (fun k' hk' => ih k' (by simp [hk'])) (st := (hoistBelow P k st).2.2) b2.root o2' nd2 hR.2 hr1 (fun k' hk' => hpk k' (by simp [hk'])) s2'
      have hr1' := root_notin A b2 hlt1 hr.1
      have hst2 : ∀ a ∈ f0, ∀ i, h2.get ⟨a, i⟩ = h1.get ⟨a, i⟩ := by
        intro a ha i
        exact c3 ⟨a, i⟩ (Nat.lt_of_lt_of_le (hlt1 a ha) b2.mono) (fun hm => nd3 _ ha _ hm rfl) (by rintro rfl; exact hR.1 ha) (by rintro rfl; exact hr1' ha) (by simp)
      have hh : hoist P k st = hoistBelow P k st := by rw [hoist_eq, hpk k (by simp)]
      refine ⟨h2, r2, ts1 ++ ts2, f1 ++ f2, g1 ++ g2, ?_, b2.trans c2, ?_, ?_, ?_, ?_⟩
      · simp only [Bool.false_eq_true, if_false, List.nil_append]
        rw [A.run_append, b1]
        simp only [Option.bind_some]
        rw [c1, hoistAll, hh]
      · intro p p1 p2 p3 p4 _
        rw [List.mem_append, not_or] at p2
        rw [c3 p (Nat.lt_of_lt_of_le p1 b2.mono) p2.2 p3 ?_ (by simp), b3 p p1 p2.1 p3 p4 (by simp)]
        rcases b2.arr with h3 | h3
        · rw [h3]; exact p4
        · omega
      · rw [hoistAll, hh]
        exact ⟨f1, f2, rfl, owns_stable c2.mono _ b4 fun a ha => hst2 a (b6.subset (by simp [ha])), c4⟩
      · rw [hoistAll, hh]
        exact ownsAll_append _ (owns_all_stable c2.mono b5 fun a ha => hst2 a (b6.subset (by simp [ha]))) c5
      · exact (perm4 f1 g1 f2 g2).trans (b6.append c6)

/-- A list of elements in an array. -/
theorem run_cells (ks : List Element) (ih : ∀ k ∈ ks, AtRun A k) : ∀ {h : EHeap} {st : σ} {cs : List HElem} {fp : List Nat} {r : HElem} {n arr i : Nat} {ps : List Ptr},
    RootAt h R r → OwnsAll h ks cs fp → fp.Nodup → R.arr ∉ fp → r.kids.arr ∉ fp → arr ∉ fp → arr ≠ R.arr → arr ≠ r.kids.arr → (∀ j c, cs[j]? = some c → h.get ⟨arr, i + j⟩ = some c) →
    searchCells (searchH h (predH P h) n) (predH P h) arr i cs = some ps →
    ∃ h' r' ts f g cs', A.run ps (h, st) = some (h', (hoistAll P ks st).2.2) ∧ Grown h h' R r r' ts ∧ (∀ p : Ptr, p.arr < h.length → p.arr ∉ fp → p ≠ R → p.arr ≠ r.kids.arr →
      (∀ j, j < cs.length → p ≠ ⟨arr, i + j⟩) → h'.get p = h.get p) ∧ cs'.length = cs.length ∧ (∀ j c, cs'[j]? = some c → h'.get ⟨arr, i + j⟩ = some c) ∧
      OwnsAll h' (hoistAll P ks st).1 cs' f ∧ OwnsAll h' (hoistAll P ks st).2.1 ts g ∧ (f ++ g).Perm fp := by
  induction ks with
  | nil =>
    intro h st cs fp r n arr i ps w ho hnd hR hr _ _ _ _ hs
    cases cs with
    | cons => simp [OwnsAll] at ho
    | nil =>
      cases hs
      simp only [OwnsAll] at ho
      subst ho
      exact ⟨h, r, [], [], [], [], A.run_nil _, Grown.refl w, fun _ _ _ _ _ _ => rfl, rfl, by simp, by simp [hoistAll, OwnsAll], by simp [hoistAll, OwnsAll], by simp⟩
  | cons k ks ih2 =>
    intro h st cs fp r n arr i ps w ho hnd hR hr ha haR har hcs hs
    cases cs with
    | nil => simp [OwnsAll] at ho
    | cons c cs =>
      obtain ⟨f0, g0, rfl, o1, o2⟩ := ho
      obtain ⟨nd1, nd2, nd3⟩ := List.nodup_append.mp hnd
      rw [List.mem_append, not_or] at hR hr ha
      obtain ⟨pa, pb, s1, s2, rfl⟩ := searchCells_cons hs
      have hc0 : h.get ⟨arr, i⟩ = some c := hcs 0 c rfl
      obtain ⟨h1, r1, ts1, f1, g1, c', b1, b2, b3, b3', b4, b5, b6⟩ := ih k (by simp) (st := st) w hc0 o1 nd1 hR.1 hr.1 ha.1 (by rintro rfl; exact haR rfl) har s1
      have hlt1 := owns_lt k o1
      have hlt2 := ownsAll_lt ks (fun k _ => owns_lt k) o2
      have hst : ∀ a ∈ g0, ∀ i, h1.get ⟨a, i⟩ = h.get ⟨a, i⟩ := by
        intro a ha2 i'
        refine b3 ⟨a, i'⟩ (hlt2 a ha2) (fun hm => nd3 _ hm _ ha2 rfl) (by rintro rfl; exact hR.2 ha2) (by rintro rfl; exact hr.2 ha2) ?_
        intro he; cases he; exact ha.2 ha2
      have o2' := owns_all_stable b2.mono o2 hst
      have s2' := s2
      rw [← searchCells_stable P n ks arr (i + 1) o2 hst] at s2'
      have hr1 := root_notin A b2 hlt2 hr.2
      have harl : arr < h.length := get_lt hc0
      have har1 : arr ≠ r1.kids.arr := by
        rcases b2.arr with h3 | h3
        · rw [h3]; exact har
        · omega
      have hcs' : ∀ j c, cs[j]? = some c → h1.get ⟨arr, i + 1 + j⟩ = some c := by
        intro j d hj
        have := hcs (j + 1) d hj
        rw [← this]
        have e1 : i + 1 + j = i + (j + 1) := by omega
        rw [e1]
        refine b3 _ harl ha.1 (by rintro rfl; exact haR rfl) har ?_
        intro he
        injection he with he
        injection he with _ he
        omega
      obtain ⟨h2, r2, ts2, f2, g2, cs', c1, c2, c3, c3', c3'', c4, c5, c6⟩ := ih2 (fun k' hk' => ih k' (by simp [hk'])) (st := (hoist P k st).2.2) b2.root o2' nd2 hR.2 hr1 ha.2 haR har1 hcs' s2'
      have hr1' := root_notin A b2 hlt1 hr.1
      have hst2 : ∀ a ∈ f0, ∀ i, h2.get ⟨a, i⟩ = h1.get ⟨a, i⟩ := by
        intro a ha2 i'
        refine c3 ⟨a, i'⟩ (Nat.lt_of_lt_of_le (hlt1 a ha2) b2.mono) (fun hm => nd3 _ ha2 _ hm rfl) (by rintro rfl; exact hR.1 ha2) (by rintro rfl; exact hr1' ha2) ?_
        intro j _ he; cases he; exact ha.1 ha2
      refine ⟨h2, r2, ts1 ++ ts2, f1 ++ f2, g1 ++ g2, c' :: cs', ?_, b2.trans c2, ?_, by simp [c3'], ?_, ?_, ?_, ?_⟩
      · rw [A.run_append, b1]
        simp only [Option.bind_some]
        rw [c1, hoistAll]
      · intro p p1 p2 p3 p4 p5
        rw [List.mem_append, not_or] at p2
        rw [c3 p (Nat.lt_of_lt_of_le p1 b2.mono) p2.2 p3 ?_ ?_, b3 p p1 p2.1 p3 p4 ?_]
        · intro he; cases he; exact p5 0 (by simp) rfl
        · rcases b2.arr with h3 | h3
          · rw [h3]; exact p4
          · omega
        · intro j hj he
          exact p5 (j + 1) (by simp; omega) (by rw [he]; congr 1; omega)
      · intro j d hj
        cases j with
        | zero =>
          simp only [List.getElem?_cons_zero, Option.some.injEq] at hj
          subst hj
          rw [← b3', Nat.add_zero]
          refine c3 _ (Nat.lt_of_lt_of_le harl b2.mono) ha.2 (by rintro rfl; exact haR rfl) har1 ?_
          intro j' _ he
          injection he with _ he
          omega
        | succ j =>
          have := c3'' j d (by simpa using hj)
          rw [← this]
          congr 2
          omega
      · rw [hoistAll]
        exact ⟨f1, f2, rfl, owns_stable c2.mono _ b4 fun a ha => hst2 a (b6.subset (by simp [ha])), c4⟩
      · rw [hoistAll]
        exact ownsAll_append _ (owns_all_stable c2.mono b5 fun a ha => hst2 a (b6.subset (by simp [ha]))) c5
      · exact (perm4 f1 g1 f2 g2).trans (b6.append c6)

theorem cells_of_gets {h : EHeap} {s : HSlice} {cs : List HElem} (hl : cs.length = s.len) (hc : ∀ j c, cs[j]? = some c → h.get ⟨s.arr, j⟩ = some c) : h.cells s = cs := by
  apply List.ext_getElem?
  intro j
  rw [cells_get]
  cases hj : cs[j]? with
  | none =>
    have := List.getElem?_eq_none_iff.mp hj
    rw [if_neg (by omega)]
  | some c =>
    have := (List.getElem?_eq_some_iff.mp hj).1
    rw [if_pos (by omega), hc j c hj]

theorem owns_withAttrs {h : EHeap} {t : Element} {e : HElem} {fp : List Nat} (ho : Owns h t e fp) (f : List Attr → List Attr) :
    Owns h (withAttrs f t) { e with attrs := f e.attrs } fp := by
  obtain ⟨h1, h2, h3, h4, h5, h6, fps, rfl, h7⟩ := owns_iff.mp ho
  cases t
  refine owns_iff.mpr ⟨h1, ?_, h3, h4, h5, h6, fps, rfl, h7⟩
  simp only [Element.attrs, withAttrs] at *
  rw [h2]

theorem runs (t : Element) : Fine P ok t → BelowRun A t ∧ AtRun A t := by
  induction t using Element.ind with
  | hP n0 a0 s0 c0 ks ih =>
    intro hf
    have hkid : ∀ k ∈ ks, Fine P ok k := fun k hk => fine_kid hf hk
    have hB : BelowRun A (.mk n0 a0 s0 c0 ks) := by
      intro h st e fp r n ps w ho hnd hR hr hs
      cases n with
      | zero => cases hs
      | succ n =>
        obtain ⟨o1, o2, o3, o4, o5, o6, fps, rfl, o7⟩ := owns_iff.mp ho
        rw [searchH] at hs
        rw [List.mem_cons, not_or] at hR hr
        rw [List.nodup_cons] at hnd
        have hlen := cells_length (owns_sliceOk ho)
        obtain ⟨h', r', ts, f, g, cs', b1, b2, b3, b4, b5, b6, b7, b8⟩ := run_cells A ks (fun k hk => (ih k hk (hkid k hk)).2) (st := st) w o7 hnd.2 hR.2 hr.2 hnd.1 (Ne.symm hR.1) (Ne.symm hr.1)
          (by intro j c hj
              rw [Nat.zero_add]
              rw [cells_get] at hj
              split at hj
              · exact hj
              · cases hj) hs
        refine ⟨h', r', ts, e.kids.arr :: f, g, b1, b2, ?_, ?_, b7, ?_⟩
        · intro p p1 p2 p3 p4 _
          rw [List.mem_cons, not_or] at p2
          exact b3 p p1 p2.2 p3 p4 fun j _ he => p2.1 (by rw [he])
        · refine owns_iff.mpr ⟨o1, o2, o3, o4, Nat.lt_of_lt_of_le o5 b2.mono, ?_, f, rfl, ?_⟩
          · rw [o6]; exact (hoistAll_length P ks st).symm
          · rw [cells_of_gets (cs := cs') (by rw [b4, hlen]) (fun j c hj => by rw [← b5 j c hj, Nat.zero_add])]
            exact b6
        · exact b8.cons _
    refine ⟨hB, ?_⟩
    intro h st q e fp r n ps w hq ho hnd hR hr hqf hqR hqr hs
    have hB' := fun st' => hB (st := st') w ho hnd hR hr hs
    have hstay : ∀ {h' : EHeap}, Same h h' R r.kids.arr fp none → h'.get q = some e := fun hsame => by
      rw [hsame q (get_lt hq) hqf hqR hqr (by simp), hq]
    have hweak : ∀ {h' : EHeap}, Same h h' R r.kids.arr fp none → Same h h' R r.kids.arr fp (some q) :=
      fun hsame p p1 p2 p3 p4 _ => hsame p p1 p2 p3 p4 (by simp)
    obtain ⟨pk1, pk2⟩ := pick_iff A.cand_tag ho
    cases hpk : P.pick (.mk n0 a0 s0 c0 ks) with
    | none =>
      rw [pk1.mp hpk, hoist_eq, hpk]
      obtain ⟨h', r', ts, f, g, b1, b2, b3, b4, b5, b6⟩ := hB' st
      exact ⟨h', r', ts, f, g, e, by simpa using b1, b2, hweak b3, hstay b3, b4, b5, b6⟩
    | some i =>
      have hpred : predH P h e = true := by
        cases hp : predH P h e with
        | true => rfl
        | false => rw [pk1.mpr hp] at hpk; cases hpk
      obtain ⟨f1, f2, f3⟩ := hf [] _ rfl (by rw [hpk]; simp)
      obtain ⟨o1, o2, o3, o4, o5, o6, fps, hfp, o7⟩ := owns_iff.mp ho
      have hfind := pk2 i hpk
      obtain ⟨hi, hti, _⟩ := List.findIdx?_eq_some_iff_getElem.mp hfind
      have hlen := cells_length (owns_sliceOk ho)
      have hget : (h.cells e.kids)[i]? = some (h.cells e.kids)[i] := List.getElem?_eq_getElem hi
      generalize hti' : (h.cells e.kids)[i] = tc at hget
      rw [hfp, List.mem_cons, not_or] at hR hr hqf
      rw [hfp, List.nodup_cons] at hnd
      have hone := A.run_one h st q r e i tc w hq (owns_sliceOk ho) o5 hqR hqf.1 hqr hR.1 hr.1 (by rw [owns_tag ho]; exact f3) hfind hget (by rw [filter_anon _ o7]; exact f1)
      rw [hpred, if_pos rfl, hoist_eq, hpk]
      rw [owns_tag ho, A.move_tag] at hone
      rcases hmv : P.move st (.mk n0 a0 s0 c0 ks) with ⟨st', _ | m⟩
      · rw [hmv] at hone
        dsimp only at hone ⊢
        obtain ⟨h', r', ts, f, g, b1, b2, b3, b4, b5, b6⟩ := hB' st'
        refine ⟨h', r', ts, f, g, e, ?_, b2, hweak b3, hstay b3, b4, b5, b6⟩
        rw [A.run_append, hone]
        exact b1
      · rw [hmv] at hone
        dsimp only at hone ⊢
        generalize hh1 : moveToRoot grow h R q e m.attr m.value i { tc with attrs := m.rename tc.attrs } = h1 at hone
        obtain ⟨r1, m1, m2, m3, m4⟩ := moveToRoot_spec grow w hq (owns_sliceOk ho) o5 hqR hqf.1 hqr hR.1 hr.1 m.attr m.value (by omega) _ hh1
        have hlt := ownsAll_lt _ (fun k _ => owns_lt k) o7
        have hst : ∀ a ∈ fps, ∀ i, h1.get ⟨a, i⟩ = h.get ⟨a, i⟩ := by
          intro a ha j
          exact m4 ⟨a, j⟩ (hlt a ha) (by rintro rfl; exact hnd.1 ha) (by rintro rfl; exact hqf.2 ha) (by rintro rfl; exact hR.2 ha) (by rintro rfl; exact hr.2 ha)
        cases n with
        | zero => cases hs
        | succ n =>
          rw [searchH, ← searchCells_stable P n _ _ _ o7 hst] at hs
          have o7' := owns_all_stable m1.mono o7 hst
          have hr1 := root_notin A m1 hlt hr.2
          obtain ⟨h2, r2, ts, f, g, b1, b2, b3, b4, b5, b6⟩ := run_values A ks (fun k hk => (ih k hk (hkid k hk)).1) (st := st') m1.root o7' hnd.2 hR.2 hr1 f2 hs
          have hqr1 : q.arr ≠ r1.kids.arr := by
            rcases m1.arr with h3 | h3
            · rw [h3]; exact hqr
            · have := get_lt hq; omega
          have hAr1 : e.kids.arr ≠ r1.kids.arr := by
            rcases m1.arr with h3 | h3
            · rw [h3]; exact Ne.symm hr.1
            · omega
          have hlk : i < (hoistAll P ks st').1.length := by
            rw [hoistAll_length]
            have : e.kids.len = ks.length := o6
            omega
          obtain ⟨k', c', fk, gk, e1, e2, e3, e4, e5⟩ := ownsAll_erase _ b4 hlk
          rw [hget] at e2
          cases e2
          refine ⟨h2, r2, { tc with attrs := m.rename tc.attrs } :: ts, e.kids.arr :: gk, fk ++ g,
            { e with attrs := attrSet [] m.attr m.value e.attrs, content := [], kids := ⟨e.kids.arr, e.kids.len - 1⟩ }, ?_, m1.trans b2, ?_, ?_, ?_, ?_, ?_⟩
          · rw [A.run_append, hone]
            exact b1
          · intro p p1 p2 p3 p4 p5
            rw [hfp, List.mem_cons, not_or] at p2
            rw [b3 p (Nat.lt_of_lt_of_le p1 m1.mono) p2.2 p3 ?_ (by simp), m4 p p1 p2.1 (by rintro rfl; exact p5 rfl) p3 p4]
            rcases m1.arr with h3 | h3
            · rw [h3]; exact p4
            · omega
          · rw [b3 q (Nat.lt_of_lt_of_le (get_lt hq) m1.mono) hqf.2 hqR hqr1 (by simp)]
            exact m2
          · refine owns_iff.mpr ⟨o1, by rw [← o2]; rfl, o3, rfl, Nat.lt_of_lt_of_le o5 (Nat.le_trans m1.mono b2.mono), ?_, gk, rfl, ?_⟩
            · have := List.length_eraseIdx_of_lt hlk
              rw [hoistAll_length] at this
              simp only [Element.children]
              rw [this, o6]; rfl
            · simp only [Element.children]
              rw [cells_stable (h := h1) (h' := h2) fun j _ => ?_]
              · rw [m3]; exact e4
              · exact b3 ⟨e.kids.arr, j⟩ (Nat.lt_of_lt_of_le o5 m1.mono) hnd.1 (by rintro rfl; exact hR.1 rfl) hAr1 (by simp)
          · rw [show (Element.mk n0 a0 s0 c0 ks).children = ks from rfl, e1]
            exact ⟨fk, g, rfl, owns_withAttrs e3 m.rename, b5⟩
          · rw [hfp]
            refine List.Perm.cons _ ?_
            show (gk ++ (fk ++ g)).Perm fps
            rw [← List.append_assoc]
            exact ((List.perm_append_comm.trans e5).append_right g).trans b6

/-- A pass over a document. -/
theorem run_document {t : Element} (hpk : ∀ k ∈ t.children, P.pick k = none ∧ Fine P ok k) {h : EHeap} {st : σ} {r : HElem} {fp : List Nat} {n : Nat} {ps : List Ptr}
    (hg : h.get R = some r) (ho : Owns h t r fp) (hnd : fp.Nodup) (hR : R.arr ∉ fp) (hs : searchPtr h n (predH P h) R = some ps) :
    ∃ h' r' fp', A.run ps (h, st) = some (h', (hoistRoot P t st).2) ∧ h'.get R = some r' ∧ Owns h' (hoistRoot P t st).1 r' fp' ∧ fp'.Nodup ∧ R.arr ∉ fp' ∧
      h.length ≤ h'.length ∧ (∀ a ∈ fp', a ∈ fp ∨ h.length ≤ a) ∧ ∀ p : Ptr, p.arr < h.length → p.arr ∉ fp → p ≠ R → h'.get p = h.get p := by
  unfold searchPtr at hs
  rw [hg] at hs
  simp only [Option.bind_some] at hs
  cases n with
  | zero => cases hs
  | succ n =>
    obtain ⟨o1, o2, o3, o4, o5, o6, fps, rfl, o7⟩ := owns_iff.mp ho
    rw [searchH] at hs
    rw [List.mem_cons, not_or] at hR
    rw [List.nodup_cons] at hnd
    obtain ⟨h', r', ts, f, g, b1, b2, b3, b4, b5, b6⟩ := run_values A t.children (fun k hk => (runs A k (hpk k hk).2).1) (st := st) ⟨hg, owns_sliceOk ho, o5, hR.1⟩ o7 hnd.2 hR.2 hnd.1 (fun k hk => (hpk k hk).1) hs
    have hlt := ownsAll_lt _ (fun k _ => owns_lt k) o7
    have hroot : hoistRoot P t st = (.mk t.name t.attrs t.scope t.content ((hoistAll P t.children st).1 ++ (hoistAll P t.children st).2.1), (hoistAll P t.children st).2.2) := by
      cases t; rfl
    refine ⟨h', r', r'.kids.arr :: (f ++ g), by rw [b1, hroot], b2.root.get, ?_, ?_, ?_, b2.mono, ?_, ?_⟩
    · rw [hroot]
      have hl1 := ownsAll_length _ b4
      have hl2 := ownsAll_length _ b5
      have hl3 := cells_length b2.root.ok
      rw [b2.cells, List.length_append] at hl3
      have he := b2.eq
      refine owns_iff.mpr ⟨by rw [he]; exact o1, by rw [he]; exact o2, by rw [he]; exact o3, by rw [he]; exact o4, b2.root.lt, ?_, f ++ g, rfl, ?_⟩
      · show r'.kids.len = ((hoistAll P t.children st).1 ++ (hoistAll P t.children st).2.1).length
        rw [List.length_append, hl1, hl2]
        have hl4 := cells_length (owns_sliceOk ho)
        omega
      · rw [b2.cells]
        exact ownsAll_append _ b4 b5
    · rw [List.nodup_cons, b6.mem_iff]
      refine ⟨root_notin A b2 hlt hnd.1, b6.nodup_iff.mpr hnd.2⟩
    · rw [List.mem_cons, not_or, b6.mem_iff]
      exact ⟨b2.root.ne, hR.2⟩
    · intro a ha
      rcases List.mem_cons.mp ha with rfl | ha
      · rcases b2.arr with h3 | h3
        · exact Or.inl (by rw [h3]; simp)
        · exact Or.inr h3
      · exact Or.inl (by rw [List.mem_cons]; exact Or.inr (b6.mem_iff.mp ha))
    · intro p p1 p2 p3
      rw [List.mem_cons, not_or] at p2
      exact b3 p p1 p2.2 p3 p2.1 (by simp)

end

/-! ### nameAnonymousTypes -/

theorem nameTypes_append (grow : Nat → Nat → Nat) (R : Ptr) (tns : Str) (ps qs : List Ptr) : ∀ st : EHeap × Nat,
    nameTypes grow R tns (ps ++ qs) st = (nameTypes grow R tns ps st).bind (nameTypes grow R tns qs) := by
  induction ps with
  | nil => intro st; rfl
  | cons p ps ih =>
    rintro ⟨h, k⟩
    rw [List.cons_append, nameTypes, nameTypes]
    split
    · rfl
    · split
      · exact ih _
      · split
        · rfl
        · exact ih _

/-- From an index after which there is no anonymous type nothing happens. -/
theorem nameLoop_rest (grow : Nat → Nat → Nat) (R q : Ptr) (tns attr : Str) (accum : Bool) {h : EHeap} {k : Nat} {e : HElem} (hq : h.get q = some e) (n : Nat) :
    ∀ i, (∀ j t, i ≤ j → (h.cells e.kids)[j]? = some t → isAnonymousType t = false) → nameLoop grow R q tns attr accum n i (h, k) = (h, k) := by
  induction n with
  | zero => intro i _; rfl
  | succ n ih =>
    intro i hi
    rw [nameLoop]
    split
    · rfl
    · rename_i e' he'
      rw [hq] at he'
      cases he'
      split
      · rfl
      · rename_i t ht
        rw [hi i t (Nat.le_refl _) ht]
        exact ih (i + 1) fun j t' hj => hi j t' (by omega)

/-- The loop up to the first anonymous type. -/
theorem nameLoop_first (grow : Nat → Nat → Nat) (R q : Ptr) (tns attr : Str) (accum : Bool) {h : EHeap} {k : Nat} {e t : HElem} {i : Nat} (hq : h.get q = some e)
    (ht : (h.cells e.kids)[i]? = some t) (hta : isAnonymousType t = true) (hno : ∀ j t, j < i → (h.cells e.kids)[j]? = some t → isAnonymousType t = false)
    {h' : EHeap} (hh : moveToRoot grow h R q e attr
      (if accum then e.attr [] attr ++ b!" " ++ prefixOf e.scope (anonTypeName (k + 1) tns) else prefixOf e.scope (anonTypeName (k + 1) tns)) i
      ((t.setAttr [] b!"name" (anonTypeName (k + 1) tns).loc).setAttr [] b!"_isAnonymous" b!"true") = h') (d : Nat) :
    ∀ (j n : Nat), i = j + d → n > d → ∃ m, nameLoop grow R q tns attr accum n j (h, k) =
      if accum then nameLoop grow R q tns attr accum m (i + 1) (h', k + 1) else (h', k + 1) := by
  induction d with
  | zero =>
    intro j n hj hn
    obtain ⟨m, rfl⟩ : ∃ m, n = m + 1 := ⟨n - 1, by omega⟩
    have : j = i := by omega
    subst this
    refine ⟨m, ?_⟩
    rw [nameLoop, hq]
    dsimp only
    rw [ht]
    dsimp only
    rw [hta, if_pos rfl, hh]
  | succ d ih =>
    intro j n hj hn
    obtain ⟨m, rfl⟩ : ∃ m, n = m + 1 := ⟨n - 1, by omega⟩
    obtain ⟨m', hm'⟩ := ih (j + 1) m (by omega) (by omega)
    refine ⟨m', ?_⟩
    rw [nameLoop, hq]
    dsimp only
    have hlt : j < (h.cells e.kids).length := by
      have := (List.getElem?_eq_some_iff.mp ht).1
      omega
    rw [List.getElem?_eq_getElem hlt]
    dsimp only
    rw [hno j _ (by omega) (List.getElem?_eq_getElem hlt)]
    exact hm'

/-- The kinds of elements that may have an anonymous type. -/
def mayHaveType (t : Element) : Prop :=
  t.name.space = schemaNS → t.name.loc ∈ [b!"element", b!"attribute", b!"list", b!"restriction", b!"union"]

theorem typeAttr_of {loc : Str} (hl : loc ∈ [b!"element", b!"attribute", b!"list", b!"restriction", b!"union"]) :
    typeAttr loc = some (referrer loc, decide (loc = b!"union")) := by
  simp only [List.mem_cons, List.mem_nil_iff, or_false] at hl
  rcases hl with rfl | rfl | rfl | rfl | rfl <;> decide

theorem one_anon {cs : List HElem} {i : Nat} (h1 : cs.findIdx? isAnonymousType = some i) (h2 : (cs.filter isAnonymousType).length = 1) :
    ∀ (j : Nat) (t : HElem), (cs.eraseIdx i)[j]? = some t → isAnonymousType t = false := by
  obtain ⟨hi, ht, hno⟩ := List.findIdx?_eq_some_iff_getElem.mp h1
  intro j t hj
  have hm := List.mem_of_getElem? hj
  rw [List.eraseIdx_eq_take_drop_succ] at hm
  have hsplit : cs = cs.take i ++ cs[i] :: cs.drop (i + 1) := by simp
  rw [hsplit, List.filter_append, List.filter_cons, if_pos ht] at h2
  simp only [List.length_append, List.length_cons] at h2
  rcases List.mem_append.mp hm with hm | hm
  · have : ((cs.take i).filter isAnonymousType).length = 0 := by omega
    rw [List.length_eq_zero_iff, List.filter_eq_nil_iff] at this
    simpa using this t hm
  · have : ((cs.drop (i + 1)).filter isAnonymousType).length = 0 := by omega
    rw [List.length_eq_zero_iff, List.filter_eq_nil_iff] at this
    simpa using this t hm

def namePass (grow : Nat → Nat → Nat) (R : Ptr) (tns : Str) : Pass (numbered tns) grow R mayHaveType where
  cand_tag := fun _ => rfl
  move_tag := fun st t => by cases t; rfl
  run := nameTypes grow R tns
  run_nil := fun _ => rfl
  run_append := nameTypes_append grow R tns
  run_one := by
    intro h k q r e i t w hq hok hlt hqR hqA hqr hRA hrA hkind hfind hget hone
    obtain ⟨hi, hti, hno⟩ := List.findIdx?_eq_some_iff_getElem.mp hfind
    have hlen := cells_length hok
    have hta : isAnonymousType t = true := by
      rw [List.getElem?_eq_getElem hi] at hget
      cases hget
      exact hti
    have hno' : ∀ j t, j < i → (h.cells e.kids)[j]? = some t → isAnonymousType t = false := by
      intro j t' hj hj'
      obtain ⟨h1, h2⟩ := List.getElem?_eq_some_iff.mp hj'
      have := hno j hj
      rw [h2] at this
      simpa using this
    rw [nameTypes, hq]
    dsimp only
    have hn : e.tag.name = e.name := rfl
    unfold numbered
    dsimp only
    rw [hn]
    by_cases hsp : e.name.space = schemaNS
    · rw [if_neg (by simp [hsp]), if_pos hsp, typeAttr_of (show e.name.loc ∈ _ from hkind hsp)]
      dsimp only
      generalize hacc : decide (e.name.loc = b!"union") = accum
      generalize hh' : moveToRoot grow h R q e (referrer e.name.loc)
        (if accum then e.attr [] (referrer e.name.loc) ++ b!" " ++ prefixOf e.scope (anonTypeName (k + 1) tns) else prefixOf e.scope (anonTypeName (k + 1) tns)) i
        ((t.setAttr [] b!"name" (anonTypeName (k + 1) tns).loc).setAttr [] b!"_isAnonymous" b!"true") = h'
      obtain ⟨m, hm⟩ := nameLoop_first grow R q tns (referrer e.name.loc) accum hq hget hta hno' hh' i 0 e.kids.len (by omega) (by omega)
      rw [hm]
      have hval : (if accum then e.attr [] (referrer e.name.loc) ++ b!" " ++ prefixOf e.scope (anonTypeName (k + 1) tns) else prefixOf e.scope (anonTypeName (k + 1) tns)) =
          (if e.name.loc = b!"union" then e.tag.attr [] b!"memberTypes" ++ b!" " else []) ++ prefixOf e.tag.scope ⟨tns, b!"_anon" ++ natStr (k + 1)⟩ := by
        subst hacc
        by_cases hu : e.name.loc = b!"union"
        · rw [decide_eq_true hu, if_pos rfl, if_pos hu, hu]
          rfl
        · rw [decide_eq_false hu, if_neg (by simp), if_neg hu]
          rfl
      rw [hval] at hh'
      have hfin : nameTypes grow R tns [] (h', k + 1) = some (moveToRoot grow h R q e (referrer e.name.loc)
          ((if e.name.loc = b!"union" then e.tag.attr [] b!"memberTypes" ++ b!" " else []) ++ prefixOf e.tag.scope ⟨tns, b!"_anon" ++ natStr (k + 1)⟩) i
          { t with attrs := attrSet [] b!"_isAnonymous" b!"true" (attrSet [] b!"name" (b!"_anon" ++ natStr (k + 1)) t.attrs) }, k + 1) := by
        rw [nameTypes, ← hh']
        rfl
      cases accum with
      | false => exact hfin
      | true =>
        rw [if_pos rfl]
        obtain ⟨r', m1, m2, m3, m4⟩ := moveToRoot_spec grow w hq hok hlt hqR hqA hqr hRA hrA _ _ (by omega) _ hh'
        rw [nameLoop_rest grow R q tns _ _ m2 m (i + 1) ?_]
        · exact hfin
        · intro j t' _ hj
          rw [m3] at hj
          exact one_anon hfind hone j t' hj
    · rw [if_pos hsp, if_neg hsp]
      rfl

/-! ### copyEltNamesToAnonTypes -/

def copyPass (grow : Nat → Nat → Nat) (R : Ptr) (tns : Str) : Pass (byElement tns) grow R (fun _ => True) where
  cand_tag := fun t => by cases t; rfl
  move_tag := fun st t => by cases t; rfl
  run := fun ps st => some (ps.foldl (copyNameAt grow R tns) st)
  run_nil := fun _ => rfl
  run_append := fun ps qs st => by rw [List.foldl_append]; rfl
  run_one := by
    intro h used q r e i t w hq hok hlt hqR hqA hqr hRA hrA _ hfind hget hone
    simp only [List.foldl_cons, List.foldl_nil, Option.some.injEq]
    unfold copyNameAt byElement
    dsimp only
    rw [hq]
    dsimp only
    show (if resolveDefault e.scope (e.attr [] b!"name") tns ∈ used then _ else _) = _
    rw [show e.tag.scope = e.scope from rfl, show e.tag.attr [] b!"name" = e.attr [] b!"name" from rfl]
    by_cases hu : resolveDefault e.scope (e.attr [] b!"name") tns ∈ used
    · rw [if_pos hu, if_pos hu]
    · rw [if_neg hu, if_neg hu, hfind]
      dsimp only
      rw [hget]
      rfl

/-! ### Documents -/

theorem owns_append {h : EHeap} (xs : EHeap) {t : Element} {e : HElem} {fp : List Nat} (ho : Owns h t e fp) : Owns (h ++ xs) t e fp :=
  owns_stable (by simp) t ho fun a ha i => get_append_left _ _ (owns_lt t ho a ha)

theorem loadAll_mono (grow : Nat → Nat → Nat) (ks : List Element) : ∀ h : EHeap, ∃ xs, (loadAll grow ks h).1 = h ++ xs := by
  induction ks with
  | nil => intro h; exact ⟨[], by simp [loadAll]⟩
  | cons k ks ih =>
    intro h
    obtain ⟨xs, h1⟩ := load_mono grow k h
    obtain ⟨ys, h2⟩ := ih (load grow k h).1
    exact ⟨xs ++ ys, by rw [loadAll]; dsimp only; rw [h2, h1, List.append_assoc]⟩

theorem loadAll_owns (grow : Nat → Nat → Nat) (ks : List Element)
    (ih : ∀ k ∈ ks, ∀ h : EHeap, ∃ fp, Owns (load grow k h).1 k (load grow k h).2 fp ∧ fp.Nodup ∧ ∀ a ∈ fp, h.length ≤ a) :
    ∀ h : EHeap, ∃ fp, OwnsAll (loadAll grow ks h).1 ks (loadAll grow ks h).2 fp ∧ fp.Nodup ∧ ∀ a ∈ fp, h.length ≤ a := by
  induction ks with
  | nil => intro h; exact ⟨[], by simp [loadAll, OwnsAll], by simp, by simp⟩
  | cons k ks ih2 =>
    intro h
    obtain ⟨f, f1, f2, f3⟩ := ih k (by simp) h
    obtain ⟨g, g1, g2, g3⟩ := ih2 (fun k' hk' => ih k' (by simp [hk'])) (load grow k h).1
    rw [loadAll]
    dsimp only
    have hmono := loadAll_mono grow ks (load grow k h).1
    obtain ⟨xs, hxs⟩ := hmono
    have hlt := owns_lt k f1
    obtain ⟨zs, hzs⟩ := load_mono grow k h
    refine ⟨f ++ g, ⟨f, g, rfl, by rw [hxs]; exact owns_append xs f1, g1⟩, ?_, ?_⟩
    · refine List.nodup_append.mpr ⟨f2, g2, ?_⟩
      intro a ha b hb hab
      have := hlt a ha
      have := g3 b hb
      omega
    · intro a ha
      rcases List.mem_append.mp ha with ha | ha
      · exact f3 a ha
      · have := g3 a ha
        rw [hzs, List.length_append] at this
        omega

theorem load_owns (grow : Nat → Nat → Nat) (t : Element) : ∀ h : EHeap,
    ∃ fp, Owns (load grow t h).1 t (load grow t h).2 fp ∧ fp.Nodup ∧ ∀ a ∈ fp, h.length ≤ a := by
  induction t using Element.ind with
  | hP n a s c ks ih =>
    intro h
    obtain ⟨fp, h1, h2, h3⟩ := loadAll_owns grow ks ih h
    have hlt := ownsAll_lt _ (fun k _ => owns_lt k) h1
    have hl := ownsAll_length _ h1
    have hm : h.length ≤ (loadAll grow ks h).1.length := by
      obtain ⟨xs, hx⟩ := loadAll_mono grow ks h
      rw [hx]; simp
    rw [load]
    dsimp only
    refine ⟨(loadAll grow ks h).1.length :: fp, owns_iff.mpr ⟨rfl, rfl, rfl, rfl, by simp, rfl, fp, rfl, ?_⟩, ?_, ?_⟩
    · have hcell : EHeap.cells ((loadAll grow ks h).1 ++ [padded (capAfter grow ks.length) (loadAll grow ks h).2]) ⟨(loadAll grow ks h).1.length, ks.length⟩ =
          (loadAll grow ks h).2 := by
        unfold EHeap.cells
        simp only [List.getElem?_concat_length, Option.getD_some]
        rw [hl]; exact padded_take _ _
      dsimp only
      rw [hcell]
      exact owns_all_stable (by simp) h1 fun a ha i => get_append_left _ _ (hlt a ha)
    · rw [List.nodup_cons]
      exact ⟨fun hm => Nat.lt_irrefl _ (hlt _ hm), h2⟩
    · intro b hb
      rcases List.mem_cons.mp hb with rfl | hb
      · exact hm
      · exact h3 b hb

/-- In a document that has been parsed every element has its own array. -/
theorem loadDoc_apart (grow : Nat → Nat → Nat) (t : Element) (h : EHeap) : HoldsApart (loadDoc grow t h).1 (loadDoc grow t h).2 t := by
  obtain ⟨fp, h1, h2, h3⟩ := load_owns grow t h
  unfold loadDoc
  dsimp only
  refine ⟨_, fp, by rw [get_new]; rfl, owns_append _ h1, h2, ?_⟩
  intro hm
  exact Nat.lt_irrefl _ (owns_lt t h1 _ hm)

theorem owns_reads {h : EHeap} (t : Element) : ∀ {e : HElem} {fp : List Nat}, Owns h t e fp → Reads h t e := by
  induction t using Element.ind with
  | hP n a s c ks ih =>
    intro e fp ho
    obtain ⟨h1, h2, h3, h4, h5, h6, fps, h8, h7⟩ := owns_iff.mp ho
    refine reads_iff.mpr ⟨h1, h2, h3, h4, ?_⟩
    simp only [Element.children] at h7 ⊢
    generalize h.cells e.kids = cs at h7
    clear h1 h2 h3 h4 h5 h6 h8 ho
    induction ks generalizing cs fps with
    | nil => cases cs with
      | nil => exact .nil
      | cons => simp [OwnsAll] at h7
    | cons k ks ih2 => cases cs with
      | nil => simp [OwnsAll] at h7
      | cons c cs =>
        obtain ⟨f, g, _, o1, o2⟩ := h7
        exact .cons (ih k (by simp) o1) (ih2 (fun k' hk' => ih k' (by simp [hk'])) g cs o2)

theorem holdsApart_holds {h : EHeap} {p : Ptr} {t : Element} (ha : HoldsApart h p t) : Holds h p t := by
  obtain ⟨e, fp, h1, h2, _, _⟩ := ha
  exact ⟨e, h1, owns_reads t h2⟩

end GoXml.Xsd
