import Verif.Proofs.XsdHeap
import Verif.Props.Graph
import Verif.Props.XsdDeref
set_option autoImplicit false

/-! `flattenRef` in memory. -/

namespace GoXml.Xsd

/-! ### The dependencies -/

theorem refEdges_some {h : EHeap} {ix : Index} (ps : List Ptr) : ∀ {id : Nat} {es : List (Int × Int)},
    refEdges h ix id ps = some es → ∀ a b, (a, b) ∈ es ↔ ∃ (k : Nat) (p : Ptr) (key : XName × XName) (dep : Nat),
      ps[k]? = some p ∧ (h.get p).bind refKey = some key ∧ ix.idByName.get key = some dep ∧ a = ((id + k : Nat) : Int) ∧
        b = (dep : Int) := by
  induction ps with
  | nil => intro id es h1 a b; simp only [refEdges, Option.some.injEq] at h1; subst h1; simp
  | cons p ps ih =>
    intro id es h1 a b
    rw [refEdges] at h1
    cases hk : (h.get p).bind refKey with
    | none =>
      rw [hk] at h1
      rw [ih h1 a b]
      constructor
      · rintro ⟨k, p', key, dep, e1, e2, e3, e4, e5⟩
        exact ⟨k + 1, p', key, dep, by simpa using e1, e2, e3, by rw [e4]; push_cast; omega, e5⟩
      · rintro ⟨k, p', key, dep, e1, e2, e3, e4, e5⟩
        cases k with
        | zero =>
          simp only [List.getElem?_cons_zero, Option.some.injEq] at e1
          subst e1; rw [hk] at e2; cases e2
        | succ k => exact ⟨k, p', key, dep, by simpa using e1, e2, e3, by rw [e4]; push_cast; omega, e5⟩
    | some key =>
      rw [hk] at h1
      dsimp only at h1
      cases hd : ix.idByName.get key with
      | none => rw [hd] at h1; cases h1
      | some dep =>
        cases hr : refEdges h ix (id + 1) ps with
        | none => rw [hd, hr] at h1; cases h1
        | some es' =>
          rw [hd, hr] at h1
          dsimp only at h1
          cases h1
          rw [List.mem_cons, ih hr a b]
          constructor
          · rintro (e | ⟨k, p', key, dep, e1, e2, e3, e4, e5⟩)
            · cases e
              exact ⟨0, p, key, dep, rfl, hk, hd, by simp, rfl⟩
            · exact ⟨k + 1, p', key, dep, by simpa using e1, e2, e3, by rw [e4]; push_cast; omega, e5⟩
          · rintro ⟨k, p', key', dep', e1, e2, e3, e4, e5⟩
            cases k with
            | zero =>
              simp only [List.getElem?_cons_zero, Option.some.injEq] at e1
              subst e1; rw [hk] at e2; cases e2
              rw [hd] at e3; cases e3
              left; rw [e4, e5]; simp
            | succ k => exact Or.inr ⟨k, p', key', dep', by simpa using e1, e2, e3, by rw [e4]; push_cast; omega, e5⟩

theorem refEdges_none {h : EHeap} {ix : Index} (ps : List Ptr) : ∀ {id : Nat},
    refEdges h ix id ps = none ↔ ∃ p ∈ ps, ∃ key, (h.get p).bind refKey = some key ∧ ix.idByName.get key = none := by
  induction ps with
  | nil => intro id; simp [refEdges]
  | cons p ps ih =>
    intro id
    rw [refEdges]
    cases hk : (h.get p).bind refKey with
    | none =>
      dsimp only
      rw [ih]
      constructor
      · rintro ⟨p', h1, h2⟩; exact ⟨p', by simp [h1], h2⟩
      · rintro ⟨p', h1, key, h2, h3⟩
        rcases List.mem_cons.mp h1 with rfl | h1
        · rw [hk] at h2; cases h2
        · exact ⟨p', h1, key, h2, h3⟩
    | some key =>
      dsimp only
      cases hd : ix.idByName.get key with
      | none =>
        simp only [true_iff]
        exact ⟨p, by simp, key, hk, hd⟩
      | some dep =>
        have hcons : (∃ p' ∈ p :: ps, ∃ key, (h.get p').bind refKey = some key ∧ ix.idByName.get key = none) ↔
            ∃ p' ∈ ps, ∃ key, (h.get p').bind refKey = some key ∧ ix.idByName.get key = none := by
          constructor
          · rintro ⟨p', h1, key', h2, h3⟩
            rcases List.mem_cons.mp h1 with rfl | h1
            · rw [hk] at h2; cases h2; rw [hd] at h3; cases h3
            · exact ⟨p', h1, key', h2, h3⟩
          · rintro ⟨p', h1, h2⟩; exact ⟨p', by simp [h1], h2⟩
        rw [hcons, ← ih (id := id + 1)]
        cases refEdges h ix (id + 1) ps <;> simp

theorem refKey_none {e : HElem} : refKey e = none ↔ ¬ HasRef e := by
  unfold refKey HasRef
  split <;> simp_all

theorem refKey_some {e : HElem} {key : XName × XName} : refKey e = some key ↔
    HasRef e ∧ key = (resolve e.scope (e.attr [] b!"ref"), e.name) := by
  unfold refKey HasRef
  split
  · simp_all
  · rename_i h; simp [h, eq_comm]

/-! ### What is known before the first replacement -/

/-- The elements below the roots, with numbers. -/
structure Scene (h0 : EHeap) (roots : List Ptr) (ix : Index) (es : List (Int × Int)) : Prop where
  ids : ∀ p, p ∈ ix.eltByID ↔ (∃ root ∈ roots, Below h0 root p) ∧ (h0.get p).isSome
  target : ∀ (k : Nat) (p : Ptr) (e : HElem), ix.eltByID[k]? = some p → h0.get p = some e → HasRef e →
    ∃ key dep q, refKey e = some key ∧ ix.idByName.get key = some dep ∧ ix.eltByID[dep]? = some q ∧ RefersTo h0 roots p q ∧
      ((k : Int), (dep : Int)) ∈ es
  vertex : ∀ id, Dep.IsVertex es id → ∃ (k : Nat) (p : Ptr), id = (k : Int) ∧ ix.eltByID[k]? = some p
  acyclic : AcyclicRefs h0 roots → ∀ v, ¬ Dep.Reach es v v

theorem declares_of_key {h : EHeap} {roots : List Ptr} {p root : Ptr} {r : HElem} {key : XName × XName}
    (hroot : root ∈ roots) (hr : h.get root = some r) (hb : Below h root p)
    (hk : keyOf h (p, r.attr [] b!"targetNamespace") = some key) : Declares h roots p key.1 key.2 := by
  unfold keyOf at hk
  cases hg : h.get p with
  | none => rw [hg] at hk; cases hk
  | some e =>
    rw [hg] at hk
    dsimp only [Option.bind_some] at hk
    split at hk
    · rename_i hn
      cases hk
      exact ⟨root, hroot, r, e, hr, hb, hg, rfl, hn, rfl⟩
    · cases hk

theorem key_of_declares {h : EHeap} {roots : List Ptr} {q : Ptr} {name kind : XName} (hd : Declares h roots q name kind) :
    ∃ root ∈ roots, ∃ r, h.get root = some r ∧ Below h root q ∧ (h.get q).isSome ∧
      keyOf h (q, r.attr [] b!"targetNamespace") = some (name, kind) := by
  obtain ⟨root, h1, r, e, h2, h3, h4, h5, h6, h7⟩ := hd
  refine ⟨root, h1, r, h2, h3, by rw [h4]; rfl, ?_⟩
  unfold keyOf
  rw [h4]
  dsimp only [Option.bind_some]
  rw [if_pos h6, h5, h7]

theorem scene {h0 : EHeap} {n : Nat} {roots : List Ptr} {ix : Index} {es : List (Int × Int)}
    (hx : indexSchemas h0 n roots {} = some ix) (he : refEdges h0 ix 0 ix.eltByID = some es) : Scene h0 roots ix es := by
  obtain ⟨L, hL, hM⟩ := indexed_schemas roots (indexed_nil h0) hx
  rw [List.nil_append] at hL
  have hids : ∀ p, p ∈ ix.eltByID ↔ (∃ root ∈ roots, Below h0 root p) ∧ (h0.get p).isSome := by
    intro p
    rw [hL.ids, List.mem_map]
    constructor
    · rintro ⟨⟨p', tns⟩, h1, rfl⟩
      obtain ⟨root, h2, r, h3, h4, h5, h6⟩ := (hM p' tns).mp h1
      exact ⟨⟨root, h2, h5⟩, h6⟩
    · rintro ⟨⟨root, h2, h5⟩, h6⟩
      obtain ⟨r, h3, _⟩ := below_iff.mp h5
      exact ⟨(p, r.attr [] b!"targetNamespace"), (hM p _).mpr ⟨root, h2, r, h3, rfl, h5, h6⟩, rfl⟩
  have htarget : ∀ (k : Nat) (p : Ptr) (e : HElem) (key : XName × XName) (dep : Nat), ix.eltByID[k]? = some p → h0.get p = some e →
      refKey e = some key → ix.idByName.get key = some dep → ∃ q, ix.eltByID[dep]? = some q ∧ RefersTo h0 roots p q := by
    intro k p e key dep hk hg hkey hdep
    obtain ⟨⟨q, tns⟩, h1, h2⟩ := hL.sound key dep hdep
    have hq : ix.eltByID[dep]? = some q := by rw [hL.ids, List.getElem?_map, h1]; rfl
    obtain ⟨root, h3, r, h4, h5, h6, h7⟩ := (hM q tns).mp (List.mem_of_getElem? h1)
    subst h5
    have hdecl := declares_of_key h3 h4 h6 h2
    obtain ⟨h8, h9⟩ := refKey_some.mp hkey
    rw [h9] at hdecl
    obtain ⟨h10, _⟩ := (hids p).mp (List.mem_of_getElem? hk)
    exact ⟨q, hq, e, _, ⟨h10, hg, h8, rfl⟩, hdecl⟩
  refine ⟨hids, ?_, ?_, ?_⟩
  · intro k p e hk hg hr
    obtain ⟨key, hkey⟩ : ∃ key, refKey e = some key := by
      cases hh : refKey e with
      | none => exact absurd hr (refKey_none.mp hh)
      | some key => exact ⟨key, rfl⟩
    cases hdep : ix.idByName.get key with
    | none =>
      have : refEdges h0 ix 0 ix.eltByID = none :=
        (refEdges_none _).mpr ⟨p, List.mem_of_getElem? hk, key, by rw [hg]; exact hkey, hdep⟩
      rw [this] at he; cases he
    | some dep =>
      obtain ⟨q, h1, h2⟩ := htarget k p e key dep hk hg hkey hdep
      exact ⟨key, dep, q, hkey, hdep, h1, h2,
        (refEdges_some _ he _ _).mpr ⟨k, p, key, dep, hk, by rw [hg]; exact hkey, hdep, by simp, rfl⟩⟩
  · rintro id ⟨⟨a, b⟩, hm, hid⟩
    obtain ⟨k, p, key, dep, h1, h2, h3, h4, h5⟩ := (refEdges_some _ he a b).mp hm
    rcases hid with rfl | rfl
    · exact ⟨k, p, by simpa using h4, h1⟩
    · obtain ⟨⟨q, tns⟩, h6, _⟩ := hL.sound key dep h3
      exact ⟨dep, q, h5, by rw [hL.ids, List.getElem?_map, h6]; rfl⟩
  · intro hac
    have hreach : ∀ a b, Dep.Reach es a b → ∃ (j k : Nat) (p q : Ptr), a = (j : Int) ∧ b = (k : Int) ∧ ix.eltByID[j]? = some p ∧
        ix.eltByID[k]? = some q ∧ Relation.TransGen (RefersTo h0 roots) p q := by
      have hedge : ∀ a b, (a, b) ∈ es → ∃ (j k : Nat) (p q : Ptr), a = (j : Int) ∧ b = (k : Int) ∧ ix.eltByID[j]? = some p ∧
          ix.eltByID[k]? = some q ∧ RefersTo h0 roots p q := by
        intro a b hm
        obtain ⟨k, p, key, dep, h1, h2, h3, h4, h5⟩ := (refEdges_some _ he a b).mp hm
        cases hg : h0.get p with
        | none => rw [hg] at h2; cases h2
        | some e =>
          rw [hg] at h2
          obtain ⟨q, h6, h7⟩ := htarget k p e key dep h1 hg h2 h3
          exact ⟨k, dep, p, q, by simpa using h4, h5, h1, h6, h7⟩
      intro a b hr
      induction hr with
      | edge hm =>
        obtain ⟨j, k, p, q, h1, h2, h3, h4, h5⟩ := hedge _ _ hm
        exact ⟨j, k, p, q, h1, h2, h3, h4, .single h5⟩
      | step _ hm ih =>
        obtain ⟨j, k, p, q, h1, h2, h3, h4, h5⟩ := ih
        obtain ⟨j', k', p', q', g1, g2, g3, g4, g5⟩ := hedge _ _ hm
        have : k = j' := by rw [h2] at g1; exact_mod_cast g1
        subst this
        rw [h4] at g3; cases g3
        exact ⟨j, k', p, q', h1, g2, h3, g4, h5.tail g5⟩
    intro v hv
    obtain ⟨j, k, p, q, h1, h2, h3, h4, h5⟩ := hreach v v hv
    have : j = k := by rw [h1] at h2; exact_mod_cast h2
    subst this
    rw [h3] at h4; cases h4
    exact hac p h5

/-! ### Replacing -/

/-- Children of the element are among the elements below the roots, or in new arrays. -/
def KidsOk (h0 : EHeap) (ids : List Ptr) (e : HElem) : Prop :=
  ∀ c, KidOf e c → c.arr < h0.length → (h0.get c).isSome → c ∈ ids

/-- The element `e`, which was `e0`, has been replaced with what the one at `q` is. -/
def Replaced (h : EHeap) (e0 e : HElem) (q : Ptr) : Prop :=
  ∃ real, h.get q = some real ∧ ¬ HasRef real ∧ (∀ c ∈ h.cells real.kids, ¬ HasRef c) ∧ e.name = real.name ∧
    e.attrs = derefAttrs e0.scope real.scope e0.attrs real.attrs ∧
    e.scope = (if (h.cells real.kids).length > 0 then joinScope real.scope e0.scope else e0.scope) ∧ e.content = real.content ∧
    h.cells e.kids = h.cells real.kids

structure DerefInv (h0 : EHeap) (roots : List Ptr) (ix : Index) (done : Int → Prop) (h : EHeap) : Prop where
  len : h0.length ≤ h.length
  slices : SlicesOk h
  dom : ∀ p : Ptr, p.arr < h0.length → (h.get p).isSome = (h0.get p).isSome
  old : ∀ p ∈ ix.eltByID, ∀ e0, h0.get p = some e0 → h.get p = some e0 ∨
    (HasRef e0 ∧ ∃ e q, h.get p = some e ∧ ¬ HasRef e ∧ h0.length ≤ e.kids.arr ∧ RefersTo h0 roots p q ∧ Replaced h e0 e q)
  other : ∀ p ∉ ix.eltByID, p.arr < h0.length → h.get p = h0.get p
  new : ∀ p : Ptr, h0.length ≤ p.arr → ∀ e, h.get p = some e → ¬ HasRef e ∧ KidsOk h0 ix.eltByID e
  done : ∀ (k : Nat) (p : Ptr), done (k : Int) → ix.eltByID[k]? = some p → ∃ e, h.get p = some e ∧ ¬ HasRef e

theorem hasRef_deref {ref real : HElem} (hp : ∀ a ∈ ref.attrs, a.name.loc = b!"ref" → a.name.space = []) (hr : ¬ HasRef real) (h : EHeap) :
    ¬ HasRef (derefH h ref real).2 := by
  unfold HasRef at *
  unfold HElem.attr at *
  unfold derefH derefAttrs
  dsimp only
  rw [overrideAttrs_other, attrGet_derefAttr]
  · exact hr
  · left; decide
  · intro r hr hn hl
    apply hn
    have := hp r hr hl
    cases hh : r.name with
    | mk s l => rw [hh] at this hl; simp only at this hl; rw [this, hl]

/-- A replacement changes nothing but the reference. -/
theorem put_stable {h : EHeap} {p : Ptr} {el : HElem} (hel : h.get p = some el) (xs : EHeap) (e : HElem) {c : Ptr} {d : HElem}
    (hc : h.get c = some d) (hne : c ≠ p) : (EHeap.put (h ++ xs) p e).get c = some d := by
  rw [get_put_ne e (Ne.symm hne), get_append_of_some xs hc]

theorem cells_stable {h h' : EHeap} {s : HSlice} (hd : ∀ i, i < s.len → h'.get ⟨s.arr, i⟩ = h.get ⟨s.arr, i⟩) :
    h'.cells s = h.cells s := by
  apply List.ext_getElem?
  intro i
  rw [cells_get, cells_get]
  split
  · exact hd i (by assumption)
  · rfl

theorem get_some_of_len {h : EHeap} {s : HSlice} (hs : s.len ≤ ((h[s.arr]?).getD []).length) {i : Nat} (hi : i < s.len) :
    ∃ e, h.get ⟨s.arr, i⟩ = some e := by
  unfold EHeap.get
  cases ha : h[s.arr]? with
  | none => rw [ha] at hs; simp at hs; omega
  | some a =>
    rw [ha] at hs
    simp only [Option.getD_some] at hs
    have : i < a.length := by omega
    exact ⟨a[i], by simp [this]⟩

theorem cells_length {h : EHeap} {s : HSlice} (hs : s.len ≤ ((h[s.arr]?).getD []).length) : (h.cells s).length = s.len := by
  unfold EHeap.cells
  simp [hs]

theorem arr_put_length (h : EHeap) (p : Ptr) (e : HElem) (a : Nat) :
    (((h.put p e)[a]?).getD []).length = ((h[a]?).getD []).length := by
  unfold EHeap.put
  rw [List.getElem?_modify]
  cases h[a]? with
  | none => simp
  | some x => by_cases hp : p.arr = a <;> simp [hp]

theorem arr_append_length (h xs : EHeap) (a : Nat) : ((h[a]?).getD []).length ≤ (((h ++ xs)[a]?).getD []).length := by
  by_cases ha : a < h.length
  · rw [List.getElem?_append_left ha]; exact Nat.le_refl _
  · rw [List.getElem?_eq_none (by omega)]; simp

theorem slicesOk_step {h : EHeap} (hs : SlicesOk h) (p : Ptr) (new : List HElem) (hnew : ∀ e ∈ new, ∃ q, h.get q = some e) (e : HElem)
    (he : e.kids = ⟨h.length, new.length⟩) : SlicesOk (EHeap.put (h ++ [new]) p e) := by
  have hbig : ∀ q d, h.get q = some d → d.kids.len ≤ (((EHeap.put (h ++ [new]) p e)[d.kids.arr]?).getD []).length := by
    intro q d hd
    rw [arr_put_length]
    exact Nat.le_trans (hs q d hd) (arr_append_length _ _ _)
  intro q d hd
  by_cases hqp : p = q
  · subst hqp
    have hex : ∃ e0, EHeap.get (h ++ [new]) p = some e0 := by
      have := get_put_isSome (h := h ++ [new]) (p := p) (q := p) e
      rw [hd] at this
      exact Option.isSome_iff_exists.mp this.symm
    obtain ⟨e0, he0⟩ := hex
    rw [get_put_self e he0] at hd
    cases hd
    rw [arr_put_length, he]
    simp
  · rw [get_put_ne e hqp] at hd
    by_cases hlt : q.arr < h.length
    · rw [get_append_left _ _ hlt] at hd
      exact hbig q d hd
    · have hq : q.arr = h.length := by
        have := get_lt hd
        simp at this; omega
      have : EHeap.get (h ++ [new]) q = new[q.idx]? := by
        have := get_new h new q.idx
        rw [← hq] at this; exact this
      rw [this] at hd
      obtain ⟨q', hq'⟩ := hnew d (List.mem_of_getElem? hd)
      exact hbig q' d hq'

theorem derefInv_start {h0 : EHeap} (roots : List Ptr) (ix : Index) (hs : SlicesOk h0) : DerefInv h0 roots ix (fun _ => False) h0 :=
  ⟨Nat.le_refl _, hs, fun _ _ => rfl, fun _ _ _ h => Or.inl h, fun _ _ _ => rfl,
    fun p hp e he => absurd (get_lt he) (by omega), fun _ _ h => h.elim⟩

theorem kidsOk_id {h0 : EHeap} {roots : List Ptr} {ix : Index} {es : List (Int × Int)} (sc : Scene h0 roots ix es) {p : Ptr} {e : HElem}
    (hp : p ∈ ix.eltByID) (hg : h0.get p = some e) : KidsOk h0 ix.eltByID e := by
  intro c hc _ hs
  obtain ⟨⟨root, h1, h2⟩, _⟩ := (sc.ids p).mp hp
  exact (sc.ids c).mpr ⟨⟨root, h1, .step h2 hg hc⟩, hs⟩

/-- The children that are copied are not references. -/
theorem target_cells {h0 : EHeap} {roots : List Ptr} {ix : Index} {es : List (Int × Int)} (sc : Scene h0 roots ix es)
    (hpt : PlainTargets h0 roots) {done : Int → Prop} {h : EHeap} (inv : DerefInv h0 roots ix done h) {p q : Ptr} {real : HElem}
    (hpq : RefersTo h0 roots p q) (hq : q ∈ ix.eltByID) (hg : h.get q = some real) :
    ∀ x ∈ h.cells real.kids, ¬ HasRef x ∧ KidsOk h0 ix.eltByID x := by
  intro x hx
  obtain ⟨i, hi, hgx⟩ := mem_cells.mp hx
  by_cases hlt : real.kids.arr < h0.length
  · -- the target is as it was
    have hs0 : (h0.get q).isSome := ((sc.ids q).mp hq).2
    obtain ⟨e0, he0⟩ := Option.isSome_iff_exists.mp hs0
    rcases inv.old q hq e0 he0 with h1 | ⟨_, e, _, h1, _, h2, _⟩
    · rw [hg] at h1; cases h1
      have hk : KidOf real ⟨real.kids.arr, i⟩ := ⟨rfl, hi⟩
      have hs1 : (h0.get ⟨real.kids.arr, i⟩).isSome := by
        rw [← inv.dom ⟨real.kids.arr, i⟩ hlt, hgx]; rfl
      have hc := kidsOk_id sc hq he0 _ hk hlt hs1
      obtain ⟨d, hd⟩ := Option.isSome_iff_exists.mp hs1
      rcases inv.old _ hc d hd with h2 | ⟨_, e, _, h2, h3, h4, _⟩
      · rw [hgx] at h2; cases h2
        exact ⟨hpt p q real _ x hpq he0 hk hd, kidsOk_id sc hc hd⟩
      · rw [hgx] at h2; cases h2
        exact ⟨h3, fun c hc' hlt' _ => by rw [hc'.1] at hlt'; omega⟩
    · rw [hg] at h1; cases h1
      omega
  · exact inv.new ⟨real.kids.arr, i⟩ (by simpa using hlt) x hgx

theorem replaced_stable {h h' : EHeap} {e0 e : HElem} {q : Ptr} (hs : SlicesOk h)
    (hst : ∀ c d, h.get c = some d → ¬ HasRef d → h'.get c = some d) (hr : Replaced h e0 e q)
    (hnew : ∀ c ∈ h.cells e.kids, ¬ HasRef c) (hle : e.kids.len ≤ ((h[e.kids.arr]?).getD []).length) : Replaced h' e0 e q := by
  obtain ⟨real, h1, h2, h3, h4, h5, h6, h7, h8⟩ := hr
  have hc : h'.cells real.kids = h.cells real.kids := by
    apply cells_stable
    intro i hi
    obtain ⟨d, hd⟩ := get_some_of_len (hs q real h1) hi
    rw [hd]
    exact hst _ _ hd (h3 d (mem_cells.mpr ⟨i, hi, hd⟩))
  have hc2 : h'.cells e.kids = h.cells e.kids := by
    apply cells_stable
    intro i hi
    obtain ⟨d, hd⟩ := get_some_of_len hle hi
    rw [hd]
    exact hst _ _ hd (hnew d (mem_cells.mpr ⟨i, hi, hd⟩))
  exact ⟨real, hst _ _ h1 h2, h2, by rw [hc]; exact h3, h4, h5, by rw [hc]; exact h6, h7, by rw [hc, hc2]; exact h8⟩

/-- One call of the function given to `Flatten`. -/
theorem derefAt_step {h0 : EHeap} {roots : List Ptr} {ix : Index} {es : List (Int × Int)} (sc : Scene h0 roots ix es)
    (hpt : PlainTargets h0 roots) (hpr : PlainRefs h0 roots) {done : Int → Prop} {h : EHeap} (inv : DerefInv h0 roots ix done h)
    {k : Nat} {p : Ptr} (hk : ix.eltByID[k]? = some p) (hdeps : ∀ d, ((k : Int), d) ∈ es → done d) :
    ∃ h', derefAt ix h (k : Int) = some h' ∧ DerefInv h0 roots ix (fun i => done i ∨ i = (k : Int)) h' := by
  have hp : p ∈ ix.eltByID := List.mem_of_getElem? hk
  obtain ⟨⟨root, hroot, hbelow⟩, hs0⟩ := (sc.ids p).mp hp
  obtain ⟨e0, he0⟩ := Option.isSome_iff_exists.mp hs0
  -- nothing to do if the element is not a reference
  have hskip : ∀ el, h.get p = some el → ¬ HasRef el →
      ∃ h', derefAt ix h (k : Int) = some h' ∧ DerefInv h0 roots ix (fun i => done i ∨ i = (k : Int)) h' := by
    intro el hel hn
    refine ⟨h, ?_, { inv with done := ?_ }⟩
    · unfold derefAt
      rw [Int.toNat_natCast, hk, Option.bind_some, hel, Option.bind_some, refKey_none.mpr hn]
    · intro j p' hj hp'
      rcases hj with hj | hj
      · exact inv.done j p' hj hp'
      · have : j = k := by exact_mod_cast hj
        subst this
        rw [hk] at hp'; cases hp'
        exact ⟨el, hel, hn⟩
  rcases inv.old p hp e0 he0 with hel | ⟨_, el, _, hel, hn, _⟩
  · by_cases hr : HasRef e0
    · obtain ⟨key, dep, q, hkey, hdep, hq, hpq, hedge⟩ := sc.target k p e0 hk he0 hr
      have hqm : q ∈ ix.eltByID := List.mem_of_getElem? hq
      obtain ⟨real, hreal, hnr⟩ := inv.done dep q (hdeps _ hedge) hq
      have hne : q ≠ p := by
        intro heq; subst heq
        rw [hel] at hreal; cases hreal; exact hnr hr
      have hplt : p.arr < h0.length := get_lt he0
      have hcells := target_cells sc hpt inv hpq hqm hreal
      have hnd : ¬ HasRef (derefH h e0 real).2 := hasRef_deref (hpr root hroot p e0 hbelow he0 hr) hnr h
      have hkids : (derefH h e0 real).2.kids = ⟨h.length, (h.cells real.kids).length⟩ := rfl
      refine ⟨(derefH h e0 real).1.put p (derefH h e0 real).2, ?_, ?_⟩
      · unfold derefAt
        rw [Int.toNat_natCast, hk, Option.bind_some, hel, Option.bind_some, hkey]
        dsimp only
        rw [hdep, Option.bind_some, hq, Option.bind_some, hreal]
        rfl
      · have hfst : (derefH h e0 real).1 = h ++ [h.cells real.kids] := rfl
        rw [hfst]
        have hget : (EHeap.put (h ++ [h.cells real.kids]) p (derefH h e0 real).2).get p = some (derefH h e0 real).2 :=
          get_put_self _ (get_append_of_some _ hel)
        have hstab : ∀ c d, h.get c = some d → ¬ HasRef d →
            (EHeap.put (h ++ [h.cells real.kids]) p (derefH h e0 real).2).get c = some d := by
          intro c d hc hd
          exact put_stable hel _ _ hc (fun heq => by subst heq; rw [hel] at hc; cases hc; exact hd hr)
        have hlen : h.length < (EHeap.put (h ++ [h.cells real.kids]) p (derefH h e0 real).2).length := by
          rw [put_length]; simp
        have hslices := slicesOk_step inv.slices p (h.cells real.kids)
          (fun e he => by obtain ⟨i, _, hi⟩ := mem_cells.mp he; exact ⟨_, hi⟩) (derefH h e0 real).2 hkids
        have hnewcells : EHeap.cells (EHeap.put (h ++ [h.cells real.kids]) p (derefH h e0 real).2) (derefH h e0 real).2.kids =
            h.cells real.kids := by
          rw [hkids]
          apply List.ext_getElem?
          intro i
          rw [cells_get]
          have : (EHeap.put (h ++ [h.cells real.kids]) p (derefH h e0 real).2).get ⟨h.length, i⟩ = (h.cells real.kids)[i]? := by
            rw [get_put_ne, get_new]
            intro heq
            rw [heq] at hplt
            have := inv.len
            simp at hplt; omega
          split
          · exact this
          · rename_i hni
            rw [List.getElem?_eq_none]; simp only [Nat.not_lt] at hni; exact hni
        have hrealcells : EHeap.cells (EHeap.put (h ++ [h.cells real.kids]) p (derefH h e0 real).2) real.kids = h.cells real.kids := by
          apply cells_stable
          intro i hi
          obtain ⟨d, hd⟩ := get_some_of_len (inv.slices q real hreal) hi
          rw [hd]
          exact hstab _ _ hd (hcells d (mem_cells.mpr ⟨i, hi, hd⟩)).1
        refine ⟨?_, hslices, ?_, ?_, ?_, ?_, ?_⟩
        · have := inv.len; omega
        · intro c hc
          rw [get_put_isSome, get_append_left _ _ (Nat.lt_of_lt_of_le hc inv.len), inv.dom c hc]
        · intro c hc d0 hd0
          by_cases hcp : c = p
          · subst hcp
            rw [he0] at hd0; cases hd0
            right
            exact ⟨hr, (derefH h e0 real).2, q, hget, hnd, inv.len, hpq, real, hstab q real hreal hnr, hnr,
              by rw [hrealcells]; exact fun c hc => (hcells c hc).1, rfl, rfl, by rw [hrealcells]; rfl, rfl,
              by rw [hnewcells, hrealcells]⟩
          · rcases inv.old c hc d0 hd0 with h1 | ⟨h1, e, q', h2, h3, h4, h5, h6⟩
            · exact Or.inl (put_stable hel _ _ h1 hcp)
            · refine Or.inr ⟨h1, e, q', hstab _ _ h2 h3, h3, h4, h5, ?_⟩
              refine replaced_stable inv.slices hstab h6 ?_ (inv.slices _ _ h2)
              intro x hx
              obtain ⟨i, hi, hgx⟩ := mem_cells.mp hx
              exact (inv.new ⟨e.kids.arr, i⟩ h4 x hgx).1
        · intro c hc hlt
          rw [get_put_ne _ (fun (heq : p = c) => hc (heq ▸ hp)), get_append_left _ _ (Nat.lt_of_lt_of_le hlt inv.len), inv.other c hc hlt]
        · intro c hc e he
          have hcp : p ≠ c := by intro heq; subst heq; omega
          rw [get_put_ne _ hcp] at he
          by_cases hlt : c.arr < h.length
          · rw [get_append_left _ _ hlt] at he
            exact inv.new c hc e he
          · have hq : c.arr = h.length := by
              have := get_lt he
              simp at this; omega
            have : EHeap.get (h ++ [h.cells real.kids]) c = (h.cells real.kids)[c.idx]? := by
              have := get_new h (h.cells real.kids) c.idx
              rw [← hq] at this; exact this
            rw [this] at he
            exact hcells e (List.mem_of_getElem? he)
        · intro j p' hj hp'
          rcases hj with hj | hj
          · obtain ⟨e, h1, h2⟩ := inv.done j p' hj hp'
            exact ⟨e, hstab _ _ h1 h2, h2⟩
          · have : j = k := by exact_mod_cast hj
            subst this
            rw [hk] at hp'; cases hp'
            exact ⟨_, hget, hnd⟩
    · exact hskip e0 hel hr
  · exact hskip el hel hn

theorem derefAll_run {h0 : EHeap} {roots : List Ptr} {ix : Index} {es : List (Int × Int)} (sc : Scene h0 roots ix es)
    (hpt : PlainTargets h0 roots) (hpr : PlainRefs h0 roots) {order : List Int} (hv : ∀ v ∈ order, Dep.IsVertex es v)
    (hnd : order.Nodup) (hord : ∀ t d, (t, d) ∈ es → Dep.Before d t order) : ∀ (post pre : List Int) (h : EHeap), order = pre ++ post →
    DerefInv h0 roots ix (fun i => i ∈ pre) h → ∃ h', derefAll ix h post = some h' ∧ DerefInv h0 roots ix (fun i => i ∈ order) h' := by
  intro post
  induction post with
  | nil =>
    intro pre h ho inv
    rw [List.append_nil] at ho
    subst ho
    exact ⟨h, rfl, inv⟩
  | cons id post ih =>
    intro pre h ho inv
    obtain ⟨k, p, rfl, hk⟩ := sc.vertex id (hv id (by rw [ho]; simp))
    obtain ⟨h', h1, inv'⟩ := derefAt_step sc hpt hpr inv hk (by
      intro d hd
      obtain ⟨l1, l2, l3, e⟩ := hord _ _ hd
      -- `k` occurs once
      have e3 : (l1 ++ d :: l2) ++ (k : Int) :: l3 = pre ++ (k : Int) :: post := by rw [← ho, e]; simp
      have hn1 : (k : Int) ∉ l1 ++ d :: l2 := by
        have hh := hnd
        rw [e] at hh
        have : (l1 ++ d :: l2 ++ (k : Int) :: l3).Nodup := by simpa using hh
        exact fun hm => (List.nodup_append.mp this).2.2 _ hm _ (by simp) rfl
      have hn2 : (k : Int) ∉ pre := by
        have hh := hnd
        rw [ho] at hh
        exact fun hm => (List.nodup_append.mp hh).2.2 _ hm _ (by simp) rfl
      have : l1 ++ d :: l2 = pre := by
        rcases List.append_eq_append_iff.mp e3 with ⟨a, h1, h2⟩ | ⟨a, h1, h2⟩
        · cases a with
          | nil => simpa using h1.symm
          | cons x a =>
            simp only [List.cons_append, List.cons.injEq] at h2
            exact absurd (by rw [h1, h2.1]; simp) hn2
        · cases a with
          | nil => simpa using h1
          | cons x a =>
            simp only [List.cons_append, List.cons.injEq] at h2
            exact absurd (by rw [h1, h2.1]; simp) hn1
      rw [← this]; simp)
    obtain ⟨h'', h2, inv''⟩ := ih (pre ++ [(k : Int)]) h' (by rw [ho]; simp)
      { inv' with done := fun j p' hj hp' => inv'.done j p' (by simpa using hj) hp' }
    exact ⟨h'', by rw [derefAll, h1]; exact h2, inv''⟩

/-- Everything reachable is free of references. -/
theorem dereference_run {h0 : EHeap} {n : Nat} {roots : List Ptr} {ix : Index} {es : List (Int × Int)} (hs : SlicesOk h0)
    (hx : indexSchemas h0 n roots {} = some ix) (he : refEdges h0 ix 0 ix.eltByID = some es)
    (hac : AcyclicRefs h0 roots) (hpt : PlainTargets h0 roots) (hpr : PlainRefs h0 roots) :
    ∃ h1, dereference n h0 roots = .ok h1 ∧ DerefInv h0 roots ix (fun i => Dep.IsVertex es i) h1 := by
  have sc := scene hx he
  obtain ⟨out, hout, hnd, hmem⟩ := Dep.C23_flatten_visits_once es
  obtain ⟨out', hout', hord⟩ := Dep.C24_flatten_acyclic es (sc.acyclic hac)
  rw [hout] at hout'; cases hout'
  obtain ⟨h1, hrun, inv⟩ := derefAll_run sc hpt hpr (fun v hv => (hmem v).mp hv) hnd
    (fun t d htd => hord t d (.edge htd)) out [] h0 rfl
    { derefInv_start roots ix hs with done := fun _ _ h => by simp at h }
  refine ⟨h1, ?_, { inv with done := fun j p hj hp => inv.done j p ((hmem _).mpr hj) hp }⟩
  unfold dereference
  rw [hx]
  dsimp only
  rw [he]
  dsimp only
  rw [hout]
  dsimp only
  rw [hrun]

/-! ### Unpacking groups -/

/-- No reference among the pointers of a set that is closed under children. -/
def Clean (S : Ptr → Prop) (h : EHeap) : Prop :=
  ∀ p e, S p → h.get p = some e → ¬ HasRef e ∧ ∀ c, KidOf e c → (h.get c).isSome → S c

/-- The children of the roots are in the set. -/
def RootsIn (S : Ptr → Prop) (roots : List Ptr) (h : EHeap) : Prop :=
  ∀ root ∈ roots, ∀ e, h.get root = some e → ∀ c, KidOf e c → (h.get c).isSome → S c

theorem clean_below {S : Ptr → Prop} {roots : List Ptr} {h : EHeap} (hc : Clean S h) (hr : RootsIn S roots h) {root p : Ptr}
    (hroot : root ∈ roots) (hb : Below h root p) : (h.get p).isSome → S p := by
  induction hb with
  | kid hg hk => exact fun hs => hr root hroot _ hg _ hk hs
  | step _ hg hk ih => exact fun hs => (hc _ _ (ih (by rw [hg]; rfl)) hg).2 _ hk hs

theorem clean_unpackAt {S : Ptr → Prop} {roots : List Ptr} {h : EHeap} {b : Nat} (hb : b ≤ h.length) (hS : ∀ p : Ptr, b ≤ p.arr → S p)
    (hc : Clean S h) (hr : RootsIn S roots h) {p : Ptr} (hp : S p) :
    b ≤ (unpackAt h p).length ∧ Clean S (unpackAt h p) ∧ RootsIn S roots (unpackAt h p) ∧
      ∀ q, (h.get q).isSome → ((unpackAt h p).get q).isSome := by
  unfold unpackAt
  cases hg : h.get p with
  | none => exact ⟨hb, hc, hr, fun _ hq => hq⟩
  | some el =>
    dsimp only
    generalize hch : ((h.cells el.kids).flatMap fun c => if isGroup c then h.cells c.kids else [c]) = children
    have hcell : ∀ s : HSlice, (∀ i, i < s.len → (h.get ⟨s.arr, i⟩).isSome → S ⟨s.arr, i⟩) → ∀ x ∈ h.cells s, ∃ q, S q ∧ h.get q = some x := by
      intro s hs x hx
      obtain ⟨i, hi, hgx⟩ := mem_cells.mp hx
      exact ⟨_, hs i hi (by rw [hgx]; rfl), hgx⟩
    have hkid : ∀ q e, S q → h.get q = some e → ∀ x ∈ h.cells e.kids, ∃ q, S q ∧ h.get q = some x := by
      intro q e hq hge
      exact hcell _ (fun i hi hs => (hc q e hq hge).2 _ ⟨rfl, hi⟩ hs)
    have hchild : ∀ x ∈ children, ∃ q, S q ∧ h.get q = some x := by
      intro x hx
      rw [← hch] at hx
      obtain ⟨c, h1, h2⟩ := List.mem_flatMap.mp hx
      obtain ⟨q, h3, h4⟩ := hkid p el hp hg c h1
      split at h2
      · exact hkid q c h3 h4 x h2
      · simp only [List.mem_singleton] at h2; subst h2; exact ⟨q, h3, h4⟩
    have hsome : ∀ c e, (EHeap.get (EHeap.put (h ++ [children]) p e) c).isSome → S c ∨ (h.get c).isSome := by
      intro c e hs
      rw [get_put_isSome] at hs
      by_cases hlt : c.arr < h.length
      · rw [get_append_left _ _ hlt] at hs; exact Or.inr hs
      · exact Or.inl (hS c (by omega))
    refine ⟨by rw [put_length]; simp; omega, ?_, ?_, ?_⟩
    · intro q e hq hge
      by_cases hqp : p = q
      · subst hqp
        rw [get_put_self _ (get_append_of_some _ hg)] at hge
        cases hge
        refine ⟨(hc p el hp hg).1, ?_⟩
        intro c hk _
        exact hS c (by rw [hk.1]; exact hb)
      · rw [get_put_ne _ hqp] at hge
        have hold : ∃ q', S q' ∧ h.get q' = some e := by
          by_cases hlt : q.arr < h.length
          · rw [get_append_left _ _ hlt] at hge; exact ⟨q, hq, hge⟩
          · have hqa : q.arr = h.length := by
              have := get_lt hge
              simp at this; omega
            have : EHeap.get (h ++ [children]) q = children[q.idx]? := by
              have := get_new h children q.idx
              rw [← hqa] at this; exact this
            rw [this] at hge
            exact hchild e (List.mem_of_getElem? hge)
        obtain ⟨q', h1, h2⟩ := hold
        refine ⟨(hc q' e h1 h2).1, ?_⟩
        intro c hk hs
        rcases hsome c _ hs with h3 | h3
        · exact h3
        · exact (hc q' e h1 h2).2 c hk h3
    · intro root hroot e hge c hk hs
      rcases hsome c _ hs with h3 | h3
      · exact h3
      · by_cases hqp : p = root
        · subst hqp
          rw [get_put_self _ (get_append_of_some _ hg)] at hge
          cases hge
          exact hS c (by rw [hk.1]; exact hb)
        · rw [get_put_ne _ hqp] at hge
          by_cases hlt : root.arr < h.length
          · rw [get_append_left _ _ hlt] at hge
            exact hr root hroot e hge c hk h3
          · have hqa : root.arr = h.length := by
              have := get_lt hge
              simp at this; omega
            have : EHeap.get (h ++ [children]) root = children[root.idx]? := by
              have := get_new h children root.idx
              rw [← hqa] at this; exact this
            rw [this] at hge
            obtain ⟨q', h1, h2⟩ := hchild e (List.mem_of_getElem? hge)
            exact (hc q' e h1 h2).2 c hk h3
    · intro q hq
      rw [get_put_isSome]
      obtain ⟨e, he⟩ := Option.isSome_iff_exists.mp hq
      rw [get_append_of_some _ he]; rfl

theorem clean_unpackFold {S : Ptr → Prop} {roots : List Ptr} {b : Nat} (hS : ∀ p : Ptr, b ≤ p.arr → S p) (ps : List Ptr) :
    ∀ {h : EHeap}, b ≤ h.length → Clean S h → RootsIn S roots h → (∀ p ∈ ps, S p) →
      b ≤ (ps.foldl unpackAt h).length ∧ Clean S (ps.foldl unpackAt h) ∧ RootsIn S roots (ps.foldl unpackAt h) := by
  induction ps with
  | nil => intro h h1 h2 h3 _; exact ⟨h1, h2, h3⟩
  | cons p ps ih =>
    intro h h1 h2 h3 h4
    obtain ⟨g1, g2, g3, _⟩ := clean_unpackAt h1 hS h2 h3 (h4 p (by simp))
    exact ih g1 g2 g3 (fun q hq => h4 q (by simp [hq]))

theorem clean_unpackAll {S : Ptr → Prop} {roots : List Ptr} {b n : Nat} (hS : ∀ p : Ptr, b ≤ p.arr → S p) (rs : List Ptr) :
    ∀ {h h' : EHeap}, (∀ r ∈ rs, r ∈ roots) → b ≤ h.length → Clean S h → RootsIn S roots h → unpackAll n rs h = .ok h' →
      Clean S h' ∧ RootsIn S roots h' := by
  induction rs with
  | nil =>
    intro h h' _ _ h2 h3 h4
    simp only [unpackAll, Flattened.ok.injEq] at h4
    subst h4
    exact ⟨h2, h3⟩
  | cons root rs ih =>
    intro h h' hsub h1 h2 h3 h4
    rw [unpackAll] at h4
    unfold unpackGroups at h4
    cases hs : searchPtr h n (fun e => (h.cells e.kids).any isGroup) root with
    | none => rw [hs] at h4; cases h4
    | some ps =>
      rw [hs] at h4
      dsimp only [Option.map_some] at h4
      obtain ⟨g1, g2, g3⟩ := clean_unpackFold hS ps h1 h2 h3 (by
        intro p hp
        obtain ⟨h5, e, h6, _⟩ := (searchPtr_mem hs p).mp hp
        exact clean_below h2 h3 (hsub root (by simp)) h5 (by rw [h6]; rfl))
      cases hcy : hasCycle (ps.foldl unpackAt h) n root [] with
      | none => rw [hcy] at h4; cases h4
      | some r =>
        obtain ⟨c, v⟩ := r
        rw [hcy] at h4
        cases c with
        | true => cases h4
        | false => exact ih (fun r hr => hsub r (by simp [hr])) g1 g2 g3 h4

/-- After the replacements everything below the roots is in a closed set without references. -/
theorem clean_of_inv {h0 : EHeap} {roots : List Ptr} {ix : Index} {es : List (Int × Int)} {h : EHeap} (sc : Scene h0 roots ix es)
    (inv : DerefInv h0 roots ix (fun i => Dep.IsVertex es i) h) :
    Clean (fun p => p ∈ ix.eltByID ∨ h0.length ≤ p.arr) h ∧ RootsIn (fun p => p ∈ ix.eltByID ∨ h0.length ≤ p.arr) roots h := by
  have hkids : ∀ e, KidsOk h0 ix.eltByID e → ∀ c, KidOf e c → (h.get c).isSome → c ∈ ix.eltByID ∨ h0.length ≤ c.arr := by
    intro e hk c hc hs
    by_cases hlt : c.arr < h0.length
    · exact Or.inl (hk c hc hlt (by rw [← inv.dom c hlt]; exact hs))
    · exact Or.inr (by omega)
  have hid : ∀ p ∈ ix.eltByID, ∀ e, h.get p = some e → ¬ HasRef e ∧ ∀ c, KidOf e c → (h.get c).isSome →
      c ∈ ix.eltByID ∨ h0.length ≤ c.arr := by
    intro p hp e hg
    obtain ⟨e0, he0⟩ := Option.isSome_iff_exists.mp ((sc.ids p).mp hp).2
    rcases inv.old p hp e0 he0 with h1 | ⟨_, e', q, h1, h2, h3, _⟩
    · rw [hg] at h1; cases h1
      refine ⟨?_, hkids e (kidsOk_id sc hp he0)⟩
      intro hr
      obtain ⟨k, hk⟩ := List.mem_iff_getElem?.mp hp
      obtain ⟨key, dep, q, _, _, _, _, hedge⟩ := sc.target k p e hk he0 hr
      obtain ⟨e', h4, h5⟩ := inv.done k p ⟨_, hedge, Or.inl rfl⟩ hk
      rw [hg] at h4; cases h4
      exact h5 hr
    · rw [hg] at h1; cases h1
      exact ⟨h2, fun c hc _ => Or.inr (by rw [hc.1]; exact h3)⟩
  constructor
  · intro p e hp hg
    rcases hp with hp | hp
    · exact hid p hp e hg
    · exact ⟨(inv.new p hp e hg).1, hkids e (inv.new p hp e hg).2⟩
  · intro root hroot e hg
    by_cases hm : root ∈ ix.eltByID
    · exact (hid root hm e hg).2
    · by_cases hlt : root.arr < h0.length
      · rw [inv.other root hm hlt] at hg
        apply hkids
        intro c hc _ hs
        exact (sc.ids c).mpr ⟨⟨root, hroot, .kid hg hc⟩, hs⟩
      · exact hkids e (inv.new root (by omega) e hg).2

end GoXml.Xsd
