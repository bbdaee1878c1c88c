import Verif.Model.XsdTree
import Verif.Spec.Tree
import Verif.Props.XmlScope
import Verif.Props.XmlSearch
set_option autoImplicit false

/-! Helper lemmas about setting attributes at positions. -/

namespace GoXml

/-- Everything about an element but its children (of which only the number is kept). -/
def Element.tag (e : Element) : XName × List Attr × Scope × Str × Nat :=
  (e.name, e.attrs, e.scope, e.content, e.children.length)

theorem modifyAt_tag (f : Element → Element) (q : List Nat) (hq : q ≠ []) (e : Element) :
    (Element.modifyAt f q e).tag = e.tag := by
  cases q with
  | nil => exact absurd rfl hq
  | cons i q => cases e; simp [Element.modifyAt, Element.tag, Element.name, Element.attrs, Element.scope, Element.content, Element.children]

theorem at?_modifyAt (f : Element → Element) (hf : ∀ e, (f e).children = e.children) (q : List Nat) :
    ∀ (p : List Nat) (e : Element), ((Element.modifyAt f q e).at? p).map Element.tag =
      (e.at? p).map (fun x => if p = q then (f x).tag else x.tag) := by
  induction q with
  | nil =>
    intro p e
    cases p with
    | nil => simp [Element.modifyAt, Element.at?]
    | cons i p => simp [Element.modifyAt, Element.at?, hf]
  | cons j q ih =>
    intro p e
    cases p with
    | nil => simp [Element.at?, modifyAt_tag]
    | cons i p =>
      obtain ⟨n, a, s, c, ks⟩ := e
      simp only [Element.modifyAt, Element.at?, Element.children, List.getElem?_modify]
      cases hk : ks[i]? with
      | none => simp
      | some k =>
        by_cases hij : j = i
        · subst hij
          simp [ih]
        · have : ¬ i = j := fun h => hij h.symm
          simp [hij, this]

namespace Xsd

theorem setAttr_children (e : Element) (space loc v : Str) : (e.setAttr space loc v).children = e.children := rfl

theorem attrSet_idem (space loc v : Str) (as : List Attr) :
    attrSet space loc v (attrSet space loc v as) = attrSet space loc v as := by
  have := C02_setAttr_idem (.mk ⟨[], []⟩ as [] [] []) space loc v
  exact congrArg Element.attrs this

/-- What `setAttrs` does to each element. -/
theorem setAttrs_tag (loc : Str) (value : Scope → Str) (ps : List (List Nat)) :
    ∀ (root : Element) (p : List Nat),
    ((setAttrs loc value root ps).at? p).map Element.tag =
      (root.at? p).map (fun x => if p ∈ ps then (x.setAttr [] loc (value x.scope)).tag else x.tag) := by
  induction ps with
  | nil => intro root p; simp [setAttrs]
  | cons q ps ih =>
    intro root p
    have h1 := ih (root.modifyAt (fun e => e.setAttr [] loc (value e.scope)) q) p
    have h2 := at?_modifyAt (fun e => e.setAttr [] loc (value e.scope)) (fun _ => rfl) q p root
    simp only [setAttrs, List.foldl_cons] at h1 ⊢
    rw [h1]
    generalize hx : (root.modifyAt (fun e => e.setAttr [] loc (value e.scope)) q).at? p = o at h2 ⊢
    cases ho : root.at? p with
    | none => rw [ho] at h2; simp at h2; rw [h2]; rfl
    | some x =>
      rw [ho] at h2
      cases o with
      | none => simp at h2
      | some y =>
        simp only [Option.map_some, Option.some.injEq] at h2 ⊢
        have hset : ∀ (a b : Element) (v : Scope → Str), a.tag = b.tag →
            (a.setAttr [] loc (v a.scope)).tag = (b.setAttr [] loc (v b.scope)).tag := by
          intro a b v h
          simp only [Element.tag, Prod.mk.injEq] at h
          obtain ⟨h1, h2, h3, h4, h5⟩ := h
          simp only [Element.tag, Element.setAttr, Element.name, Element.attrs, Element.scope, Element.content, Element.children] at *
          rw [h1, h2, h3, h4, h5]
        by_cases hpq : p = q
        · subst hpq
          simp only [if_true, List.mem_cons, true_or] at h2 ⊢
          by_cases hm : p ∈ ps
          · rw [if_pos hm, hset _ _ value h2]
            simp only [Element.tag, Element.setAttr, Element.name, Element.attrs, Element.scope, Element.content,
              Element.children, attrSet_idem]
          · rw [if_neg hm, h2]
        · simp only [hpq, if_false, List.mem_cons, false_or] at h2 ⊢
          by_cases hm : p ∈ ps
          · rw [if_pos hm, if_pos hm, hset _ _ value h2]
          · rw [if_neg hm, if_neg hm, h2]

/-- The same, field by field. -/
theorem setAttrs_at (loc : Str) (value : Scope → Str) (root : Element) (ps : List (List Nat)) (p : List Nat) :
    (root.at? p = none ∧ (setAttrs loc value root ps).at? p = none) ∨
    ∃ e e', root.at? p = some e ∧ (setAttrs loc value root ps).at? p = some e' ∧ e'.name = e.name ∧
      e'.scope = e.scope ∧ e'.content = e.content ∧ e'.children.length = e.children.length ∧
      e'.attrs = if p ∈ ps then attrSet [] loc (value e.scope) e.attrs else e.attrs := by
  have h := setAttrs_tag loc value ps root p
  cases ho : root.at? p with
  | none => rw [ho] at h; left; simpa using h
  | some e =>
    rw [ho] at h
    cases ho' : (setAttrs loc value root ps).at? p with
    | none => rw [ho'] at h; simp at h
    | some e' =>
      rw [ho'] at h
      right
      refine ⟨e, e', rfl, rfl, ?_⟩
      simp only [Option.map_some, Option.some.injEq] at h
      by_cases hm : p ∈ ps
      · rw [if_pos hm] at h
        simp only [Element.tag, Prod.mk.injEq] at h
        rw [if_pos hm]
        exact ⟨h.1, h.2.2.1, h.2.2.2.1, h.2.2.2.2, h.2.1⟩
      · rw [if_neg hm] at h
        simp only [Element.tag, Prod.mk.injEq] at h
        rw [if_neg hm]
        exact ⟨h.1, h.2.2.1, h.2.2.2.1, h.2.2.2.2, h.2.1⟩

theorem isElem_schema (loc : Str) (e : Element) : isElem schemaNS loc e = true ↔ e.name = ⟨schemaNS, loc⟩ := by
  unfold isElem
  have : schemaNS ≠ [] := by decide
  obtain ⟨⟨sp, lo⟩, a, s, c, ks⟩ := e
  by_cases h : lo = loc
  · subst h; simp [Element.name, this]
  · simp [Element.name, h]

theorem choiceTargets_mem (p : List Nat) (ts : List Element) : ∀ (i : Nat) (q : List Nat),
    q ∈ choiceTargets p i ts ↔
      ∃ k t, ts[k]? = some t ∧
        ((t.name = ⟨schemaNS, b!"sequence"⟩ ∧ ∃ j, j < t.children.length ∧ q = p ++ [i + k, j]) ∨
         (t.name ≠ ⟨schemaNS, b!"sequence"⟩ ∧ q = p ++ [i + k])) := by
  induction ts with
  | nil => intro i q; simp [choiceTargets]
  | cons t ts ih =>
    intro i q
    have hname : (t.name.space = schemaNS ∧ t.name.loc = b!"sequence") ↔ t.name = ⟨schemaNS, b!"sequence"⟩ := by
      cases t.name; simp
    rw [choiceTargets, List.mem_append, ih]
    constructor
    · rintro (h | ⟨k, t', hk, h⟩)
      · refine ⟨0, t, rfl, ?_⟩
        split at h
        · rename_i hn
          left
          obtain ⟨j, hj, rfl⟩ := List.mem_map.mp h
          exact ⟨hname.mp hn, j, by simpa using hj, by simp⟩
        · rename_i hn
          right
          exact ⟨fun hh => hn (hname.mpr hh), by simpa using h⟩
      · refine ⟨k + 1, t', by simpa using hk, ?_⟩
        have : i + 1 + k = i + (k + 1) := by omega
        rwa [this] at h
    · rintro ⟨k, t', hk, h⟩
      cases k with
      | zero =>
        left
        simp only [List.getElem?_cons_zero, Option.some.injEq] at hk
        subst hk
        rcases h with ⟨hn, j, hj, rfl⟩ | ⟨hn, rfl⟩
        · rw [if_pos (hname.mpr hn)]
          exact List.mem_map.mpr ⟨j, by simpa using hj, by simp⟩
        · rw [if_neg (fun hh => hn (hname.mp hh))]; simp
      | succ k =>
        right
        refine ⟨k, t', by simpa using hk, ?_⟩
        have : i + 1 + k = i + (k + 1) := by omega
        rw [this]; exact h

theorem at?_snoc (p : List Nat) (i : Nat) : ∀ e : Element, e.at? (p ++ [i]) = (e.at? p).bind fun x => x.children[i]? := by
  induction p with
  | nil => intro e; simp only [List.nil_append, Element.at?, Option.bind_some]; split <;> simp_all [Element.at?]
  | cons j p ih =>
    intro e
    simp only [List.cons_append, Element.at?]
    cases e.children[j]? with
    | none => rfl
    | some k => exact ih k

end Xsd
end GoXml
