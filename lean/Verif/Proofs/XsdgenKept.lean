import Verif.Proofs.XsdgenValues
set_option autoImplicit false

/-! Lemmas for the theorems about values of generated types: documents that are read and written again. -/

namespace GoXml.Values
open Xsd Xsdgen

variable {V : Type}

/-! ### Attributes -/

theorem leaves_nest (n : Nat) (v : V) : (nest n (.leaf v) : GoVal V).leaves = [v] := by
  induction n with
  | zero => rfl
  | succ n ih => simp [nest, GoVal.leaves, GoVal.leaves.go, ih]

theorem readAttr_skip (p : Program V) (x : Attr) : ∀ (es : List Entry) (vs : List (GoVal V)),
    (∀ e ∈ es, ¬ (e.info.mode = .attr ∧ nameMatches e.info.name x.name)) → p.readAttr x es vs = some vs := by
  intro es
  induction es with
  | nil => intro vs _; rfl
  | cons e es ih =>
    intro vs h
    rw [Program.readAttr, if_neg (h e (List.mem_cons_self ..))]
    exact ih vs fun e he => h e (List.mem_cons_of_mem _ he)

theorem readAttr_one (p : Program V) (x : Attr) : ∀ (es : List Entry) (vs : List (GoVal V)) (e : Entry) (old v : GoVal V),
    (es.map (·.idx)).Nodup → e ∈ es → e.info.mode = .attr → nameMatches e.info.name x.name = true →
    (∀ e' ∈ es, e'.info.mode = .attr → nameMatches e'.info.name x.name = true → e'.idx = e.idx) →
    vs[e.idx]? = some old → p.readText e.type old x.value = some v → p.readAttr x es vs = some (vs.set e.idx v) := by
  intro es
  induction es with
  | nil => intro vs e old v _ he; cases he
  | cons e0 es ih =>
    intro vs e old v hnd he hm hn hu hold hr
    rw [List.map_cons, List.nodup_cons] at hnd
    rw [Program.readAttr]
    rcases List.mem_cons.mp he with rfl | he'
    · rw [if_pos ⟨hm, hn⟩, hold]
      simp only [hr, Option.bind_some]
      refine readAttr_skip p x es _ ?_
      rintro e' he' ⟨h1, h2⟩
      exact hnd.1 (by rw [← hu e' (List.mem_cons_of_mem _ he') h1 h2]; exact List.mem_map.mpr ⟨e', he', rfl⟩)
    · rw [if_neg]
      · exact ih vs e old v hnd.2 he' hm hn (fun e' h => hu e' (List.mem_cons_of_mem _ h)) hold hr
      · rintro ⟨h1, h2⟩
        have := hu e0 (List.mem_cons_self ..) h1 h2
        exact hnd.1 (by rw [this]; exact List.mem_map.mpr ⟨e, he', rfl⟩)

theorem TextAs.unique {S : Setting V} {ty : Ty} {t t' : GoExpr} (h : S.TextAs ty t) (h' : S.TextAs ty t') : t = t' := by
  rcases h with ⟨h0, h, h1, h2, _⟩ | ⟨h0, e, k, h1, h2⟩ <;> rcases h' with ⟨g0, g, g1, g2, _⟩ | ⟨g0, e', k', g1, g2⟩
  · rw [h1] at g1; cases g1; rw [h2, g2]
  · rw [h0] at g0; cases g0
  · rw [h0] at g0; cases g0
  · rw [h1] at g1
    cases g1
    have g2 := g2.shape
    rw [h2.shape] at g2
    cases g2
    rfl

theorem textType_of {decls : GoMap Str Spec} {e t : GoExpr} {m : Nat} (h : shape decls e = (m, .text t)) : textType decls e = t := by
  simp [textType, h]

/-- What nothing was read for is not written. -/
theorem vanish {S : Setting V} {s : Slot} {ty : Ty} {plural : Bool} {info : Info} {v : GoVal V} (his : s.Is S ty plural info) (hfresh : Fresh S s v)
    (hp : plural = true → special ty = false ∧ ∀ e, exprOf S.env S.cfg S.heap ty = .ok e → ¬ ByteType S.prog.decls e)
    (h : plural = true ∨ S.Vanishes ty) :
    v = .slice [] ∨ (s.late = false ∧ ∃ w, v = .leaf w ∧ S.prog.codec.empty w = true) ∨
      (s.late = true ∧ ∃ w, v = .leaf w ∧ S.prog.codec.write (textType S.prog.decls s.type) w = none) := by
  obtain ⟨e, he, ht⟩ := his.type
  cases hpl : plural with
  | true =>
    subst hpl
    left
    have hb := notByteType_iff.mp ((hp rfl).2 e he)
    refine (hfresh.shape (m := (shape S.prog.decls e).1 + 1) (b := (shape S.prog.decls e).2) ?_).1 (Nat.succ_ne_zero _)
    rw [ht]
    simp [shape, hb]
  | false =>
    subst hpl
    rcases h with h | h
    · cases h
    · obtain ⟨e', he', h⟩ := h
      rw [he] at he'
      cases he'
      simp only [Bool.false_eq_true, if_false] at ht
      rcases h with ⟨hs, k, b, hk⟩ | ⟨hs, t, hk, hz⟩ | ⟨hs, t, h, hk, hth, hw⟩
      · exact Or.inl ((hfresh.shape (by rw [ht]; exact hk.shape)).1 (Nat.succ_ne_zero _))
      · refine Or.inr (Or.inl ⟨by rw [his.late, hs], _, (hfresh.shape (by rw [ht]; exact hk.shape)).2 rfl t rfl, hz⟩)
      · refine Or.inr (Or.inr ⟨by rw [his.late, hs], _, (hfresh.shape (by rw [ht]; exact hk.shape)).2 rfl t rfl, ?_⟩)
        obtain ⟨m, hm, _⟩ := his.shape (Or.inl ⟨h, hth, rfl⟩) hp
        rw [textType_of hm]
        exact hw

/-- A field that has the value of an attribute. -/
def AttrRead (S : Setting V) (s : Slot) (a : XAttr) (x : Attr) (v : GoVal V) : Prop :=
  ∃ t m w, shape S.prog.decls s.type = (m, .text t) ∧ S.prog.codec.write t w = some x.value ∧
    (a.optional = true → s.late = false → S.prog.codec.empty w = false) ∧
    v = (match m with
      | 0 => .leaf w
      | m + 1 => .slice [nest m (.leaf w)])

theorem Slot.Is.fieldShape {S : Setting V} {s : Slot} {ty : Ty} {plural : Bool} {info : Info} (his : s.Is S ty plural info) {m : Nat} {b : Base}
    (hs : Values.shape S.prog.decls s.type = (m, b)) (h0 : special ty = true → m = 0) (hm : m ≠ 0) :
    Values.shape S.prog.decls s.field.type = (m, b) := by
  have : s.late = false := by
    rw [his.late]
    cases h : special ty with
    | false => rfl
    | true => exact absurd (h0 h) hm
  rw [← Slot.type_plain this]
  exact hs

theorem readAttrs_ok {S : Setting V} {c : ComplexT} {acc : Acc} {text elems attrs : List Slot} (h : Slots S c acc text elems attrs)
    (hf : S.Fine c acc) {es : List Entry} (hv : View (text ++ elems ++ attrs) es) : ∀ (xs : List Attr) (vs : List (GoVal V)),
    (xs.map (·.name)).Nodup →
    (∀ x ∈ xs, ∃ a ∈ S.attributes c, x.name = attrName a ∧ ∃ t, S.TextAs a.type t ∧ S.Canonical t x.value ∧
      (a.optional = true → special a.type = false → S.NotEmpty t x.value)) →
    vs.length = (text ++ elems ++ attrs).length →
    (∀ x ∈ xs, ∀ (j : Nat) a s, (S.attributes c)[j]? = some a → x.name = attrName a →
      (text ++ elems ++ attrs)[text.length + elems.length + j]? = some s →
      ∃ v, vs[text.length + elems.length + j]? = some v ∧ Fresh S s v) →
    ∃ vs', S.prog.readAttrs es xs vs = some vs' ∧ vs'.length = vs.length ∧
      (∀ i, i < text.length + elems.length → vs'[i]? = vs[i]?) ∧
      (∀ (j : Nat) a s, (S.attributes c)[j]? = some a → (text ++ elems ++ attrs)[text.length + elems.length + j]? = some s →
        ((∀ x ∈ xs, x.name ≠ attrName a) → vs'[text.length + elems.length + j]? = vs[text.length + elems.length + j]?) ∧
        ∀ x ∈ xs, x.name = attrName a → ∃ v, vs'[text.length + elems.length + j]? = some v ∧ AttrRead S s a x v) := by
  intro xs
  induction xs with
  | nil => intro vs _ _ _ _; exact ⟨vs, rfl, rfl, fun _ _ => rfl, fun j a s _ _ => ⟨fun _ => rfl, by simp⟩⟩
  | cons x xs ih =>
    intro vs hnd hall hlen hfresh
    rw [List.map_cons, List.nodup_cons] at hnd
    obtain ⟨a, ha, hxa, t, htext, ⟨w, hw1, hw2⟩, hne⟩ := hall x (List.mem_cons_self ..)
    obtain ⟨j, hj⟩ := List.getElem?_of_mem ha
    obtain ⟨s, hs, his⟩ := h.attr hj
    obtain ⟨old, hold, hfr⟩ := hfresh x (List.mem_cons_self ..) j a s hj hxa hs
    obtain ⟨m, hm, _, hm0⟩ := his.shape (Or.inl ⟨t, htext, rfl⟩) nofun
    obtain ⟨e, he, hidx⟩ := hv.complete _ _ hs
    obtain ⟨s', g1, g2, g3⟩ := hv.sound e he
    rw [hidx, hs] at g1
    cases g1
    -- the other attributes have other names
    have hother : ∀ (j' : Nat) a', (S.attributes c)[j']? = some a' → nameMatches (attrName a') (attrName a) = true → j' = j := by
      intro j' a' hj' hmt
      by_cases hjj : j' = j
      · exact hjj
      · have := (pairwise_get (fun _ _ h => Apart.symm h) hf.attrsApart hj' hj hjj).noMatch
        rw [hmt] at this
        cases this
    have hread : ∃ v, S.prog.readText e.type old x.value = some v ∧ AttrRead S s a x v := by
      rw [g3]
      unfold Program.readText
      rw [hm]
      simp only [hw1, Option.bind_some]
      cases m with
      | zero => exact ⟨.leaf w, rfl, t, 0, w, hm, hw2, fun ho hl => hne ho (by rw [← his.late]; exact hl) w hw1, rfl⟩
      | succ m =>
        have hsl := (hfr.shape (his.fieldShape hm hm0 (Nat.succ_ne_zero _))).1 (Nat.succ_ne_zero _)
        rw [hsl]
        exact ⟨.slice [nest m (.leaf w)], rfl, t, m + 1, w, hm, hw2, fun ho hl => hne ho (by rw [← his.late]; exact hl) w hw1, rfl⟩
    obtain ⟨v, hv1, hv2⟩ := hread
    have hstep : S.prog.readAttr x es vs = some (vs.set e.idx v) := by
      refine readAttr_one S.prog x es vs e old v hv.once he ?_ ?_ ?_ (by rw [hidx]; exact hold) hv1
      · rw [g2, his.info]
      · rw [g2, his.info, hxa]
        exact nameMatches_self _
      · intro e' he' hm' hn'
        obtain ⟨s', k1, k2, _⟩ := hv.sound e' he'
        rw [k2] at hm' hn'
        rcases h.cases k1 with ⟨_, md, _⟩ | ⟨j', el, _, _, his'⟩ | ⟨j', a', hi', ha', his'⟩
        · rw [md] at hm'; cases hm'
        · rw [his'.info] at hm'; cases hm'
        · rw [his'.info, hxa] at hn'
          rw [hi', hidx, hother j' a' ha' hn']
    obtain ⟨vs', r1, r2, r3, r4⟩ := ih (vs.set e.idx v) hnd.2 (fun y hy => hall y (List.mem_cons_of_mem _ hy)) (by rw [List.length_set]; exact hlen) (by
      intro y hy j' a' s' hj' hya hs'
      have hjj : j' ≠ j := by
        rintro rfl
        rw [hj] at hj'
        cases hj'
        exact hnd.1 (List.mem_map.mpr ⟨y, hy, by rw [hya, hxa]⟩)
      obtain ⟨v', k1, k2⟩ := hfresh y (List.mem_cons_of_mem _ hy) j' a' s' hj' hya hs'
      exact ⟨v', by rw [hidx, List.getElem?_set_ne (by omega)]; exact k1, k2⟩)
    refine ⟨vs', by rw [Program.readAttrs, hstep]; exact r1, by rw [r2, List.length_set], ?_, ?_⟩
    · intro i hi
      rw [r3 i hi, hidx, List.getElem?_set_ne (by omega)]
    · intro j' a' s' hj' hs'
      obtain ⟨r5, r6⟩ := r4 j' a' s' hj' hs'
      refine ⟨?_, ?_⟩
      · intro hno
        rw [r5 fun y hy => hno y (List.mem_cons_of_mem _ hy), hidx, List.getElem?_set_ne]
        intro hjj
        have : j' = j := by omega
        subst this
        rw [hj] at hj'
        cases hj'
        exact hno x (List.mem_cons_self ..) hxa
      · intro y hy hya
        rcases List.mem_cons.mp hy with rfl | hy
        · have hjj : j' = j := by
            refine hother j' a' hj' ?_
            rw [← hya, hxa]
            exact nameMatches_self _
          subst hjj
          rw [hj] at hj'
          cases hj'
          rw [hs] at hs'
          cases hs'
          refine ⟨v, ?_, hv2⟩
          rw [r5 (fun z hz hza => hnd.1 (List.mem_map.mpr ⟨z, hz, by rw [hza, hxa]⟩)), hidx]
          exact List.getElem?_set_self (List.getElem?_eq_some_iff.mp hold).1
        · exact r6 y hy hya

/-- An attribute that was read is written. -/
theorem AttrRead.written {S : Setting V} {slots : List Slot} {vs : List (GoVal V)} {i : Nat} {s : Slot} {a : XAttr} {x : Attr} {v : GoVal V}
    (h : AttrRead S s a x v) (hs : slots[i]? = some s) (hi : vs[i]? = some v) (his : s.Is S a.type false ⟨.attr, attrName a, a.optional⟩)
    (hx : x.name = attrName a) : attrAt S.prog slots vs i = [x] := by
  obtain ⟨t, m, w, h1, h2, h3, h4⟩ := h
  unfold attrAt
  rw [hs, hi]
  simp only [his.info, if_true]
  have hl : v.leaves = [w] := by
    subst h4
    cases m with
    | zero => rfl
    | succ m => simp [GoVal.leaves, GoVal.leaves.go, leaves_nest]
  have hne : (a.optional && !s.late && S.prog.isEmpty v) = false := by
    cases ho : a.optional with
    | false => rfl
    | true =>
      cases hlt : s.late with
      | true => rfl
      | false =>
        subst h4
        cases m with
        | zero => simpa [Program.isEmpty] using h3 ho hlt
        | succ m => rfl
  rw [hne]
  simp only [Bool.false_eq_true, if_false, hl, textType_of h1, h2, List.filterMap_cons, Option.map_some, List.filterMap_nil]
  rw [← hx]

theorem absent_attr {S : Setting V} {slots : List Slot} {vs : List (GoVal V)} {i : Nat} {s : Slot} {a : XAttr} {v : GoVal V}
    (hs : slots[i]? = some s) (hi : vs[i]? = some v) (his : s.Is S a.type false ⟨.attr, attrName a, a.optional⟩) (hfr : Fresh S s v)
    (ho : a.optional = true) (hvan : S.Vanishes a.type) : attrAt S.prog slots vs i = [] := by
  unfold attrAt
  rw [hs, hi]
  simp only [his.info, if_true]
  rcases vanish his hfr nofun (Or.inr hvan) with rfl | ⟨hl, w, rfl, he⟩ | ⟨hl, w, rfl, he⟩
  · split
    · rfl
    · simp [GoVal.leaves, GoVal.leaves.go]
  · rw [if_pos]
    simp [ho, hl, Program.isEmpty, he]
  · rw [if_neg (by simp [hl])]
    simp [GoVal.leaves, he]

/-! ### The order of the fields -/

/-- What is written for the fields that are special, or not. -/
def lates {γ : Type} (P : Bool → Bool) (F : Nat → List γ) (slots : List Slot) (off : Nat) : List γ :=
  ((slots.zipIdx off).filter fun q => P q.1.late).flatMap fun q => F q.2

theorem lates_append {γ : Type} (P : Bool → Bool) (F : Nat → List γ) (a b : List Slot) (off : Nat) :
    lates P F (a ++ b) off = lates P F a off ++ lates P F b (off + a.length) := by
  simp only [lates, List.zipIdx_append, List.filter_append, List.flatMap_append]

theorem lates_nil {γ : Type} (P : Bool → Bool) (F : Nat → List γ) (slots : List Slot) (off : Nat)
    (h : ∀ i, i < slots.length → F (off + i) = []) : lates P F slots off = [] := by
  unfold lates
  rw [List.flatMap_eq_nil_iff]
  rintro ⟨s, i⟩ hq
  obtain ⟨h1, h2⟩ := List.mem_zipIdx (List.mem_filter.mp hq).1
  have := h (i - off) (by omega)
  rwa [show off + (i - off) = i by omega] at this

theorem lates_forall₂ {γ α : Type} (P : Bool → Bool) (F : Nat → List γ) (type : α → Ty) {as : List α} {slots : List Slot}
    (h : List.Forall₂ (fun a s => s.late = special (type a)) as slots) : ∀ off,
    lates P F slots off = (as.zipIdx off).flatMap fun q => if P (special (type q.1)) then F q.2 else [] := by
  unfold lates
  induction h with
  | nil => intro off; rfl
  | cons hab _ ih =>
    intro off
    rw [List.zipIdx_cons, List.zipIdx_cons, List.filter_cons, List.flatMap_cons]
    simp only [hab]
    split
    · rw [List.flatMap_cons, ih]
    · rw [ih]; rfl

theorem flat_filterMap {γ α : Type} (P : α → Bool) (F : Nat → List γ) (g : α → Option γ) : ∀ (as : List α) (off : Nat),
    (∀ (j : Nat) a, as[j]? = some a → F (off + j) = (g a).toList) →
    ((as.zipIdx off).flatMap fun q => if P q.1 then F q.2 else []) = (as.filter P).filterMap g := by
  intro as
  induction as with
  | nil => intro off _; rfl
  | cons a as ih =>
    intro off h
    rw [List.zipIdx_cons, List.flatMap_cons, ih (off + 1) (fun j b hb => by
      have := h (j + 1) b (by simpa using hb)
      rwa [show off + (j + 1) = off + 1 + j by omega] at this), List.filter_cons]
    have h0 := h 0 a (by simp)
    rw [Nat.add_zero] at h0
    simp only [h0]
    split
    · rw [List.filterMap_cons]
      cases g a <;> rfl
    · rfl

theorem written_lates {γ : Type} (slots : List Slot) (d : Nat) (f : Nat → List γ) :
    (written slots d).flatMap (fun e => f e.idx) = lates (fun b => !b) f slots 0 ++ lates (fun b => b) f slots 0 := by
  rw [written_flat]
  rfl

theorem forall₂_imp {α β : Type} {R Q : α → β → Prop} (hi : ∀ a b, R a b → Q a b) {l : List α} {m : List β} (h : List.Forall₂ R l m) :
    List.Forall₂ Q l m := by
  induction h with
  | nil => exact .nil
  | cons h _ ih => exact .cons (hi _ _ h) ih

theorem attrAt_nil {S : Setting V} {c : ComplexT} {acc : Acc} {text elems attrs : List Slot} (h : Slots S c acc text elems attrs)
    (vs : List (GoVal V)) {i : Nat} (hi : i < text.length + elems.length) : attrAt S.prog (text ++ elems ++ attrs) vs i = [] := by
  unfold attrAt
  cases hs : (text ++ elems ++ attrs)[i]? with
  | none => rfl
  | some s =>
    cases vs[i]? with
    | none => rfl
    | some v =>
      have : s.info.mode ≠ .attr := by
        rcases h.cases hs with ⟨_, md, _⟩ | ⟨j, el, _, _, his⟩ | ⟨j, a, rfl, _⟩
        · rw [md]; nofun
        · rw [his.info]; nofun
        · omega
      simp [this]

theorem outAt_nil {S : Setting V} {c : ComplexT} {acc : Acc} {text elems attrs : List Slot} (h : Slots S c acc text elems attrs)
    (vs : List (GoVal V)) {i : Nat} (hi : text.length + elems.length ≤ i) : outAt S.prog (text ++ elems ++ attrs) vs i = [] := by
  unfold outAt
  cases hs : (text ++ elems ++ attrs)[i]? with
  | none => rfl
  | some s =>
    cases vs[i]? with
    | none => rfl
    | some v =>
      have : s.info.mode = .attr := by
        rcases h.cases hs with ⟨hlt, _⟩ | ⟨j, el, rfl, hj, his⟩ | ⟨j, a, rfl, _, his⟩
        · omega
        · have := h.elems.length_eq
          have := (List.getElem?_eq_some_iff.mp hj).1
          omega
        · rw [his.info]
      simp [this]

/-- Attributes that were read are written in the order of their declarations. -/
theorem attrs_arranged {S : Setting V} {c : ComplexT} {acc : Acc} {text elems attrs : List Slot} (h : Slots S c acc text elems attrs)
    {xs : List Attr} (hc : S.AttrsConform c xs) {vs0 vs1 vs : List (GoVal V)} (d : Nat)
    (hfresh : ∀ (i : Nat) s, (text ++ elems ++ attrs)[i]? = some s → ∃ w, vs0[i]? = some w ∧ Fresh S s w)
    (hread : ∀ (j : Nat) a s, (S.attributes c)[j]? = some a → (text ++ elems ++ attrs)[text.length + elems.length + j]? = some s →
        ((∀ x ∈ xs, x.name ≠ attrName a) → vs1[text.length + elems.length + j]? = vs0[text.length + elems.length + j]?) ∧
        ∀ x ∈ xs, x.name = attrName a → ∃ v, vs1[text.length + elems.length + j]? = some v ∧ AttrRead S s a x v)
    (hsame : ∀ i, text.length + elems.length ≤ i → vs[i]? = vs1[i]?) :
    (written (text ++ elems ++ attrs) d).flatMap (S.prog.writeAttrs vs) = S.arranged c xs := by
  rw [written_attrs, written_lates (f := attrAt S.prog (text ++ elems ++ attrs) vs)]
  have key : ∀ P : Bool → Bool, lates P (attrAt S.prog (text ++ elems ++ attrs) vs) (text ++ elems ++ attrs) 0 =
      ((S.attributes c).filter fun a => P (special a.type)).filterMap fun a => xs.find? fun x => decide (x.name = attrName a) := by
    intro P
    rw [lates_append, lates_nil P _ (text ++ elems) 0 (fun i hi => attrAt_nil h vs (by rw [List.length_append] at hi; omega)), List.nil_append,
      lates_forall₂ P _ (·.type) (forall₂_imp (fun _ _ his => his.late) h.attrs)]
    refine flat_filterMap (fun a : XAttr => P (special a.type)) _ _ _ _ ?_
    intro j a ha
    rw [Nat.zero_add, List.length_append]
    obtain ⟨s, hs, his⟩ := h.attr ha
    obtain ⟨r1, r2⟩ := hread j a s ha hs
    cases hf : xs.find? (fun x => decide (x.name = attrName a)) with
    | some x =>
      have hx : x.name = attrName a := by simpa using List.find?_some hf
      obtain ⟨v, hv, hr⟩ := r2 x (List.mem_of_find?_eq_some hf) hx
      rw [hr.written hs (by rw [hsame _ (by omega)]; exact hv) his hx]
      rfl
    | none =>
      have hno : ∀ x ∈ xs, x.name ≠ attrName a := by
        intro x hx
        simpa using List.find?_eq_none.mp hf x hx
      obtain ⟨w, hw, hfr⟩ := hfresh _ _ hs
      rcases hc.absent a (List.mem_of_getElem? ha) with ⟨x, hx, hxa⟩ | ⟨ho, hvan⟩
      · exact absurd hxa (hno x hx)
      · rw [absent_attr hs (by rw [hsame _ (by omega), r1 hno]; exact hw) his hfr ho hvan]
        rfl
  rw [key, key, ← List.filterMap_append]
  rfl

/-! ### Elements -/

theorem encode_nest (p : Program V) (name : XName) (skip : Bool) (e : GoExpr) (v : GoVal V) : ∀ n, p.encode true name skip e (nest n v) = p.encode true name skip e v := by
  intro n
  induction n with
  | zero => rfl
  | succ n ih => simp [nest, Program.encode, Program.encodeSlice, ih]

theorem encodeSlice_append (p : Program V) (name : XName) (skip : Bool) (e : GoExpr) : ∀ xs ys : List (GoVal V),
    p.encodeSlice name skip e (xs ++ ys) = p.encodeSlice name skip e xs ++ p.encodeSlice name skip e ys := by
  intro xs ys
  induction xs with
  | nil => simp [Program.encodeSlice]
  | cons x xs ih => simp [Program.encodeSlice, ih]

/-- Wherever an element of this kind is read, it gives a value that is written as `d'`. -/
def Item (S : Setting V) (B : Base) (d d' : XNode) : Prop :=
  ∃ name attrs kids v, d = .elem name attrs kids ∧
    (∀ ft old m, shape S.prog.decls ft = (m, B) → (m = 0 → ∀ nm fs, B = .struct nm fs → S.prog.zero S.fuel (.ident nm) = some old) →
      S.prog.decode S.fuel ft old d = store m old v) ∧
    (∀ ft m skip, shape S.prog.decls ft = (m, B) → (skip = true → S.prog.isEmpty v = false) → S.prog.encode true name skip ft v = [d']) ∧
    (∀ t, B = .text t → ∃ w, S.prog.codec.read t (textIn kids) = some w ∧ v = .leaf w) ∧
    (∀ nm fs, B = .struct nm fs → S.prog.isEmpty v = false)

theorem item_simple {S : Setting V} {t : GoExpr} {name : XName} {kids : List XNode} (hc : S.Canonical t (textIn kids)) :
    Item S (.text t) (.elem name [] kids) (.elem name [] (textKids (textIn kids))) := by
  obtain ⟨w, h1, h2⟩ := hc
  refine ⟨name, [], kids, .leaf w, rfl, ?_, ?_, ?_, nofun⟩
  · intro ft old m hs _
    rw [Program.decode, hs]
    simp only [h1, Option.bind_some]
  · intro ft m skip hs hne
    rw [Program.encode, textType_of hs, h2]
    cases skip with
    | false => rfl
    | true => simp [show S.prog.codec.empty w = false from hne rfl]
  · intro t' ht
    cases ht
    exact ⟨w, h1, rfl⟩

theorem entry_for {S : Setting V} {c : ComplexT} {acc : Acc} {text elems attrs : List Slot} (h : Slots S c acc text elems attrs)
    (hf : S.Fine c acc) {es : List Entry} (hv : View (text ++ elems ++ attrs) es) {j : Nat} {el : XElem} (hj : (S.elements c)[j]? = some el) :
    ∃ e s, entryFor es el.name = some e ∧ e.idx = text.length + j ∧ (text ++ elems ++ attrs)[text.length + j]? = some s ∧ e.type = s.type ∧
      s.Is S el.type el.plural ⟨.element, el.name, el.optional || el.nillable⟩ := by
  obtain ⟨s, hs, his⟩ := h.elem hj
  obtain ⟨e, he, hidx⟩ := hv.complete _ _ hs
  obtain ⟨s', g1, g2, g3⟩ := hv.sound e he
  rw [hidx, hs] at g1
  cases g1
  unfold entryFor
  cases hf' : es.find? (fun e => (decide (e.info.mode = .element) || decide (e.info.mode = .any)) && nameMatches e.info.name el.name) with
  | none =>
    exfalso
    have := List.find?_eq_none.mp hf' e he
    rw [g2, his.info] at this
    simp [nameMatches_self] at this
  | some e' =>
    have hm := List.mem_of_find?_eq_some hf'
    have hp := List.find?_some hf'
    obtain ⟨s', k1, k2, k3⟩ := hv.sound e' hm
    rw [k2] at hp
    rcases h.cases k1 with ⟨_, md, _⟩ | ⟨j', el', hi', he', his'⟩ | ⟨j', a', _, _, his'⟩
    · rw [md] at hp; simp at hp
    · rw [his'.info] at hp
      have hn : nameMatches el'.name el.name = true := by simpa using hp
      have hjj : j' = j := by
        by_cases hjj : j' = j
        · exact hjj
        · have := (pairwise_get (fun _ _ h => Apart.symm h) hf.elemsApart he' hj hjj).noMatch
          rw [hn] at this
          cases this
      subst hjj
      rw [hi', hs] at k1
      cases k1
      exact ⟨e', s, rfl, hi', hs, k3, his⟩
    · rw [his'.info] at hp; simp at hp

theorem outAt_congr (p : Program V) (slots : List Slot) {vs vs' : List (GoVal V)} {i : Nat} (h : vs'[i]? = vs[i]?) :
    outAt p slots vs' i = outAt p slots vs i := by
  unfold outAt
  rw [h]

theorem absent_elem {S : Setting V} {slots : List Slot} {vs : List (GoVal V)} {i : Nat} {s : Slot} {el : XElem} {v : GoVal V}
    (hs : slots[i]? = some s) (hi : vs[i]? = some v) (his : s.Is S el.type el.plural ⟨.element, el.name, el.optional || el.nillable⟩)
    (hfr : Fresh S s v) (ho : el.optional = true)
    (hp : el.plural = true → special el.type = false ∧ ∀ e, exprOf S.env S.cfg S.heap el.type = .ok e → ¬ ByteType S.prog.decls e)
    (hvan : el.plural = true ∨ S.Vanishes el.type) : outAt S.prog slots vs i = [] := by
  unfold outAt
  rw [hs, hi]
  simp only [his.info]
  rcases vanish his hfr hp hvan with rfl | ⟨hl, w, rfl, he⟩ | ⟨hl, w, rfl, he⟩
  · simp [Program.encode, Program.encodeSlice]
  · rw [Program.encode, if_pos]
    simp [ho, hl, he]
  · rw [Program.encode, if_neg (by simp [hl]), he]

/-- The elements from number `j` on, when the fields before are done. -/
def KidsOk (S : Setting V) (seen : Bool) (els : List XElem) (kids : List XNode) (out : List (XElem × XNode)) : Prop :=
  ∀ c acc text elems attrs, Slots S c acc text elems attrs → S.Fine c acc → ∀ es, View (text ++ elems ++ attrs) es →
  ∀ j, els = (S.elements c).drop j → ∀ vs : List (GoVal V), vs.length = (text ++ elems ++ attrs).length →
  (∀ (i : Nat) s, text.length + j + (if seen then 1 else 0) ≤ i → i < text.length + elems.length → (text ++ elems ++ attrs)[i]? = some s →
    ∃ w, vs[i]? = some w ∧ Fresh S s w) →
  (seen = true → ∀ el, (S.elements c)[j]? = some el → el.plural = true → ∃ xs, vs[text.length + j]? = some (.slice xs)) →
  ∃ vs', S.prog.decodeKids S.fuel es vs kids = some vs' ∧ vs'.length = vs.length ∧
    (∀ i, i < text.length + j ∨ text.length + elems.length ≤ i → vs'[i]? = vs[i]?) ∧
    ∀ q : XElem → Bool, ((els.zipIdx (text.length + j)).flatMap fun p => if q p.1 then outAt S.prog (text ++ elems ++ attrs) vs' p.2 else []) =
      (if seen && els.head?.any q then outAt S.prog (text ++ elems ++ attrs) vs (text.length + j) else []) ++ (out.filter (q ·.1)).map (·.2)

theorem drop_cons {α : Type} {l : List α} {j : Nat} {x : α} {xs : List α} (h : x :: xs = l.drop j) : l[j]? = some x ∧ xs = l.drop (j + 1) := by
  have hlt : j < l.length := by
    by_cases hj : j < l.length
    · exact hj
    · rw [List.drop_eq_nil_of_le (by omega)] at h; cases h
  rw [List.drop_eq_getElem_cons hlt] at h
  cases h
  exact ⟨by simp [hlt], rfl⟩

theorem kids_next {S : Setting V} {seen : Bool} {el : XElem} {els : List XElem} {kids : List XNode} {out : List (XElem × XNode)}
    (absent : seen = true ∨ (el.optional = true ∧ (el.plural = true ∨ S.Vanishes el.type))) (rest : KidsOk S false els kids out) :
    KidsOk S seen (el :: els) kids out := by
  intro c acc text elems attrs h hf es hv j hj vs hlen hfr hsl
  obtain ⟨hel, hels⟩ := drop_cons hj
  obtain ⟨s, hs, his⟩ := h.elem hel
  have hlt : j < elems.length := by
    have := h.elems.length_eq
    have := (List.getElem?_eq_some_iff.mp hel).1
    omega
  obtain ⟨vs', r1, r2, r3, r4⟩ := rest c acc text elems attrs h hf es hv (j + 1) hels vs hlen
    (fun i s h1 h2 h3 => hfr i s (by cases seen <;> simp at h1 ⊢ <;> omega) h2 h3) nofun
  refine ⟨vs', r1, r2, fun i hi => r3 i (by omega), ?_⟩
  intro q
  rw [List.zipIdx_cons, List.flatMap_cons]
  have := r4 q
  rw [show text.length + (j + 1) = text.length + j + 1 by omega] at this
  simp only [Bool.false_and, Bool.false_eq_true, if_false, List.nil_append] at this
  rw [this]
  congr 1
  rw [outAt_congr S.prog _ (r3 (text.length + j) (by omega))]
  simp only [List.head?_cons, Option.any_some]
  cases hseen : seen with
  | true => rfl
  | false =>
    simp only [Bool.false_and, Bool.false_eq_true, if_false]
    rcases absent with h | ⟨ho, hvan⟩
    · rw [hseen] at h; cases h
    · obtain ⟨w, hw, hw'⟩ := hfr (text.length + j) s (by rw [hseen]; simp) (by omega) hs
      rw [absent_elem hs hw his hw' ho (fun hp => (hf.repeated el (List.mem_of_getElem? hel) hp).2) hvan]
      simp

theorem kids_kid {S : Setting V} {seen : Bool} {el : XElem} {els : List XElem} {attrs' : List Attr} {inner kids : List XNode} {d : XNode}
    {out : List (XElem × XNode)} {B : Base} (again : seen = false ∨ el.plural = true)
    (full : el.optional = true ∨ el.nillable = true → special el.type = false → ∀ t, S.TextAs el.type t → S.NotEmpty t (textIn inner))
    (hb : S.HasBase el.type B) (item : Item S B (.elem el.name attrs' inner) d) (rest : KidsOk S true (el :: els) kids out) :
    KidsOk S seen (el :: els) (.elem el.name attrs' inner :: kids) ((el, d) :: out) := by
  intro c acc text elems attrs h hf es hv j hj vs hlen hfr hsl
  obtain ⟨hel, hels⟩ := drop_cons hj
  have hrep := hf.repeated el (List.mem_of_getElem? hel)
  obtain ⟨e, s, he1, he2, hs, he3, his⟩ := entry_for h hf hv hel
  have hlt : j < elems.length := by
    have := h.elems.length_eq
    have := (List.getElem?_eq_some_iff.mp hel).1
    omega
  obtain ⟨m, hm, hm1, hm0⟩ := his.shape hb fun hp => (hrep hp).2
  obtain ⟨name, xs, ks, v, hd, i1, i2, i3, i4⟩ := item
  cases hd
  -- what the field holds
  have hold : ∃ old, vs[text.length + j]? = some old ∧ (seen = false → Fresh S s old) ∧ (m ≠ 0 → ∃ xs, old = .slice xs ∧ (seen = false → xs = [])) := by
    cases hseen : seen with
    | true =>
      rcases again with h | hp
      · rw [hseen] at h; cases h
      · obtain ⟨xs, hxs⟩ := hsl hseen el hel hp
        exact ⟨_, hxs, nofun, fun _ => ⟨xs, rfl, nofun⟩⟩
    | false =>
      obtain ⟨w, hw, hw'⟩ := hfr (text.length + j) s (by rw [hseen]; simp) (by omega) hs
      refine ⟨w, hw, fun _ => hw', fun hne => ⟨[], (hw'.shape (his.fieldShape hm hm0 hne)).1 hne, fun _ => rfl⟩⟩
  obtain ⟨old, hold, hold1, hold2⟩ := hold
  have hskip : ((el.optional || el.nillable) && !s.late) = true → S.prog.isEmpty v = false := by
    intro hsk
    rw [his.late] at hsk
    have hsk1 : el.optional = true ∨ el.nillable = true := by
      cases ho : el.optional <;> cases hn : el.nillable <;> simp_all
    have hsk2 : special el.type = false := by
      cases hs : special el.type <;> simp_all
    cases B with
    | text t =>
      obtain ⟨w, hw, rfl⟩ := i3 t rfl
      rcases hb with ⟨t', ht, hb⟩ | ⟨id, c', acc', _, _, _, hb⟩
      · cases hb
        exact full hsk1 hsk2 t ht w hw
      · cases hb
    | name =>
      rcases hb with ⟨t', ht, hb⟩ | ⟨id, c', acc', _, _, _, hb⟩ <;> cases hb
    | struct nm fs => exact i4 nm fs rfl
  -- the new value
  have hnew : ∃ v', store m old v = some v' ∧ (el.plural = true → ∃ xs, v' = .slice xs) ∧
      S.prog.encode true el.name ((el.optional || el.nillable) && !s.late) s.type v' =
        (if seen then S.prog.encode true el.name ((el.optional || el.nillable) && !s.late) s.type old else []) ++ [d] := by
    cases m with
    | zero =>
      have hpl : el.plural = false := by
        cases hp : el.plural with
        | false => rfl
        | true => exact absurd rfl (hm1 hp)
      have hseen : seen = false := by
        rcases again with h | h
        · exact h
        · rw [hpl] at h; cases h
      refine ⟨v, rfl, by rw [hpl]; nofun, ?_⟩
      rw [i2 _ _ _ hm hskip, hseen]
      rfl
    | succ m =>
      obtain ⟨xs, rfl, hxs⟩ := hold2 (Nat.succ_ne_zero _)
      refine ⟨.slice (xs ++ [nest m v]), rfl, fun _ => ⟨_, rfl⟩, ?_⟩
      rw [Program.encode, encodeSlice_append, Program.encodeSlice, Program.encodeSlice, encode_nest, i2 _ _ _ hm hskip, List.append_nil]
      cases hseen : seen with
      | true => rfl
      | false => rw [hxs hseen]; rfl
  obtain ⟨v', n1, n2, n3⟩ := hnew
  have hdec : S.prog.decode S.fuel e.type old (.elem el.name attrs' inner) = some v' := by
    rw [he3, i1 s.type old m hm ?_, n1]
    intro hm' nm fs hB
    subst hm'
    subst hB
    have hsp : s.late = false := by
      rw [his.late]
      rcases hb with ⟨t', ht, hb⟩ | ⟨id, c', acc', hty, _, _, hb⟩
      · cases hb
      · rw [hty]; rfl
    have hseen : seen = false := by
      rcases again with h | hp
      · exact h
      · exact absurd rfl (hm1 hp)
    have := hold1 hseen
    unfold Fresh at this
    rw [← Slot.type_plain hsp, shape_struct hm] at this
    exact this
  obtain ⟨vs', r1, r2, r3, r4⟩ := rest c acc text elems attrs h hf es hv j hj (vs.set (text.length + j) v') (by rw [List.length_set]; exact hlen)
    (fun i s h1 h2 h3 => by
      rw [if_pos rfl] at h1
      rw [List.getElem?_set_ne (by omega)]
      exact hfr i s (by cases seen <;> simp <;> omega) h2 h3)
    (fun _ el' hel' hp => by
      rw [hel] at hel'
      cases hel'
      obtain ⟨ys, rfl⟩ := n2 hp
      exact ⟨ys, List.getElem?_set_self (List.getElem?_eq_some_iff.mp hold).1⟩)
  refine ⟨vs', ?_, by rw [r2, List.length_set], ?_, ?_⟩
  · rw [Program.decodeKids, he1]
    simp only [he2, hold, hdec]
    exact r1
  · intro i hi
    rw [r3 i hi, List.getElem?_set_ne (by omega)]
  · intro q
    rw [r4 q]
    simp only [List.head?_cons, Option.any_some, Bool.true_and, List.filter_cons]
    have hout : outAt S.prog (text ++ elems ++ attrs) (vs.set (text.length + j) v') (text.length + j) =
        (if seen then outAt S.prog (text ++ elems ++ attrs) vs (text.length + j) else []) ++ [d] := by
      unfold outAt
      rw [hs, List.getElem?_set_self (List.getElem?_eq_some_iff.mp hold).1, hold]
      simp only [his.info]
      exact n3
    by_cases hq : q el = true
    · simp only [hq, if_true, Bool.and_true, hout, List.map_cons]
      rw [List.append_assoc]
      rfl
    · simp [hq]

theorem kids_done {S : Setting V} : KidsOk S false [] [] [] := by
  intro c acc text elems attrs h hf es hv j hj vs hlen hfr hsl
  refine ⟨vs, rfl, rfl, fun _ _ => rfl, ?_⟩
  intro q
  rfl

theorem kids_blank {S : Setting V} {seen : Bool} {els : List XElem} {s : Str} {kids : List XNode} {out : List (XElem × XNode)}
    (rest : KidsOk S seen els kids out) : KidsOk S seen els (.text s :: kids) out := by
  intro c acc text elems attrs h hf es hv j hj vs hlen hfr hsl
  rw [Program.decodeKids]
  exact rest c acc text elems attrs h hf es hv j hj vs hlen hfr hsl

/-! ### A whole element -/

theorem allText_kids (p : Program V) (n : Nat) (es : List Entry) (vs : List (GoVal V)) : ∀ kids, AllText kids → p.decodeKids n es vs kids = some vs := by
  intro kids
  induction kids with
  | nil => intro _; rfl
  | cons k kids ih =>
    intro h
    obtain ⟨s, rfl⟩ := h k (List.mem_cons_self ..)
    rw [Program.decodeKids]
    exact ih fun k hk => h k (List.mem_cons_of_mem _ hk)

/-- A struct is read and written again if its fields are. -/
theorem item_struct {S : Setting V} {c : ComplexT} {acc : Acc} {text elems attrs : List Slot} (h : Slots S c acc text elems attrs) (hf : S.Fine c acc)
    {name : XName} {xs : List Attr} {kids nodes : List XNode} (hc : S.AttrsConform c xs)
    (hkids : ∀ es, View (text ++ elems ++ attrs) es → ∀ vs : List (GoVal V), vs.length = (text ++ elems ++ attrs).length →
      (∀ (i : Nat) s, i < text.length + elems.length → (text ++ elems ++ attrs)[i]? = some s → ∃ w, vs[i]? = some w ∧ Fresh S s w) →
      ∃ vs', ((S.prog.decodeKids S.fuel es vs kids).bind fun vs => S.prog.readData es (textIn kids) vs) = some vs' ∧
        (∀ i, text.length + elems.length ≤ i → vs'[i]? = vs[i]?) ∧
        lates (fun b => !b) (outAt S.prog (text ++ elems ++ attrs) vs') (text ++ elems ++ attrs) 0 ++
          lates (fun b => b) (outAt S.prog (text ++ elems ++ attrs) vs') (text ++ elems ++ attrs) 0 = nodes) :
    Item S (.struct (publicName S.env S.cfg c.name) acc.fields) (.elem name xs kids) (.elem name (S.arranged c xs) nodes) := by
  obtain ⟨es, hes, hv⟩ := h.reading hf
  obtain ⟨d, hw⟩ := h.writing hf
  obtain ⟨z, hz⟩ := hf.sized
  obtain ⟨vs0, rfl, hl0, hfr0⟩ := zero_struct hf h.fields hz
  obtain ⟨vs1, r1, r2, r3, r4⟩ := readAttrs_ok h hf hv xs vs0 hc.once hc.allowed hl0 fun x _ j a s _ _ hs => hfr0 _ _ hs
  obtain ⟨vs2, k1, k2, k3⟩ := hkids es hv vs1 (by rw [r2, hl0]) (fun i s hi hs => by rw [r3 i hi]; exact hfr0 i s hs)
  refine ⟨name, xs, kids, .struct vs2, rfl, ?_, ?_, nofun, fun _ _ _ => rfl⟩
  · intro ft old m hs hold
    rw [Program.decode, hs]
    have hzero : (if m = 0 then some old else S.prog.zero S.fuel (.ident (publicName S.env S.cfg c.name))) = some (.struct vs0) := by
      split
      · rename_i hm
        have := hold hm _ _ rfl
        rw [hz] at this
        exact this.symm
      · exact hz
    simp only [hes, hzero, r1, Option.bind_some]
    rw [k1]
    rfl
  · intro ft m skip hs _
    rw [Program.encode, hs]
    simp only [hw]
    rw [attrs_arranged h hc d hfr0 r4 k2, written_kids, written_lates (f := outAt S.prog (text ++ elems ++ attrs) vs2), k3]

theorem item_complex {S : Setting V} {c : ComplexT} {acc : Acc} (hf : S.Fine c acc) (hno : ∀ ty, ¬ S.TextType c ty) {name : XName} {xs : List Attr}
    {kids : List XNode} {out : List (XElem × XNode)} (hc : S.AttrsConform c xs) (inner : KidsOk S false (S.elements c) kids out) :
    Item S (.struct (publicName S.env S.cfg c.name) acc.fields) (.elem name xs kids)
      (.elem name (S.arranged c xs) ((lateLast (fun o => o.1.type) out).map (·.2))) := by
  obtain ⟨text, elems, attrs, h⟩ := hf.slots
  have ht : text = [] := by
    rcases h.text with ⟨ht, _⟩ | ⟨ty, _, hty, _⟩
    · exact ht
    · exact absurd hty (hno ty)
  refine item_struct h hf hc ?_
  intro es hv vs hlen hfr
  obtain ⟨vs', r1, r2, r3, r4⟩ := inner c acc text elems attrs h hf es hv 0 rfl vs hlen (fun i s _ h2 h3 => hfr i s h2 h3) nofun
  refine ⟨vs', ?_, fun i hi => r3 i (Or.inr hi), ?_⟩
  · rw [r1]
    simp only [Option.bind_some]
    unfold Program.readData
    rw [List.find?_eq_none.mpr]
    intro e he
    obtain ⟨s, g1, g2, _⟩ := hv.sound e he
    rw [g2]
    rcases h.cases g1 with ⟨hlt, _⟩ | ⟨_, _, _, _, his⟩ | ⟨_, _, _, _, his⟩
    · rw [ht] at hlt; simp at hlt
    · rw [his.info]; simp
    · rw [his.info]; simp
  · have key : ∀ P : Bool → Bool, lates P (outAt S.prog (text ++ elems ++ attrs) vs') (text ++ elems ++ attrs) 0 =
        (out.filter fun o => P (special o.1.type)).map (·.2) := by
      intro P
      have := r4 fun el => P (special el.type)
      rw [Bool.false_and, if_neg (by simp), List.nil_append] at this
      rw [← this, lates_append, lates_append, lates_nil P _ attrs _ (fun i hi => outAt_nil h vs' (by rw [List.length_append]; omega)), List.append_nil,
        lates_nil P _ text _ (fun i hi => by rw [ht] at hi; simp at hi), List.nil_append,
        lates_forall₂ P _ (·.type) (forall₂_imp (fun _ _ his => his.late) h.elems)]
      simp
    rw [key, key, ← List.map_append]
    rfl

theorem item_text {S : Setting V} {c : ComplexT} {acc : Acc} (hf : S.Fine c acc) {ty : Ty} (hty : S.TextType c ty) {t : GoExpr} (htext : S.TextAs ty t)
    (hsingle : S.Single ty) (hels : S.elements c = []) {name : XName} {xs : List Attr} {kids : List XNode} (hc : S.AttrsConform c xs)
    (hall : AllText kids) (hcan : S.Canonical t (textIn kids)) :
    Item S (.struct (publicName S.env S.cfg c.name) acc.fields) (.elem name xs kids) (.elem name (S.arranged c xs) (textKids (textIn kids))) := by
  obtain ⟨text, elems, attrs, h⟩ := hf.slots
  have hel : elems = [] := by
    have := h.elems
    rw [hels] at this
    cases this
    rfl
  obtain ⟨s, hs, his⟩ : ∃ s : Slot, text = [s] ∧ s.Is S ty false ⟨.chardata, ⟨[], s.field.name⟩, false⟩ := by
    rcases h.text with ⟨_, hno⟩ | ⟨ty', s, hty', hs, his⟩
    · exact absurd hty (hno ty)
    · obtain ⟨_, _, b, hb, hfrom⟩ := hty
      obtain ⟨_, _, b', hb', hfrom'⟩ := hty'
      rw [hb] at hb'
      cases hb'
      rw [hfrom.unique hfrom']
      exact ⟨s, hs, his⟩
  obtain ⟨m, hm, _, hm0⟩ := his.shape (Or.inl ⟨t, htext, rfl⟩) nofun
  have hmz : m = 0 := by
    cases hsp : special ty with
    | true => exact hm0 hsp
    | false =>
      obtain ⟨e, he, hte⟩ := his.type
      have hl : s.late = false := by rw [his.late, hsp]
      obtain ⟨_, h0⟩ := hsingle hsp e he
      rw [Slot.type_plain hl, hte, if_neg (by simp), h0.shape] at hm
      cases hm
      rfl
  subst hmz
  obtain ⟨w, hw1, hw2⟩ := hcan
  have hslot : (text ++ elems ++ attrs)[0]? = some s := by rw [hs]; rfl
  refine item_struct h hf hc ?_
  intro es hv vs hlen hfr
  obtain ⟨old, hold, _⟩ := hfr 0 s (by rw [hs]; simp) hslot
  refine ⟨vs.set 0 (.leaf w), ?_, ?_, ?_⟩
  · rw [allText_kids _ _ _ _ _ hall]
    simp only [Option.bind_some]
    unfold Program.readData
    cases hfd : es.find? (fun e => decide (e.info.mode = .chardata)) with
    | none =>
      exfalso
      obtain ⟨e, he, hi⟩ := hv.complete 0 s hslot
      have := List.find?_eq_none.mp hfd e he
      obtain ⟨s', g1, g2, _⟩ := hv.sound e he
      rw [hi, hslot] at g1
      cases g1
      rw [g2, his.info] at this
      simp at this
    | some e =>
      have hm' := List.mem_of_find?_eq_some hfd
      have hmode : e.info.mode = .chardata := by simpa using List.find?_some hfd
      obtain ⟨s', g1, g2, g3⟩ := hv.sound e hm'
      rw [g2] at hmode
      have hi : e.idx = 0 := by
        rcases h.cases g1 with ⟨hlt, _⟩ | ⟨_, _, _, _, his'⟩ | ⟨_, _, _, _, his'⟩
        · rw [hs] at hlt; simpa using hlt
        · rw [his'.info] at hmode; cases hmode
        · rw [his'.info] at hmode; cases hmode
      rw [hi, hslot] at g1
      cases g1
      simp only [hi, hold, g3, hm, if_true, Program.readText, hw1, Option.bind_some, store, Option.map_some]
  · intro i hi
    rw [List.getElem?_set_ne]
    rw [hs] at hi
    simp at hi
    omega
  · have hout : outAt S.prog (text ++ elems ++ attrs) (vs.set 0 (.leaf w)) 0 = textKids (textIn kids) := by
      unfold outAt
      rw [hslot, List.getElem?_set_self (List.getElem?_eq_some_iff.mp hold).1]
      simp only [his.info, GoVal.leaves, textType_of hm, hw2, Option.map_some, Option.getD_some]
    have key : ∀ P : Bool → Bool, lates P (outAt S.prog (text ++ elems ++ attrs) (vs.set 0 (.leaf w))) (text ++ elems ++ attrs) 0 =
        if P s.late then textKids (textIn kids) else [] := by
      intro P
      rw [lates_append, lates_nil P _ attrs _ (fun i hi => outAt_nil h _ (by rw [List.length_append]; omega)), List.append_nil, hel, List.append_nil]
      rw [hel] at hout
      simp only [List.append_nil] at hout ⊢
      rw [hs] at hout ⊢
      unfold lates
      cases hP : P s.late with
      | true => simp [List.zipIdx_cons, hP]; exact hout
      | false => simp [List.zipIdx_cons, hP]
    rw [key, key]
    cases s.late <;> simp

/-! ### Documents -/

theorem kept_item {S : Setting V} {ty : Ty} {d d' : XNode} (h : S.Kept ty d d') : ∃ B, S.HasBase ty B ∧ Item S B d d' :=
  Setting.Kept.rec (motive_1 := fun ty d d' _ => ∃ B, S.HasBase ty B ∧ Item S B d d') (motive_2 := fun seen els kids out _ => KidsOk S seen els kids out)
    (fun type _ canonical same => by
      rw [textOf_eq] at canonical same
      rw [same.eq]
      exact ⟨_, Or.inl ⟨_, type, rfl⟩, item_simple canonical⟩)
    (fun found fine content type single elements conform all canonical same => by
      rw [textOf_eq] at canonical same
      rw [same.eq]
      exact ⟨_, Or.inr ⟨_, _, _, rfl, found, fine, rfl⟩, item_text fine content type single elements conform all canonical⟩)
    (fun found fine content conform _ inner => ⟨_, Or.inr ⟨_, _, _, rfl, found, fine, rfl⟩, item_complex fine content conform inner⟩)
    kids_done
    (fun _ _ rest => kids_blank rest)
    (fun absent _ rest => kids_next absent rest)
    (fun again full _ _ kept rest => kept.elim fun _ h => kids_kid again (by simpa only [textOf_eq] using full) h.1 h.2 rest)
    h

end GoXml.Values
