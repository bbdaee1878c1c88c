import Verif.Proofs.XsdgenKept
set_option autoImplicit false

/-! Lemmas for the theorems about reading of documents that are not as expected: unknown content and other orders. -/

namespace GoXml.Values
open Xsd Xsdgen

variable {V : Type}

theorem textIn_filter (p : XNode → Bool) (h : ∀ s, p (.text s) = true) : ∀ kids : List XNode, textIn (kids.filter p) = textIn kids := by
  intro kids
  induction kids with
  | nil => rfl
  | cons k ks ih =>
    cases k with
    | text s => rw [List.filter_cons_of_pos (h s)]; simp only [textIn, ih]
    | elem n as ks' =>
      simp only [List.filter_cons]
      split <;> simp only [textIn, ih]

theorem decodeKids_filter (p : Program V) (n : Nat) (es : List Entry) (known : XNode → Bool)
    (h : ∀ name attrs kids, known (.elem name attrs kids) = false → entryFor es name = none) (ht : ∀ s, known (.text s) = true) :
    ∀ (kids : List XNode) (vs : List (GoVal V)), p.decodeKids n es vs (kids.filter known) = p.decodeKids n es vs kids := by
  intro kids
  induction kids with
  | nil => intro vs; rfl
  | cons k ks ih =>
    intro vs
    cases k with
    | text s => rw [List.filter_cons_of_pos (ht s)]; simp only [Program.decodeKids, ih]
    | elem name attrs inner =>
      by_cases hk : known (.elem name attrs inner) = true
      · rw [List.filter_cons_of_pos hk]
        simp only [Program.decodeKids, ih]
      · rw [List.filter_cons_of_neg hk, ih]
        simp only [Program.decodeKids, h name attrs inner (by simpa using hk)]

theorem readAttr_none (p : Program V) (a : Attr) : ∀ (es : List Entry) (vs : List (GoVal V)),
    (∀ e ∈ es, e.info.mode = .attr → nameMatches e.info.name a.name = false) → p.readAttr a es vs = some vs := by
  intro es
  induction es with
  | nil => intro vs _; rfl
  | cons e es ih =>
    intro vs h
    have hn : ¬ (e.info.mode = .attr ∧ nameMatches e.info.name a.name = true) := by
      rintro ⟨h1, h2⟩
      rw [h e (List.mem_cons_self ..) h1] at h2
      cases h2
    rw [Program.readAttr, if_neg hn]
    exact ih vs fun e' he' => h e' (List.mem_cons_of_mem _ he')

theorem readAttrs_filter (p : Program V) (es : List Entry) (known : Attr → Bool)
    (h : ∀ a, known a = false → ∀ e ∈ es, e.info.mode = .attr → nameMatches e.info.name a.name = false) :
    ∀ (as : List Attr) (vs : List (GoVal V)), p.readAttrs es (as.filter known) vs = p.readAttrs es as vs := by
  intro as
  induction as with
  | nil => intro vs; rfl
  | cons a as ih =>
    intro vs
    have ih' : p.readAttrs es (as.filter known) = p.readAttrs es as := funext ih
    by_cases hk : known a = true
    · rw [List.filter_cons_of_pos hk]
      simp only [Program.readAttrs, ih']
    · rw [List.filter_cons_of_neg hk, ih']
      simp only [Program.readAttrs, readAttr_none p a es vs (h a (by simpa using hk)), Option.bind_some]

/-- The entries of a type that is fine are for what is declared. -/
theorem view_names {S : Setting V} {c : ComplexT} {acc : Acc} {text elems attrs : List Slot} (h : Slots S c acc text elems attrs)
    {es : List Entry} (hv : View (text ++ elems ++ attrs) es) {e : Entry} (he : e ∈ es) :
    e.info.mode = .chardata ∨ (e.info.mode = .element ∧ ∃ el ∈ S.elements c, e.info.name = el.name) ∨
    (e.info.mode = .attr ∧ ∃ a ∈ S.attributes c, e.info.name = attrName a) := by
  obtain ⟨s, hs, hi, _⟩ := hv.sound e he
  rw [hi]
  rcases h.cases hs with ⟨_, hm, _⟩ | ⟨j, el, _, hj, his⟩ | ⟨j, a, _, hj, his⟩
  · exact .inl hm
  · refine .inr (.inl ?_)
    rw [his.info]
    exact ⟨rfl, el, List.mem_of_getElem? hj, rfl⟩
  · refine .inr (.inr ?_)
    rw [his.info]
    exact ⟨rfl, a, List.mem_of_getElem? hj, rfl⟩

theorem shape_fine {S : Setting V} {c : ComplexT} {acc : Acc} (hf : S.Fine c acc) :
    shape S.prog.decls (.ident (publicName S.env S.cfg c.name)) = (0, .struct (publicName S.env S.cfg c.name) acc.fields) := by
  obtain ⟨sp, h1, h2⟩ := hf.declared
  simp only [shape, h1, h2]

theorem decode_fine {S : Setting V} {c : ComplexT} {acc : Acc} (hf : S.Fine c acc) {es : List Entry}
    (he : S.prog.reading (publicName S.env S.cfg c.name) acc.fields = some es) (n : Nat) (old : GoVal V) (name : XName) (attrs : List Attr)
    (kids : List XNode) :
    S.prog.decode n (.ident (publicName S.env S.cfg c.name)) old (.elem name attrs kids) = match old with
      | .struct vs => ((S.prog.readAttrs es attrs vs).bind fun vs => (S.prog.decodeKids n es vs kids).bind fun vs =>
          S.prog.readData es (textIn kids) vs).map .struct
      | _ => none := by
  rw [Program.decode, shape_fine hf]
  simp only [he, if_true]
  cases old with
  | struct vs =>
    dsimp only
    generalize (S.prog.readAttrs es attrs vs).bind _ = r
    cases r <;> rfl
  | _ => rfl

theorem entryFor_none {es : List Entry} {name : XName} (h1 : ∀ e ∈ es, e.info.mode ≠ .any)
    (h2 : ∀ e ∈ es, e.info.mode = .element → nameMatches e.info.name name = false) : entryFor es name = none := by
  unfold entryFor
  have : es.find? (fun e => (decide (e.info.mode = .element) || decide (e.info.mode = .any)) && nameMatches e.info.name name) = none := by
    rw [List.find?_eq_none]
    intro e he hp
    simp only [Bool.and_eq_true, Bool.or_eq_true, decide_eq_true_eq] at hp
    rcases hp.1 with hm | hm
    · rw [h2 e he hm] at hp; exact absurd hp.2 (by decide)
    · exact h1 e he hm
  rw [this]
  simp only
  rw [List.find?_eq_none]
  intro e he hp
  exact h1 e he (of_decide_eq_true hp)

/-! ### Order -/

theorem decodeKids_idx (p : Program V) (n : Nat) (es : List Entry) {a b : XNode} {ks : List XNode} {vs : List (GoVal V)}
    (h : ∀ na aa ka nb ab kb, a = .elem na aa ka → b = .elem nb ab kb → ∀ ea eb, entryFor es na = some ea → entryFor es nb = some eb → ea.idx ≠ eb.idx) :
    p.decodeKids n es vs (a :: b :: ks) = p.decodeKids n es vs (b :: a :: ks) := by
  cases a with
  | text s => cases b with
    | text t => simp only [Program.decodeKids]
    | elem nb ab kb => simp only [Program.decodeKids]
  | elem na aa ka =>
    cases b with
    | text t => simp only [Program.decodeKids]
    | elem nb ab kb =>
      simp only [Program.decodeKids]
      cases ha : entryFor es na with
      | none => rfl
      | some ea =>
        cases hb : entryFor es nb with
        | none => rfl
        | some eb =>
          have hne := h _ _ _ _ _ _ rfl rfl ea eb ha hb
          simp only [List.getElem?_set_ne hne, List.getElem?_set_ne (Ne.symm hne)]
          cases vs[ea.idx]? with
          | none =>
            cases vs[eb.idx]? with
            | none => rfl
            | some ob => dsimp only; cases p.decode n eb.type ob (.elem nb ab kb) <;> rfl
          | some oa =>
            dsimp only
            cases vs[eb.idx]? with
            | none => dsimp only; cases p.decode n ea.type oa (.elem na aa ka) <;> rfl
            | some ob =>
              dsimp only
              cases p.decode n ea.type oa (.elem na aa ka) with
              | none => dsimp only; cases p.decode n eb.type ob (.elem nb ab kb) <;> rfl
              | some va =>
                dsimp only
                cases p.decode n eb.type ob (.elem nb ab kb) with
                | none => rfl
                | some vb => dsimp only; rw [List.set_comm _ _ hne]

theorem decodeKids_cons (p : Program V) (n : Nat) (es : List Entry) (k : XNode) {ks js : List XNode}
    (h : ∀ vs, p.decodeKids n es vs ks = p.decodeKids n es vs js) (vs : List (GoVal V)) :
    p.decodeKids n es vs (k :: ks) = p.decodeKids n es vs (k :: js) := by
  cases k with
  | text s => simp only [Program.decodeKids, h]
  | elem nb ab kb => simp only [Program.decodeKids, h]

theorem readAttr_set (p : Program V) (a : Attr) : ∀ (es : List Entry) (vs : List (GoVal V)) (i : Nat) (w : GoVal V),
    (∀ e ∈ es, e.info.mode = .attr → nameMatches e.info.name a.name = true → e.idx ≠ i) →
    p.readAttr a es (vs.set i w) = (p.readAttr a es vs).map (·.set i w) ∧ ∀ vs', p.readAttr a es vs = some vs' → vs'[i]? = vs[i]? := by
  intro es
  induction es with
  | nil => intro vs i w _; exact ⟨rfl, fun vs' h => by cases h; rfl⟩
  | cons e es ih =>
    intro vs i w h
    have h' : ∀ e ∈ es, e.info.mode = .attr → nameMatches e.info.name a.name = true → e.idx ≠ i := fun e he => h e (List.mem_cons_of_mem _ he)
    by_cases hm : e.info.mode = .attr ∧ nameMatches e.info.name a.name = true
    · have hne := h e (List.mem_cons_self ..) hm.1 hm.2
      simp only [Program.readAttr, if_pos hm, List.getElem?_set_ne (Ne.symm hne)]
      cases vs[e.idx]? with
      | none => exact ⟨rfl, nofun⟩
      | some old =>
        dsimp only
        cases p.readText e.type old a.value with
        | none => exact ⟨rfl, nofun⟩
        | some v =>
          simp only [Option.bind_some]
          rw [List.set_comm _ _ (Ne.symm hne)]
          obtain ⟨g1, g2⟩ := ih (vs.set e.idx v) i w h'
          exact ⟨g1, fun vs' hv => by rw [g2 vs' hv, List.getElem?_set_ne hne]⟩
    · simp only [Program.readAttr, if_neg hm]
      exact ih vs i w h'

theorem readAttr_comm (p : Program V) (a b : Attr) (es : List Entry) : ∀ (fs : List Entry) (vs : List (GoVal V)),
    (∀ e ∈ es, ∀ f ∈ fs, e.info.mode = .attr → nameMatches e.info.name a.name = true → f.info.mode = .attr → nameMatches f.info.name b.name = true →
      e.idx ≠ f.idx) → ((p.readAttr a es vs).bind fun vs => p.readAttr b fs vs) = (p.readAttr b fs vs).bind fun vs => p.readAttr a es vs := by
  intro fs
  induction fs with
  | nil => intro vs _; simp only [Program.readAttr, Option.bind_some]; cases p.readAttr a es vs <;> rfl
  | cons f fs ih =>
    intro vs h
    have h' := fun vs => ih vs fun e he f hf => h e he f (List.mem_cons_of_mem _ hf)
    by_cases hm : f.info.mode = .attr ∧ nameMatches f.info.name b.name = true
    · have hd : ∀ e ∈ es, e.info.mode = .attr → nameMatches e.info.name a.name = true → e.idx ≠ f.idx :=
        fun e he h1 h2 => h e he f (List.mem_cons_self ..) h1 h2 hm.1 hm.2
      simp only [Program.readAttr, if_pos hm]
      cases hv : vs[f.idx]? with
      | none =>
        dsimp only
        cases hr : p.readAttr a es vs with
        | none => rfl
        | some vs' =>
          have := (readAttr_set p a es vs f.idx (.slice []) hd).2 vs' hr
          simp only [Option.bind_some, this, hv, Option.bind_none]
      | some old =>
        dsimp only
        cases ht : p.readText f.type old b.value with
        | none =>
          cases hr : p.readAttr a es vs with
          | none => rfl
          | some vs' =>
            have := (readAttr_set p a es vs f.idx (.slice []) hd).2 vs' hr
            simp only [Option.bind_some, this, hv, ht, Option.bind_none]
        | some v =>
          simp only [Option.bind_some]
          rw [← h', (readAttr_set p a es vs f.idx v hd).1]
          cases hr : p.readAttr a es vs with
          | none => rfl
          | some vs' =>
            have := (readAttr_set p a es vs f.idx (.slice []) hd).2 vs' hr
            simp only [Option.bind_some, this, hv, ht, Option.map_some]
    · simp only [Program.readAttr, if_neg hm]
      exact h' vs

theorem once_idx {es : List Entry} (once : (es.map (·.idx)).Nodup) {e f : Entry} (he : e ∈ es) (hf : f ∈ es) (h : e.idx = f.idx) : e = f := by
  obtain ⟨i, hi⟩ := List.getElem?_of_mem he
  obtain ⟨j, hj⟩ := List.getElem?_of_mem hf
  have e1 : (es.map (·.idx))[i]? = some e.idx := by simp [hi]
  have e2 : (es.map (·.idx))[j]? = some e.idx := by simp [hj, h]
  rcases Nat.lt_trichotomy i j with hlt | heq | hgt
  · exact absurd (e1.trans e2.symm) (List.nodup_iff_getElem?_ne_getElem?.mp once i j hlt (List.getElem?_eq_some_iff.mp e2).1)
  · subst heq
    rw [hi] at hj
    cases hj
    rfl
  · exact absurd (e2.trans e1.symm) (List.nodup_iff_getElem?_ne_getElem?.mp once j i hgt (List.getElem?_eq_some_iff.mp e1).1)

theorem readAttrs_perm (p : Program V) (es : List Entry) (once : (es.map (·.idx)).Nodup) {as bs : List Attr} (hp : as.Perm bs)
    (hd : (as.map (·.name.loc)).Nodup) : ∀ vs, p.readAttrs es as vs = p.readAttrs es bs vs := by
  induction hp with
  | nil => exact fun _ => rfl
  | cons a _ ih =>
    intro vs
    have := funext (ih (List.nodup_cons.mp (by simpa using hd)).2)
    simp only [Program.readAttrs, this]
  | swap a b l =>
    intro vs
    simp only [List.map_cons, List.nodup_cons, List.mem_cons, not_or] at hd
    have := readAttr_comm p b a es es vs fun e he f hf h1 h2 h3 h4 hidx => by
      have := once_idx once he hf hidx
      subst this
      unfold nameMatches at h2 h4
      simp only [Bool.and_eq_true, decide_eq_true_eq] at h2 h4
      exact hd.1.1 (h2.1.symm.trans h4.1)
    simp only [Program.readAttrs]
    rw [← Option.bind_assoc, ← Option.bind_assoc, this]
  | trans h1 _ ih1 ih2 =>
    intro vs
    rw [ih1 hd, ih2 ((h1.map _).nodup_iff.mp hd)]

theorem entryFor_mem {es : List Entry} {n : XName} {e : Entry} (h1 : ∀ e ∈ es, e.info.mode ≠ .any) (h : entryFor es n = some e) :
    e ∈ es ∧ e.info.mode = .element ∧ nameMatches e.info.name n = true := by
  unfold entryFor at h
  split at h
  · rename_i e' he
    cases h
    have hm := List.mem_of_find?_eq_some he
    have hp := List.find?_some he
    simp only [Bool.and_eq_true, Bool.or_eq_true, decide_eq_true_eq] at hp
    exact ⟨hm, hp.1.resolve_right (h1 _ hm), hp.2⟩
  · have hp := List.find?_some h
    exact absurd (of_decide_eq_true hp) (h1 _ (List.mem_of_find?_eq_some h))

theorem reordered_text {ks js : List XNode} (h : Reordered ks js) : textIn ks = textIn js := by
  induction h with
  | refl => rfl
  | text s n as ks rest => simp [textIn]
  | swap n m as bs ks js rest _ => simp [textIn]
  | cons k _ ih => cases k <;> simp [textIn, ih]
  | symm _ ih => exact ih.symm
  | trans _ _ ih1 ih2 => exact ih1.trans ih2

theorem decodeKids_reordered (p : Program V) (n : Nat) (es : List Entry) (hany : ∀ e ∈ es, e.info.mode ≠ .any) (once : (es.map (·.idx)).Nodup)
    {ks js : List XNode} (h : Reordered ks js) : ∀ vs, p.decodeKids n es vs ks = p.decodeKids n es vs js := by
  induction h with
  | refl => exact fun _ => rfl
  | text s m as ks rest => exact fun vs => decodeKids_idx p n es fun _ _ _ _ _ _ h => by cases h
  | swap a b as bs ks js rest hne =>
    intro vs
    refine decodeKids_idx p n es fun na aa ka nb ab kb h1 h2 ea eb h3 h4 hidx => ?_
    cases h1
    cases h2
    obtain ⟨m1, _, m2⟩ := entryFor_mem hany h3
    obtain ⟨k1, _, k2⟩ := entryFor_mem hany h4
    have := once_idx once m1 k1 hidx
    subst this
    unfold nameMatches at m2 k2
    simp only [Bool.and_eq_true, decide_eq_true_eq] at m2 k2
    exact hne (m2.1.symm.trans k2.1)
  | cons k _ ih => exact decodeKids_cons p n es k ih
  | symm _ ih => exact fun vs => (ih vs).symm
  | trans _ _ ih1 ih2 => exact fun vs => (ih1 vs).trans (ih2 vs)

/-! ### What is absent -/

theorem readAttrs_keep (p : Program V) (es : List Entry) (i : Nat) : ∀ (as : List Attr) (vs vs' : List (GoVal V)),
    (∀ a ∈ as, ∀ e ∈ es, e.info.mode = .attr → nameMatches e.info.name a.name = true → e.idx ≠ i) → p.readAttrs es as vs = some vs' →
    vs'[i]? = vs[i]? := by
  intro as
  induction as with
  | nil => intro vs vs' _ h; cases h; rfl
  | cons a as ih =>
    intro vs vs' hd h
    simp only [Program.readAttrs] at h
    obtain ⟨w, h1, h2⟩ := Option.bind_eq_some_iff.mp h
    rw [ih w vs' (fun a ha => hd a (List.mem_cons_of_mem _ ha)) h2]
    exact (readAttr_set p a es vs i (.slice []) (hd a (List.mem_cons_self ..))).2 w h1

theorem decodeKids_keep (p : Program V) (n : Nat) (es : List Entry) (i : Nat) : ∀ (ks : List XNode) (vs vs' : List (GoVal V)),
    (∀ nm as js, .elem nm as js ∈ ks → ∀ e, entryFor es nm = some e → e.idx ≠ i) → p.decodeKids n es vs ks = some vs' → vs'[i]? = vs[i]? := by
  intro ks
  induction ks with
  | nil => intro vs vs' _ h; simp only [Program.decodeKids] at h; cases h; rfl
  | cons k ks ih =>
    intro vs vs' hd h
    have hd' : ∀ nm as js, .elem nm as js ∈ ks → ∀ e, entryFor es nm = some e → e.idx ≠ i := fun nm as js hm => hd nm as js (List.mem_cons_of_mem _ hm)
    cases k with
    | text s => simp only [Program.decodeKids] at h; exact ih vs vs' hd' h
    | elem nm as js =>
      simp only [Program.decodeKids] at h
      split at h
      · exact ih vs vs' hd' h
      · rename_i e he
        have hne := hd nm as js (List.mem_cons_self ..) e he
        split at h
        · cases h
        · split at h
          · cases h
          · rw [ih _ vs' hd' h, List.getElem?_set_ne hne]

theorem readData_keep (p : Program V) (es : List Entry) (s : Str) (i : Nat) (vs vs' : List (GoVal V))
    (hd : ∀ e ∈ es, e.info.mode = .chardata → e.idx ≠ i) (h : p.readData es s vs = some vs') : vs'[i]? = vs[i]? := by
  unfold Program.readData at h
  split at h
  · cases h; rfl
  · rename_i e he
    have hp := List.find?_some he
    have hne := hd e (List.mem_of_find?_eq_some he) (of_decide_eq_true hp)
    split at h
    · split at h
      · obtain ⟨v, _, rfl⟩ := Option.map_eq_some_iff.mp h
        exact List.getElem?_set_ne hne
      · cases h
    · cases h

theorem keep_fine {S : Setting V} {c : ComplexT} {acc : Acc} (hf : S.Fine c acc) {es : List Entry}
    (he : S.prog.reading (publicName S.env S.cfg c.name) acc.fields = some es) {n : Nat} {vs : List (GoVal V)} {v : GoVal V} {name : XName}
    {attrs : List Attr} {kids : List XNode} {i : Nat}
    (h1 : ∀ a ∈ attrs, ∀ e ∈ es, e.info.mode = .attr → nameMatches e.info.name a.name = true → e.idx ≠ i)
    (h2 : ∀ nm as js, .elem nm as js ∈ kids → ∀ e, entryFor es nm = some e → e.idx ≠ i)
    (h3 : ∀ e ∈ es, e.info.mode = .chardata → e.idx ≠ i)
    (h : S.prog.decode n (.ident (publicName S.env S.cfg c.name)) (.struct vs) (.elem name attrs kids) = some v) :
    ∃ vs', v = .struct vs' ∧ vs'[i]? = vs[i]? := by
  rw [decode_fine hf he] at h
  obtain ⟨vs', hv, rfl⟩ := Option.map_eq_some_iff.mp h
  obtain ⟨w1, g1, hv⟩ := Option.bind_eq_some_iff.mp hv
  obtain ⟨w2, g2, hv⟩ := Option.bind_eq_some_iff.mp hv
  refine ⟨vs', rfl, ?_⟩
  rw [readData_keep _ _ _ _ _ _ h3 hv, decodeKids_keep _ _ _ _ _ _ _ h2 g2, readAttrs_keep _ _ _ _ _ _ h1 g1]

end GoXml.Values
