import Verif.Proofs.XsdgenTags
set_option autoImplicit false

/-! Lemmas for the theorems about values of generated types: the fields of a generated struct as encoding/xml sees them. -/

namespace GoXml.Values
open Xsd Xsdgen

/-- A field of a generated struct, its override if it has one, and the meaning of its tag. -/
structure Slot where
  field : Field
  over : Option Override
  info : Info

/-- The field is written by `MarshalXML` with another type. -/
def Slot.late (s : Slot) : Bool := s.over.any fun o => nonTrivialBuiltin (some o.type)

/-- The type that the field is read and written with. -/
def Slot.type (s : Slot) : GoExpr := match s.over with
  | some o => if nonTrivialBuiltin (some o.type) then .ident o.toType else s.field.type
  | none => s.field.type

structure Slot.Ok (exported : Str → Bool) (s : Slot) : Prop where
  tag : tagInfo s.field.name s.field.tag = some s.info
  over : ∀ o, s.over = some o → o.fieldName = s.field.name ∧ o.tag = s.field.tag ∧ exprText s.field.type = o.fromType ∧ o.fieldName ≠ b!"T"
  visible : exported s.field.name = true ∧ s.field.name ≠ b!"XMLName"

/-- Two fields for the same thing. -/
def Slot.Same (a b : Slot) : Prop := a.info.mode = b.info.mode ∧ a.info.name = b.info.name

def entry (d : Nat) (q : Slot × Nat) : Entry := ⟨q.2, q.1.field.type, q.1.info, d, false⟩
def overEntry (q : Slot × Nat) : Entry := ⟨q.2, q.1.type, q.1.info, 1, true⟩

theorem entries_slots {exported : Str → Bool} : ∀ (slots : List Slot) (i : Nat), (∀ s ∈ slots, s.Ok exported) →
    entries exported i (slots.map (·.field)) = some ((slots.zipIdx i).map (entry 1)) := by
  intro slots
  induction slots with
  | nil => intro i _; rfl
  | cons s slots ih =>
    intro i h
    have hs := h s (List.mem_cons_self ..)
    simp only [List.map_cons, entries, if_neg hs.visible.2, hs.visible.1, if_true, hs.tag,
      ih (i + 1) (fun x hx => h x (List.mem_cons_of_mem _ hx)), List.zipIdx_cons]
    rfl

theorem zip_same {slots : List Slot} (h : slots.Pairwise fun a b => ¬ a.Same b) {q r : Slot × Nat} (hq : q ∈ slots.zipIdx) (hr : r ∈ slots.zipIdx)
    (hs : q.1.Same r.1) : q = r := by
  have h1 := List.mem_zipIdx_iff_getElem?.mp hq
  have h2 := List.mem_zipIdx_iff_getElem?.mp hr
  rw [List.pairwise_iff_getElem] at h
  obtain ⟨l1, e1⟩ := List.getElem?_eq_some_iff.mp h1
  obtain ⟨l2, e2⟩ := List.getElem?_eq_some_iff.mp h2
  obtain ⟨a, i⟩ := q
  obtain ⟨b, j⟩ := r
  simp only at *
  rcases Nat.lt_trichotomy i j with hlt | heq | hgt
  · exact absurd hs (by have := h i j l1 l2 hlt; rwa [e1, e2] at this)
  · subst heq
    rw [h1] at h2
    cases h2
    rfl
  · have := h j i l2 l1 hgt
    rw [e1, e2] at this
    exact absurd ⟨hs.1.symm, hs.2.symm⟩ this

theorem zip_apart {slots : List Slot} (h : slots.Pairwise fun a b => ¬ a.Same b) (f : Slot × Nat → Entry) (hf : ∀ q, (f q).info = q.1.info)
    {l : List (Slot × Nat)} (hl : l.Sublist slots.zipIdx) : (l.map f).Pairwise fun a b => a.conflicts b = false := by
  rw [List.pairwise_map]
  have hp : slots.zipIdx.Pairwise fun a b => ¬ a.1.Same b.1 := by
    have : (slots.zipIdx.map Prod.fst).Pairwise fun a b => ¬ a.Same b := by rwa [List.zipIdx_map_fst]
    exact List.pairwise_map.mp this
  refine (hp.sublist hl).imp ?_
  intro a b hab
  simp only [Entry.conflicts, hf, decide_eq_false_iff_not]
  exact hab

theorem layout_slots {exported : Str → Bool} {slots : List Slot} (hok : ∀ s ∈ slots, s.Ok exported) (h : slots.Pairwise fun a b => ¬ a.Same b) :
    layout exported (slots.map (·.field)) = some (slots.zipIdx.map (entry 1)) := by
  unfold layout
  rw [entries_slots slots 0 hok, Option.bind_some, addFields_apart _ _ (by simpa using zip_apart h (entry 1) (fun _ => rfl) (List.Sublist.refl _))]
  rfl

theorem find_field {slots : List Slot} {s : Slot} {i : Nat} (h : (slots.map (·.field.name)).Nodup) (hs : slots[i]? = some s) :
    (slots.map (·.field)).findIdx? (fun f => decide (f.name = s.field.name)) = some i := by
  obtain ⟨l1, e1⟩ := List.getElem?_eq_some_iff.mp hs
  rw [List.findIdx?_eq_some_iff_getElem]
  refine ⟨by simpa using l1, by simp [e1], ?_⟩
  intro j hj
  simp only [List.getElem_map, decide_eq_true_eq]
  intro he
  have hj' : j < slots.length := by omega
  have h2 := (List.pairwise_iff_getElem.mp h) j i (by simpa using hj') (by simpa using l1) hj
  simp only [List.getElem_map, e1] at h2
  exact h2 he

theorem override_slot {exported : Str → Bool} {slots : List Slot} {s : Slot} {i : Nat} {o : Override} (h : (slots.map (·.field.name)).Nodup)
    (hs : slots[i]? = some s) (hok : s.Ok exported) (ho : s.over = some o) :
    overrideEntry (slots.map (·.field)) o = some (overEntry (s, i)) := by
  obtain ⟨h1, h2, h3, h4⟩ := hok.over o ho
  have hf := find_field h hs
  unfold overrideEntry
  rw [h1, h2, hf, hok.tag]
  simp only [List.getElem?_map, hs, Option.map_some]
  rw [if_pos ⟨h3, by rw [← h1]; exact h4⟩]
  simp [overEntry, Slot.type, ho]

theorem overrides_slots {exported : Str → Bool} {slots : List Slot} (h : (slots.map (·.field.name)).Nodup) (hok : ∀ s ∈ slots, s.Ok exported) :
    ∀ (M : List (Slot × Nat)), (∀ q ∈ M, slots[q.2]? = some q.1 ∧ q.1.over.isSome = true) →
    (M.filterMap (·.1.over)).mapM (overrideEntry (slots.map (·.field))) = some (M.map overEntry) := by
  intro M
  induction M with
  | nil => intro _; rfl
  | cons q M ih =>
    intro hM
    obtain ⟨h1, h2⟩ := hM q (List.mem_cons_self ..)
    obtain ⟨o, ho⟩ := Option.isSome_iff_exists.mp h2
    have hq := override_slot h h1 (hok _ (List.mem_of_getElem? h1)) ho
    rw [List.filterMap_cons_some (f := fun x : Slot × Nat => x.1.over) ho, List.mapM_cons, hq, ih (fun r hr => hM r (List.mem_cons_of_mem _ hr))]
    rfl

theorem filterMap_filter_slots (P : Override → Bool) : ∀ (slots : List Slot) (i : Nat),
    (slots.filterMap (·.over)).filter P = ((slots.zipIdx i).filter fun q => q.1.over.any P).filterMap (·.1.over) := by
  intro slots
  induction slots with
  | nil => intro i; rfl
  | cons s slots ih =>
    intro i
    rw [List.zipIdx_cons]
    cases ho : s.over with
    | none => simp [ho, ih (i + 1)]
    | some o =>
      rw [List.filterMap_cons_some ho]
      by_cases hP : P o = true
      · rw [List.filter_cons_of_pos hP, List.filter_cons_of_pos (by simp [ho, hP]),
          List.filterMap_cons_some (f := fun x : Slot × Nat => x.1.over) (a := (s, i)) ho, ih (i + 1)]
      · rw [List.filter_cons_of_neg hP, List.filter_cons_of_neg (by simp [ho, hP]), ih (i + 1)]

/-- What a struct looks like to encoding/xml with the overrides that satisfy `P`. -/
theorem view_slots {exported : Str → Bool} {slots : List Slot} (P : Override → Bool) (hn : (slots.map (·.field.name)).Nodup)
    (hok : ∀ s ∈ slots, s.Ok exported) (h : slots.Pairwise fun a b => ¬ a.Same b) :
    ∃ d, (match (slots.filterMap (·.over)).filter P with
      | [] => layout exported (slots.map (·.field))
      | o :: os => overlay exported (slots.map (·.field)) (o :: os)) =
      some ((slots.zipIdx.filter fun q => !q.1.over.any P).map (entry d) ++ (slots.zipIdx.filter fun q => q.1.over.any P).map overEntry) := by
  have hfm := filterMap_filter_slots P slots 0
  have hsome : ∀ q ∈ slots.zipIdx.filter (fun q => q.1.over.any P), slots[q.2]? = some q.1 ∧ q.1.over.isSome = true := by
    intro q hq
    obtain ⟨h1, h2⟩ := List.mem_filter.mp hq
    refine ⟨List.mem_zipIdx_iff_getElem?.mp h1, ?_⟩
    cases ho : q.1.over with
    | none => rw [ho] at h2; cases h2
    | some o => rfl
  have hov := overrides_slots hn hok _ hsome
  cases hf : (slots.filterMap (·.over)).filter P with
  | nil =>
    refine ⟨1, ?_⟩
    simp only
    rw [layout_slots hok h]
    have hnil : slots.zipIdx.filter (fun q => q.1.over.any P) = [] := by
      rw [hf] at hfm
      cases hz : slots.zipIdx.filter (fun q => q.1.over.any P) with
      | nil => rfl
      | cons q M =>
        rw [hz] at hfm hsome
        obtain ⟨o, ho⟩ := Option.isSome_iff_exists.mp (hsome q (List.mem_cons_self ..)).2
        rw [List.filterMap_cons_some (f := fun x : Slot × Nat => x.1.over) ho] at hfm
        cases hfm
    rw [hnil]
    congr 1
    rw [List.map_nil, List.append_nil]
    congr 1
    symm
    rw [List.filter_eq_self]
    intro q hq
    rw [List.filter_eq_nil_iff] at hnil
    simpa using hnil q hq
  | cons o os =>
    refine ⟨2, ?_⟩
    simp only
    rw [← hf, hfm]
    unfold overlay
    rw [layout_slots hok h, hov]
    simp only [List.map_map]
    have hcomp : slots.zipIdx.map ((fun e : Entry => { e with depth := e.depth + 1 }) ∘ entry 1) = slots.zipIdx.map (entry 2) := rfl
    rw [hcomp, addFields_apart _ _ (by simpa using zip_apart h (entry 2) (fun _ => rfl) (List.Sublist.refl _)), Option.bind_some]
    have := addFields_over ((slots.zipIdx.filter fun q => q.1.over.any P).map overEntry) (slots.zipIdx.map (entry 2)) []
      (by intro a ha; obtain ⟨q, _, rfl⟩ := List.mem_map.mp ha; rfl)
      (by intro a ha; obtain ⟨q, _, rfl⟩ := List.mem_map.mp ha; rfl)
      (by simpa using zip_apart h overEntry (fun _ => rfl) List.filter_sublist)
    rw [List.append_nil] at this
    rw [List.nil_append, this]
    congr 1
    rw [List.append_nil]
    congr 1
    rw [List.filter_map]
    congr 1
    refine List.filter_congr fun q hq => ?_
    rw [Function.comp_apply]
    cases hP : q.1.over.any P with
    | true =>
      rw [Bool.not_true, List.all_eq_false]
      refine ⟨overEntry q, List.mem_map.mpr ⟨q, List.mem_filter.mpr ⟨hq, hP⟩, rfl⟩, ?_⟩
      simp [Entry.conflicts, overEntry, entry]
    | false =>
      rw [Bool.not_false, List.all_eq_true]
      intro e he
      obtain ⟨r, hr, rfl⟩ := List.mem_map.mp he
      obtain ⟨hr1, hr2⟩ := List.mem_filter.mp hr
      rw [Bool.not_eq_true']
      refine decide_eq_false ?_
      intro hs
      have := zip_same h hr1 hq hs
      rw [this, hP] at hr2
      cases hr2

/-! ### The fields of a generated struct -/

variable {V : Type}

theorem special_eq (t : Ty) : nonTrivialBuiltin (some t) = special t := by
  rw [Bool.eq_iff_iff, special_iff]
  cases t with
  | builtin b => simp [Special, special]
  | obj id => simp [Special, special]
  | link n => simp [Special, special]

structure Slot.Is (S : Setting V) (s : Slot) (ty : Ty) (plural : Bool) (info : Info) : Prop where
  tag : tagInfo s.field.name s.field.tag = some info
  info : s.info = info
  type : ∃ e, exprOf S.env S.cfg S.heap ty = .ok e ∧ s.field.type = if plural then .array e else e
  over : ∀ o, s.over = some o → o.fieldName = s.field.name ∧ o.tag = s.field.tag ∧ exprText s.field.type = o.fromType
  late : s.late = special ty
  helper : special ty = true → ∃ h, S.cfg.helperTypes.get (xmlName S.heap ty) = some h ∧ s.type = .ident h.name

theorem addOverride_slot {cfg : Config} {H : THeap} {acc acc' : Acc} {name dflt tag : Str} {type : Ty} {e : GoExpr} {hp : Spec → XName}
    (h : addOverride cfg H acc name dflt tag type e hp = .ok acc') :
    acc'.fields = acc.fields ∧ ∃ ov : Option Override, acc'.overrides = acc.overrides ++ ov.toList ∧
      (∀ o, ov = some o → o.fieldName = name ∧ o.tag = tag ∧ o.fromType = exprText e ∧ o.type = type) ∧
      (special type = true → ∃ h o, cfg.helperTypes.get (xmlName H type) = some h ∧ ov = some o ∧ o.toType = h.name) ∧
      (special type = false → dflt = [] → ov = none) := by
  unfold addOverride at h
  rw [special_eq] at h
  split at h
  · rename_i hs
    split at h
    · cases h
    · rename_i hh
      cases h
      refine ⟨rfl, some _, rfl, ?_, fun _ => ⟨_, _, hh, rfl, rfl⟩, fun h => by rw [hs] at h; cases h⟩
      intro o ho
      cases ho
      exact ⟨rfl, rfl, rfl, rfl⟩
  · rename_i hs
    split at h
    · rename_i hd
      cases h
      refine ⟨rfl, some _, rfl, ?_, fun h => absurd h hs, fun _ h => absurd h hd⟩
      intro o ho
      cases ho
      exact ⟨rfl, rfl, rfl, rfl⟩
    · cases h
      exact ⟨rfl, none, by simp, fun _ h => (nomatch h), fun h => absurd h hs, fun _ _ => rfl⟩

theorem Slot.is_of {S : Setting V} {ty : Ty} {plural : Bool} {info : Info} {f : Field} {e : GoExpr} {ov : Option Override}
    (htag : tagInfo f.name f.tag = some info) (he : exprOf S.env S.cfg S.heap ty = .ok e) (hf : f.type = if plural then .array e else e)
    (h1 : ∀ o, ov = some o → o.fieldName = f.name ∧ o.tag = f.tag ∧ o.fromType = exprText e ∧ o.type = ty)
    (h2 : special ty = true → ∃ h o, S.cfg.helperTypes.get (xmlName S.heap ty) = some h ∧ ov = some o ∧ o.toType = h.name)
    (h3 : plural = true → ov = none) : Slot.Is S ⟨f, ov, info⟩ ty plural info := by
  refine ⟨htag, rfl, ⟨e, he, hf⟩, ?_, ?_, ?_⟩
  · intro o ho
    obtain ⟨a, b, c, d⟩ := h1 o ho
    refine ⟨a, b, ?_⟩
    cases plural with
    | true => rw [h3 rfl] at ho; cases ho
    | false => rw [c]; exact congrArg exprText hf
  · cases ov with
    | none =>
      cases hs : special ty with
      | false => rfl
      | true =>
        obtain ⟨h, o, _, ho, _⟩ := h2 hs
        cases ho
    | some o =>
      simp only [Slot.late, Option.any_some, (h1 o rfl).2.2.2, special_eq]
  · intro hs
    obtain ⟨h, o, hh, ho, ht⟩ := h2 hs
    refine ⟨h, hh, ?_⟩
    subst ho
    simp only [Slot.type, (h1 o rfl).2.2.2, special_eq, hs, if_true, ht]

theorem elemStep_slot {S : Setting V} {acc acc' : Acc} {el : XElem} (hw : el.wildcard = false) (hl : PlainName el.name.loc)
    (hsp : PlainSpace el.name.space) (hp : el.plural = true → el.dflt = [] ∧ special el.type = false)
    (h : elemStep S.env S.cfg S.heap acc el = .ok acc') :
    ∃ s : Slot, acc'.fields = acc.fields ++ [s.field] ∧ acc'.overrides = acc.overrides ++ s.over.toList ∧
      s.Is S el.type el.plural ⟨.element, el.name, el.optional || el.nillable⟩ := by
  unfold elemStep at h
  obtain ⟨e, he, h⟩ := bind_ok h
  obtain ⟨h1, ov, h2, h3, h4, h5⟩ := addOverride_slot h
  refine ⟨⟨_, ov, _⟩, h1, h2, Slot.is_of ?_ he ?_ h3 h4 ?_⟩
  · simp only [hw]
    have : (if (el.nillable || el.optional) = true then b!",omitempty" else []) = optText (el.optional || el.nillable) := by
      rw [Bool.or_comm]
      rfl
    rw [this]
    exact elem_tag hl hsp
  · simp [hw]
  · intro hpl
    exact h5 (hp hpl).2 (hp hpl).1

theorem attrStep_slot {S : Setting V} {acc acc' : Acc} {a : XAttr} (hl : PlainName a.name.loc) (hsp : PlainSpace a.name.space)
    (h : attrStep S.env S.cfg S.heap acc a = .ok acc') :
    ∃ s : Slot, acc'.fields = acc.fields ++ [s.field] ∧ acc'.overrides = acc.overrides ++ s.over.toList ∧
      s.Is S a.type false ⟨.attr, attrName a, a.optional⟩ := by
  unfold attrStep at h
  simp only at h
  obtain ⟨e, he, h⟩ := bind_ok h
  obtain ⟨h1, ov, h2, h3, h4, h5⟩ := addOverride_slot h
  refine ⟨⟨_, ov, _⟩, h1, h2, Slot.is_of ?_ he ?_ h3 h4 ?_⟩
  · unfold attrName
    by_cases hq : a.attr.any (fun x => decide (x.name = ⟨[], b!"form"⟩ ∧ x.value = b!"qualified")) = true
    · rw [if_pos hq, if_pos hq]
      exact attr_tag hl hsp
    · rw [if_neg hq, if_neg hq]
      exact attr_tag_local hl
  · rfl
  · intro h; cases h

theorem elems_slots {S : Setting V} : ∀ (els : List XElem) (acc acc' : Acc),
    (∀ el ∈ els, el.wildcard = false ∧ PlainName el.name.loc ∧ PlainSpace el.name.space ∧
      (el.plural = true → el.dflt = [] ∧ special el.type = false)) →
    runFold (elemStep S.env S.cfg S.heap) acc els = .ok acc' →
    ∃ slots : List Slot, acc'.fields = acc.fields ++ slots.map (·.field) ∧ acc'.overrides = acc.overrides ++ slots.filterMap (·.over) ∧
      List.Forall₂ (fun el s => s.Is S el.type el.plural ⟨.element, el.name, el.optional || el.nillable⟩) els slots := by
  intro els
  induction els with
  | nil => intro acc acc' _ h; cases h; exact ⟨[], by simp, by simp, .nil⟩
  | cons el els ih =>
    intro acc acc' hc h
    obtain ⟨a1, h1, h2⟩ := bind_ok h
    obtain ⟨c1, c2, c3, c4⟩ := hc el (List.mem_cons_self ..)
    obtain ⟨s, s1, s2, s3⟩ := elemStep_slot c1 c2 c3 c4 h1
    obtain ⟨slots, t1, t2, t3⟩ := ih a1 acc' (fun x hx => hc x (List.mem_cons_of_mem _ hx)) h2
    refine ⟨s :: slots, by rw [t1, s1]; simp, ?_, .cons s3 t3⟩
    rw [t2, s2]
    cases hs : s.over <;> simp [hs]

theorem attrs_slots {S : Setting V} : ∀ (as : List XAttr) (acc acc' : Acc),
    (∀ a ∈ as, PlainName a.name.loc ∧ PlainSpace a.name.space) → runFold (attrStep S.env S.cfg S.heap) acc as = .ok acc' →
    ∃ slots : List Slot, acc'.fields = acc.fields ++ slots.map (·.field) ∧ acc'.overrides = acc.overrides ++ slots.filterMap (·.over) ∧
      List.Forall₂ (fun a s => s.Is S a.type false ⟨.attr, attrName a, a.optional⟩) as slots := by
  intro as
  induction as with
  | nil => intro acc acc' _ h; cases h; exact ⟨[], by simp, by simp, .nil⟩
  | cons a as ih =>
    intro acc acc' hc h
    obtain ⟨a1, h1, h2⟩ := bind_ok h
    obtain ⟨c1, c2⟩ := hc a (List.mem_cons_self ..)
    obtain ⟨s, s1, s2, s3⟩ := attrStep_slot c1 c2 h1
    obtain ⟨slots, t1, t2, t3⟩ := ih a1 acc' (fun x hx => hc x (List.mem_cons_of_mem _ hx)) h2
    refine ⟨s :: slots, by rw [t1, s1]; simp, ?_, .cons s3 t3⟩
    rw [t2, s2]
    cases hs : s.over <;> simp [hs]

theorem TextFrom.unique {H : THeap} {t a b : Ty} (h : TextFrom H t a) (h' : TextFrom H t b) : a = b := by
  induction h with
  | simple hs =>
    cases h' with
    | simple _ => rfl
    | builtin _ => rfl
    | derived hn _ _ => simp [isSimple, hs] at hn
  | builtin hn =>
    cases h' with
    | simple _ => rfl
    | builtin _ => rfl
    | derived _ hb _ => rw [hn] at hb; cases hb
  | derived hn hb _ ih =>
    cases h' with
    | simple hs => simp [isSimple, hs] at hn
    | builtin hn' => rw [hn'] at hb; cases hb
    | derived _ hb' h2 => rw [hb] at hb'; cases hb'; exact ih h2

theorem mixedBase_text {H : THeap} : ∀ (n : Nat) (b base : Ty), mixedBase H n b = .ok base → TextFrom H b base := by
  intro n
  induction n with
  | zero => intro b base h; cases h
  | succ n ih =>
    intro b base h
    unfold mixedBase at h
    cases hb : baseOf H b with
    | none => rw [hb] at h; cases h; exact .builtin hb
    | some c =>
      rw [hb] at h
      simp only at h
      split at h
      · rename_i hs
        cases h
        cases b with
        | obj id =>
          cases ho : H[id]? with
          | none => simp [isSimple, ho] at hs
          | some o =>
            cases o with
            | simple s => exact .simple ho
            | complex c => simp [isSimple, ho] at hs
        | builtin b => cases hs
        | link n => cases hs
      · rename_i hs
        exact .derived (by simpa using hs) hb (ih _ _ h)

theorem charData_slots {S : Setting V} {n : Nat} {c : ComplexT} {acc : Acc} (h : charData S.env S.cfg n S.heap c = .ok acc) :
    (acc.fields = [] ∧ acc.overrides = [] ∧ ∀ ty, ¬ S.TextType c ty) ∨
    ∃ (ty : Ty) (s : Slot), S.TextType c ty ∧ acc.fields = [s.field] ∧ acc.overrides = s.over.toList ∧
      s.Is S ty false ⟨.chardata, ⟨[], s.field.name⟩, false⟩ := by
  unfold charData at h
  split at h
  · rename_i hm
    split at h
    · cases h
    · rename_i b0 hb0
      obtain ⟨base, hbase, h⟩ := bind_ok h
      obtain ⟨e, he, h⟩ := bind_ok h
      have htf := mixedBase_text _ _ _ hbase
      simp only at h
      split at h
      · rename_i _ b _
        split at h
        · rename_i hb
          cases h
          refine Or.inl ⟨rfl, rfl, ?_⟩
          rintro ty ⟨-, hne, b1, hb1, ht⟩
          rw [hb0] at hb1
          cases hb1
          exact hne (by rw [ht.unique htf, hb])
        · rename_i hb
          have htt : S.TextType c (.builtin b) := ⟨hm, fun e => hb (by cases e; rfl), b0, hb0, htf⟩
          rw [special_eq] at h
          split at h
          · rename_i hs
            split at h
            · cases h
            · rename_i hh
              cases h
              refine Or.inr ⟨_, ⟨_, some _, ⟨.chardata, ⟨[], b!"Value"⟩, false⟩⟩, htt, rfl, rfl, Slot.is_of (plural := false) (data_tag _) he rfl ?_ ?_ nofun⟩
              · intro o ho
                cases ho
                exact ⟨rfl, rfl, rfl, rfl⟩
              · intro _
                exact ⟨_, _, hh, rfl, rfl⟩
          · rename_i hs
            cases h
            refine Or.inr ⟨_, ⟨_, none, ⟨.chardata, ⟨[], b!"Value"⟩, false⟩⟩, htt, rfl, rfl, Slot.is_of (plural := false) (data_tag _) he rfl ?_ ?_ nofun⟩
            · intro o ho; cases ho
            · intro h; exact absurd h hs
      · rename_i hb
        split at h
        · rename_i hs
          cases h
          have hns : special base = false := by
            cases base with
            | builtin b => exact absurd rfl (hb b)
            | obj id => rfl
            | link n => rfl
          have htt : S.TextType c base := ⟨hm, fun e => hb _ e, b0, hb0, htf⟩
          refine Or.inr ⟨_, ⟨_, none, ⟨.chardata, ⟨[], exprText e⟩, false⟩⟩, htt, rfl, rfl, Slot.is_of (plural := false) (data_tag _) he rfl ?_ ?_ nofun⟩
          · intro o ho; cases ho
          · intro h; rw [hns] at h; cases h
        · cases h
  · rename_i hm
    cases h
    exact Or.inl ⟨rfl, rfl, fun ty ht => hm ht.1⟩

/-- The fields of a struct: at most one for text, one for each element, and one for each attribute. -/
structure Slots (S : Setting V) (c : ComplexT) (acc : Acc) (text elems attrs : List Slot) : Prop where
  fields : acc.fields = (text ++ elems ++ attrs).map (·.field)
  overrides : acc.overrides = (text ++ elems ++ attrs).filterMap (·.over)
  text : (text = [] ∧ ∀ ty, ¬ S.TextType c ty) ∨
    ∃ (ty : Ty) (s : Slot), S.TextType c ty ∧ text = [s] ∧ s.Is S ty false ⟨.chardata, ⟨[], s.field.name⟩, false⟩
  elems : List.Forall₂ (fun el s => s.Is S el.type el.plural ⟨.element, el.name, el.optional || el.nillable⟩) (S.elements c) elems
  attrs : List.Forall₂ (fun a s => s.Is S a.type false ⟨.attr, attrName a, a.optional⟩) (S.attributes c) attrs

theorem Setting.Fine.slots {S : Setting V} {c : ComplexT} {acc : Acc} (h : S.Fine c acc) : ∃ text elems attrs, Slots S c acc text elems attrs := by
  obtain ⟨m, hm⟩ := h.made
  obtain ⟨a1, a2, h1, h2, h3⟩ := genFields_ok hm
  obtain ⟨es, e1, e2, e3⟩ := elems_slots _ _ _ (fun el hel => ⟨h.known el hel, (h.elemNames el hel).1, (h.elemNames el hel).2,
    fun hp => ⟨(h.repeated el hel hp).1, (h.repeated el hel hp).2.1⟩⟩) h2
  obtain ⟨as, f1, f2, f3⟩ := attrs_slots _ _ _ h.attrNames h3
  rcases charData_slots h1 with ⟨g1, g2, g3⟩ | ⟨ty, s, g1, g2, g3, g4⟩
  · exact ⟨[], es, as, by rw [f1, e1, g1]; simp, by rw [f2, e2, g2]; simp, Or.inl ⟨rfl, g3⟩, e3, f3⟩
  · refine ⟨[s], es, as, by rw [f1, e1, g2]; simp, ?_, Or.inr ⟨ty, s, g1, rfl, g4⟩, e3, f3⟩
    rw [f2, e2, g3]
    cases hs : s.over <;> simp [hs]

end GoXml.Values
