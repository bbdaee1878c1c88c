import Verif.Proofs.XsdgenDecls
import Verif.Props.XsdgenSpec
import Verif.Props.XsdgenConfig
set_option autoImplicit false

/-! Theorems about options that select and change types (C89, C90, C91), types that are replaced (C92), and the
declarations of complex (C93, C94) and simple (C95) types. -/

namespace GoXml.Xsdgen
open Xsd GoMap

/-! ### C89 -/

theorem joinStr_eq (sep : Str) : ∀ (l : List Str), joinStr sep l = sep.intercalate l
  | [] => rfl
  | [s] => by simp [joinStr, List.intercalate]
  | s :: t :: ss => by
    have := joinStr_eq sep (t :: ss)
    simp only [joinStr, this, List.intercalate, List.intersperse_cons_cons, List.flatten_cons, List.append_assoc]

/-- C89, partial: with `OnlyTypes` the types from which generation starts are those whose local name matches the
alternation of the patterns, if it is a pattern; the root type and types that are not allowed remain excluded. The
full statement is about qualified names; it is refuted by `C89_qualified_refuted`. -/
theorem C89_only_partial (env : Env) (cfg : Config) (patterns : List Str) (name : XName) :
    skipped (applyOpt env (.onlyTypes patterns) cfg).1 name = false ↔
      name.loc ≠ b!"_self" ∧ (∀ m, cfg.allowTypes = some m → get m name = some true) ∧
      ∀ r, env.compile (b!"|".intercalate patterns) = some r → r.matchString name.loc = true := by
  rw [skipped_iff]
  refine and_congr_right fun _ => and_congr_right fun _ => ?_
  simp only [applyOpt, Option.some.injEq, forall_eq', joinStr_eq]
  cases env.compile (b!"|".intercalate patterns) with
  | none => simp
  | some r => simp

/-- Patterns for examples: a name matches if it is one of the alternatives. -/
def wordEnv : Env :=
  { asciiEnv with compile := fun p => some ⟨fun s _ => s, fun s => p == s || p == b!"a|b" && (s == b!"a" || s == b!"b")⟩ }

example : (flatten (applyOpt wordEnv (.onlyTypes [b!"a", b!"b"]) {}).1 5
    [.simple { name := ⟨[], b!"a"⟩, base := some (.builtin 38), list := true },
     .simple { name := ⟨[], b!"b"⟩, base := some (.builtin 38), list := true },
     .simple { name := ⟨[], b!"c"⟩, base := some (.builtin 38), list := true }] [.obj 0, .obj 1, .obj 2]).toOption.map (·.2) =
    some [.obj 0, .obj 1] := by decide +kernel

/-- C89 is false: the namespace is not looked at, so types of the same local name are selected together. -/
theorem C89_qualified_refuted (env : Env) (cfg : Config) (patterns : List Str) (l : Str) (ns ns' : Str) (h : cfg.allowTypes = none) :
    skipped (applyOpt env (.onlyTypes patterns) cfg).1 ⟨ns, l⟩ = skipped (applyOpt env (.onlyTypes patterns) cfg).1 ⟨ns', l⟩ := by
  simp [skipped, applyOpt, h]

/-! ### C90 -/

/-- The function that an option adds to those that change types. -/
def transformOf (env : Env) : Opt → Option TypeTransform
  | .processTypes f => some f
  | .useFieldNames => some useFieldNames
  | .handleSOAPArrayType => some env.soapArray
  | _ => none

/-- C90: functions that change types are called in the order in which the options were given, after those of the
configuration before, and each gets what the one before it has returned. -/
theorem C90_in_order (env : Env) (os : List Opt) (hos : ∀ o ∈ os, transformOf env o ≠ none) (p : Option Opt) (cfg : Config)
    (pre : TypeTransform) (hp : (applyOpts env os p cfg).1.preprocessType = some pre) (s : Schema) (t : Option Ty) (H : THeap) :
    pre s t H = inOrder s (cfg.preprocessType.toList ++ os.filterMap (transformOf env)) (t, H) := by
  induction os generalizing p cfg with
  | nil =>
    simp only [applyOpts] at hp
    simp [hp, inOrder]
  | cons o os ih =>
    obtain ⟨f, hf⟩ := Option.ne_none_iff_exists'.mp (hos o (List.mem_cons_self ..))
    have happ : (applyOpt env o cfg).1.preprocessType = some (thenTransform cfg.preprocessType f) := by
      cases o <;> simp only [transformOf, reduceCtorEq, Option.some.injEq] at hf <;> rw [← hf] <;> rfl
    rw [ih (fun o h => hos o (List.mem_cons_of_mem _ h)) _ _ hp, happ, List.filterMap_cons, hf]
    cases cfg.preprocessType with
    | none => rfl
    | some q => rfl

/-- C90: generation goes on with what the function has returned for each type, or with the type itself if that
was nil. -/
theorem C90_types (pre : TypeTransform) (all : GoMap XName Ty) (f : Ty → Option Ty)
    (hf : ∀ s t H, (pre s (some t) H).1 = f t) (ss : List Schema) (H : THeap) :
    (preprocessAll pre all ss H).1 = ss.map fun s => { s with types := s.types.map fun e => (e.1, (f e.2).getD e.2) } := by
  have key : ∀ (s : Schema) (es : List (XName × Ty)) (H : THeap),
      (preprocess pre s es H).1 = es.map fun e => (e.1, (f e.2).getD e.2) := by
    intro s es
    induction es with
    | nil => intro H; rfl
    | cons e es ih => intro H; simp only [preprocess, List.map_cons, hf, ih]
  induction ss generalizing H with
  | nil => rfl
  | cons s ss ih => simp only [preprocessAll, List.map_cons, key, ih]

/-- C90: the function is called with the types of all schemas. -/
theorem C90_sees (pre : TypeTransform) (all other : GoMap XName Ty) (ss : List Schema) (H : THeap) :
    preprocessAll pre all ss H = preprocessAll (fun s t H => pre { s with types := all } t H) other ss H := by
  have key : ∀ (s : Schema) (es : List (XName × Ty)) (H : THeap), preprocess pre { s with types := all } es H =
      preprocess (fun s t H => pre { s with types := all } t H) { s with types := other } es H := by
    intro s es
    induction es with
    | nil => intro H; rfl
    | cons e es ih => intro H; simp only [preprocess, ih]
  induction ss generalizing H with
  | nil => rfl
  | cons s ss ih => simp only [preprocessAll, key, ih]

/-- Two functions: the second sees what the first has done. -/
example :
    let f : TypeTransform := fun _ t H => (t.map fun _ => .builtin 28, H)
    let g : TypeTransform := fun _ t H => (if t = some (.builtin 28) then some (.builtin 38) else none, H)
    (applyOpts asciiEnv [.processTypes f, .useFieldNames, .processTypes g] none {}).1.preprocessType.map
      (fun pre => ((preprocessAll pre [] [{ types := [(⟨[], b!"a"⟩, .obj 0)] }] []).1.map fun s => s.types)) =
    some [[(⟨[], b!"a"⟩, .builtin 38)]] := by
  intro f g
  decide +kernel

/-! ### C91 -/

/-- What renaming the types of fields may do to the heap: types become named after a field. -/
structure NamedByFields (F : XName → Ty → Prop) (H H' : THeap) : Prop where
  length : H'.length = H.length
  step : ∀ j o, H[j]? = some o → H'[j]? = some o ∨ Anonymous H j ∧ ∃ name, F name (.obj j) ∧ H'[j]? = some (renamed name o)

theorem renamed_not_anonymous {H : THeap} {j : Nat} {name : XName} {o : TObj} (h : H[j]? = some (renamed name o)) : ¬ Anonymous H j := by
  rintro (⟨s, h1, h2⟩ | ⟨c, h1, h2⟩) <;> rw [h] at h1 <;> cases o <;> cases h1 <;> cases h2

theorem renameAnon_step (check : Bool) (used : List XName) (name : XName) (H : THeap) (t : Ty) :
    NamedByFields (fun n x => n = name ∧ x = t) H (renameAnon check used name H t) := by
  unfold renameAnon
  cases t with
  | builtin b => exact ⟨rfl, fun j o h => Or.inl h⟩
  | link b => exact ⟨rfl, fun j o h => Or.inl h⟩
  | obj id =>
    simp only
    cases hid : H[id]? with
    | none => exact ⟨rfl, fun j o h => Or.inl h⟩
    | some o =>
      have hlt := (List.getElem?_eq_some_iff.mp hid).1
      cases o with
      | simple s =>
        simp only
        split
        · rename_i ha
          refine ⟨List.length_set, fun j o h => ?_⟩
          by_cases e : j = id
          · subst e
            rw [hid] at h
            cases h
            exact Or.inr ⟨Or.inl ⟨s, hid, ha⟩, name, ⟨rfl, rfl⟩, by rw [List.getElem?_set_self hlt]; rfl⟩
          · exact Or.inl (by rw [List.getElem?_set_ne (fun h => e h.symm)]; exact h)
        · exact ⟨rfl, fun j o h => Or.inl h⟩
      | complex c =>
        simp only
        split
        · rename_i ha
          simp only [Bool.and_eq_true] at ha
          refine ⟨List.length_set, fun j o h => ?_⟩
          by_cases e : j = id
          · subst e
            rw [hid] at h
            cases h
            exact Or.inr ⟨Or.inr ⟨c, hid, ha.1⟩, name, ⟨rfl, rfl⟩, by rw [List.getElem?_set_self hlt]; rfl⟩
          · exact Or.inl (by rw [List.getElem?_set_ne (fun h => e h.symm)]; exact h)
        · exact ⟨rfl, fun j o h => Or.inl h⟩

theorem NamedByFields.trans {F G : XName → Ty → Prop} {H H1 H2 : THeap} (h1 : NamedByFields F H H1) (h2 : NamedByFields G H1 H2) :
    NamedByFields (fun n t => F n t ∨ G n t) H H2 := by
  refine ⟨h2.length.trans h1.length, fun j o h => ?_⟩
  rcases h1.step j o h with k | ⟨ha, name, hF, k⟩
  · rcases h2.step j o k with k' | ⟨ha', name, hG, k'⟩
    · exact Or.inl k'
    · refine Or.inr ⟨?_, name, Or.inr hG, k'⟩
      rcases ha' with ⟨s, q1, q2⟩ | ⟨c, q1, q2⟩
      · rw [k] at q1; exact Or.inl ⟨s, q1 ▸ h, q2⟩
      · rw [k] at q1; exact Or.inr ⟨c, q1 ▸ h, q2⟩
  · rcases h2.step j _ k with k' | ⟨ha', _⟩
    · exact Or.inr ⟨ha, name, Or.inl hF, k'⟩
    · exact absurd ha' (renamed_not_anonymous k)

theorem NamedByFields.mono {F G : XName → Ty → Prop} {H H1 : THeap} (h : NamedByFields F H H1) (hi : ∀ n t, F n t → G n t) :
    NamedByFields G H H1 :=
  ⟨h.length, fun j o hj => by
    rcases h.step j o hj with k | ⟨ha, name, hF, k⟩
    · exact Or.inl k
    · exact Or.inr ⟨ha, name, hi _ _ hF, k⟩⟩

theorem renameFold {α : Type} (check : Bool) (used : List XName) (nm : α → XName) (ty : α → Ty) : ∀ (l : List α) (H : THeap),
    NamedByFields (fun n t => ∃ e ∈ l, nm e = n ∧ ty e = t) H (l.foldl (fun H e => renameAnon check used (nm e) H (ty e)) H) := by
  intro l
  induction l with
  | nil => intro H; exact ⟨rfl, fun j o h => Or.inl h⟩
  | cons e l ih =>
    intro H
    refine ((renameAnon_step check used (nm e) H (ty e)).trans (ih _)).mono ?_
    rintro n t (⟨rfl, rfl⟩ | ⟨x, hx, h⟩)
    · exact ⟨e, List.mem_cons_self .., rfl, rfl⟩
    · exact ⟨x, List.mem_cons_of_mem _ hx, h⟩

/-- A type that a step renames is no longer anonymous, and remains so. -/
theorem renameFold_done {α : Type} (check : Bool) (used : List XName) (nm : α → XName) (ty : α → Ty) : ∀ (l : List α) (H : THeap) (j : Nat) (e : α),
    e ∈ l → ty e = .obj j → (check = true → nm e ∉ used) → (H[j]?).isSome →
    ¬ Anonymous (l.foldl (fun H e => renameAnon check used (nm e) H (ty e)) H) j := by
  intro l
  induction l with
  | nil => intro H j e he; cases he
  | cons x l ih =>
    intro H j e he ht hu hs
    rw [List.foldl_cons]
    have hstep := renameAnon_step check used (nm x) H (ty x)
    obtain ⟨o, ho⟩ := Option.isSome_iff_exists.mp hs
    rcases List.mem_cons.mp he with rfl | he
    · have hdone : ¬ Anonymous (renameAnon check used (nm e) H (ty e)) j := by
        rw [ht]
        simp only [renameAnon, ho]
        have hlt := (List.getElem?_eq_some_iff.mp ho).1
        cases o with
        | simple s =>
          simp only
          split
          · exact renamed_not_anonymous (name := nm e) (o := .simple s) (by rw [List.getElem?_set_self hlt]; rfl)
          · rename_i hn
            rintro (⟨s', q1, q2⟩ | ⟨c', q1, q2⟩) <;> rw [ho] at q1 <;> cases q1
            exact hn q2
        | complex c =>
          simp only
          split
          · exact renamed_not_anonymous (name := nm e) (o := .complex c) (by rw [List.getElem?_set_self hlt]; rfl)
          · rename_i hn
            rintro (⟨s', q1, q2⟩ | ⟨c', q1, q2⟩) <;> rw [ho] at q1 <;> cases q1
            apply hn
            rw [q2]
            cases hc : check with
            | false => rfl
            | true => simp [hu hc]
      intro ha
      have hlen : j < (renameAnon check used (nm e) H (ty e)).length := by
        rw [hstep.length]; exact (List.getElem?_eq_some_iff.mp ho).1
      rcases (renameFold check used nm ty l _).step j _ (List.getElem?_eq_getElem hlen) with k | ⟨hb, _⟩
      · apply hdone
        rw [← List.getElem?_eq_getElem hlen] at k
        unfold Anonymous at ha ⊢
        rw [k] at ha
        exact ha
      · exact hdone hb
    · exact ih _ j e he ht hu (by
        rcases hstep.step j o ho with k | ⟨_, _, _, k⟩ <;> rw [k] <;> rfl)

/-- C91, partial: `UseFieldNames` changes nothing but anonymous types of fields of the type given, which get
the name of a field that they are the type of. The full statement also says that they get different names; it is
refuted by `C91_distinct_refuted`. -/
theorem C91_named_partial (s : Schema) (id : Nat) (c : ComplexT) (H : THeap) (hc : H[id]? = some (.complex c)) (j : Nat) (o : TObj)
    (ho : H[j]? = some o) : (useFieldNames s (some (.obj id)) H).1 = some (.obj id) ∧
    ((useFieldNames s (some (.obj id)) H).2[j]? = some o ∨
      Anonymous H j ∧ ∃ name, FieldType c name (.obj j) ∧ (useFieldNames s (some (.obj id)) H).2[j]? = some (renamed name o)) := by
  simp only [useFieldNames, hc, true_and]
  have h3 := (renameFold true (s.types.map fun e => xmlName H e.2) (fun e : XElem => e.name) (fun e => e.type) c.elements H).trans
    (renameFold false (s.types.map fun e => xmlName H e.2) (fun a : XAttr => a.name) (fun a => a.type) c.attributes _)
  exact h3.step j o ho

/-- C91: types of other kinds are left alone. -/
theorem C91_others (s : Schema) (t : Option Ty) (H : THeap) (h : ∀ id c, t = some (.obj id) → H[id]? ≠ some (.complex c)) :
    useFieldNames s t H = (t, H) := by
  unfold useFieldNames
  cases t with
  | none => rfl
  | some t =>
    cases t with
    | builtin b => rfl
    | link b => rfl
    | obj id =>
      simp only
      split
      · rename_i c hc
        exact absurd hc (h id c rfl)
      · rfl

/-- C91: an anonymous type of a field is named, unless it is the type of an element and its name is in use. -/
theorem C91_all_named (s : Schema) (id : Nat) (c : ComplexT) (H : THeap) (hc : H[id]? = some (.complex c)) (j : Nat) (hj : (H[j]?).isSome)
    (hf : (∃ e ∈ c.elements, e.type = .obj j ∧ ∀ x ∈ s.types, xmlName H x.2 ≠ e.name) ∨ (∃ a ∈ c.attributes, a.type = .obj j)) :
    ¬ Anonymous (useFieldNames s (some (.obj id)) H).2 j := by
  simp only [useFieldNames, hc]
  have h1 := renameFold true (s.types.map fun e => xmlName H e.2) (fun e : XElem => e.name) (fun e => e.type) c.elements H
  have hj1 : ((c.elements.foldl (fun H' el => renameAnon true (s.types.map fun e => xmlName H e.2) el.name H' el.type) H)[j]?).isSome := by
    obtain ⟨o, ho⟩ := Option.isSome_iff_exists.mp hj
    rcases h1.step j o ho with k | ⟨_, _, _, k⟩ <;> rw [k] <;> rfl
  rcases hf with ⟨e, he, ht, hu⟩ | ⟨a, ha, ht⟩
  · have hd := renameFold_done true (s.types.map fun e => xmlName H e.2) (fun e : XElem => e.name) (fun e => e.type) c.elements H j e he ht
      (by intro _ hm
          obtain ⟨x, hx, hxe⟩ := List.mem_map.mp hm
          exact hu x hx hxe) hj
    intro hA
    obtain ⟨o, ho⟩ := Option.isSome_iff_exists.mp hj1
    rcases (renameFold false (s.types.map fun e => xmlName H e.2) (fun a : XAttr => a.name) (fun a => a.type) c.attributes _).step j o ho
      with k | ⟨hb, _⟩
    · apply hd
      unfold Anonymous at hA ⊢
      rw [k] at hA
      rw [ho]
      exact hA
    · exact hd hb
  · exact renameFold_done false (s.types.map fun e => xmlName H e.2) (fun a : XAttr => a.name) (fun a => a.type) c.attributes _ j a ha ht
      (by simp) hj1

/-- Types `a` and `b` have an attribute `kind` each, of different anonymous types. -/
def C91_heap : THeap :=
  [.complex { name := ⟨[], b!"a"⟩, base := some (.builtin 0), attributes := [{ name := ⟨[], b!"kind"⟩, type := .obj 2 }] },
   .complex { name := ⟨[], b!"b"⟩, base := some (.builtin 0), attributes := [{ name := ⟨[], b!"kind"⟩, type := .obj 3 }] },
   .simple { name := ⟨[], b!"_anon1"⟩, anonymous := true, base := some (.builtin 38), restriction := { enum := [b!"x"] } },
   .simple { name := ⟨[], b!"_anon2"⟩, anonymous := true, base := some (.builtin 38), restriction := { enum := [b!"y"] } }]

example : Anonymous C91_heap 2 ∧ FieldType { name := ⟨[], b!"a"⟩, base := some (.builtin 0), attributes := [{ name := ⟨[], b!"kind"⟩, type := .obj 2 }] }
    ⟨[], b!"kind"⟩ (.obj 2) ∧ (useFieldNames {} (some (.obj 0)) C91_heap).2.map (·.name.loc) = [b!"a", b!"b", b!"kind", b!"_anon2"] :=
  ⟨Or.inl ⟨_, rfl, rfl⟩, Or.inr ⟨_, List.mem_cons_self .., rfl, rfl⟩, by decide +kernel⟩

/-- C91 is false: two types are called `kind`, one of which is lost. -/
theorem C91_distinct_refuted :
    let types : List (XName × Ty) := [(⟨[], b!"a"⟩, .obj 0), (⟨[], b!"b"⟩, .obj 1), (⟨[], b!"_anon1"⟩, .obj 2), (⟨[], b!"_anon2"⟩, .obj 3)]
    let file (os : List Opt) := ((gen asciiEnv (Sorter.byKey fun s => s) (applyOpts asciiEnv os none {}).1 20 [{ types := types }] [] C91_heap).toOption.map
      fun r => (genAST (Sorter.byKey fun s => s) r.2.1).2.filterMap fun d => match d with
        | .type doc n (.plain _) => some (n, doc)
        | _ => none)
    file [] = some [(b!"_anon1", b!"May be one of x"), (b!"_anon2", b!"May be one of y")] ∧
    file [.useFieldNames] = some [(b!"Kind", b!"May be one of x")] := by
  intro types file
  exact ⟨by decide +kernel, by decide +kernel⟩

/-! ### C92 -/

/-- The content of a complex type is text only: it is derived from a built-in type other than `anyType` or from a
simple type. -/
def SimpleContent (H : THeap) (c : ComplexT) : Prop :=
  (∃ b, c.base = some (.builtin b) ∧ b ≠ AnyType) ∨ (∃ bid s, c.base = some (.obj bid) ∧ H[bid]? = some (.simple s))

theorem noAttrs_iff (cfg : Config) (c : ComplexT) : (filterFields cfg c).1 = [] ↔ ∀ a, ¬ KeptAttr cfg c a := by
  rw [List.eq_nil_iff_forall_not_mem]
  simp only [keptAttr_iff]

/-- C92: a complex type with an attribute that is not ignored, or with other content than text, is not replaced
by another type. -/
theorem C92_kept (cfg : Config) (n d : Nat) (H : THeap) (id : Nat) (c : ComplexT) (hc : H[id]? = some (.complex c)) (r : Flat)
    (h : flatten1 cfg n (d + 1) H (some (.obj id)) = .ok r) (hk : (∃ a, KeptAttr cfg c a) ∨ ¬ SimpleContent H c) :
    r.2.2 = some (.obj id) := by
  have hna : (filterFields cfg c).1 = [] → ¬ SimpleContent H c := by
    intro h0
    rcases hk with ⟨a, ha⟩ | hk
    · exact absurd ha ((noAttrs_iff cfg c).mp h0 a)
    · exact hk
  simp only [flatten1, hc] at h
  split at h
  · rename_i b hb
    split at h
    · rename_i hcond
      exact absurd (Or.inl ⟨b, hb, hcond.1⟩) (hna hcond.2)
    · exact flattenComplex_result h
  · rename_i bid hb
    split at h
    · rename_i hcond
      have hs := hcond.1
      simp only [isSimple] at hs
      split at hs
      · rename_i s e
        exact absurd (Or.inr ⟨bid, s, hb, e⟩) (hna hcond.2)
      · cases hs
    · exact flattenComplex_result h
  · exact flattenComplex_result h

/-- C92: a complex type with text only and no attributes but ignored ones is replaced by the type that it is
derived from, or what that one is replaced by. -/
theorem C92_replaced (cfg : Config) (n d : Nat) (H : THeap) (id : Nat) (c : ComplexT) (hc : H[id]? = some (.complex c))
    (hs : SimpleContent H c) (ha : ∀ a, ¬ KeptAttr cfg c a) :
    (∀ b, c.base = some (.builtin b) → flatten1 cfg n (d + 1) H (some (.obj id)) = .ok (H, [], some (.builtin b))) ∧
    (∀ bid, c.base = some (.obj bid) → flatten1 cfg n (d + 1) H (some (.obj id)) = flatten1 cfg n d H (some (.obj bid))) := by
  have ha := (noAttrs_iff cfg c).mpr ha
  constructor
  · intro b hb
    have : b ≠ AnyType := by
      rcases hs with ⟨b', h1, h2⟩ | ⟨bid, s, h1, _⟩ <;> rw [hb] at h1 <;> cases h1
      exact h2
    simp only [flatten1, hc, hb, ha, this, ne_eq, not_false_eq_true, and_self, if_true]
  · intro bid hb
    have : isSimple H (.obj bid) = true := by
      rcases hs with ⟨b', h1, h2⟩ | ⟨bid, s, h1, h2⟩ <;> rw [hb] at h1 <;> cases h1
      simp only [isSimple, h2]
    simp only [flatten1, hc, hb, ha, this, and_self, if_true]

/-- An attribute is kept, or ignored. -/
example :
    let H : THeap := [.complex { name := ⟨[], b!"t"⟩, base := some (.obj 1), attributes := [{ name := ⟨[], b!"x"⟩, type := .builtin 28 }] },
      .simple { name := ⟨[], b!"s"⟩, base := some (.builtin 38), restriction := { enum := [b!"y"] } }]
    ((flatten1 {} 5 5 H (some (.obj 0))).toOption.map fun r => r.2.2) = some (some (.obj 0)) ∧
    ((flatten1 (applyOpt asciiEnv (.ignoreAttributes [b!"x"]) {}).1 5 5 H (some (.obj 0))).toOption.map fun r => r.2.2) = some (some (.obj 1)) := by
  decide +kernel

/-! ### C93 -/

/-- C93: the declaration of a complex type is a struct with its Go name and its documentation. The fields are those
of C74 for the type together with what it inherits. -/
theorem C93_struct (env : Env) (cfg : Config) (n : Nat) (H : THeap) (id : Nat) (t : ComplexT) (H' : THeap) (ss : List Spec)
    (h : genComplexType env cfg n H id t = .ok (H', ss)) :
    ∃ c s text elems attrs, Inherits H t c ∧ H' = H.set id (.complex c) ∧ ss = [s] ∧ s.name = publicName env cfg t.name ∧
      s.doc = t.doc ∧ s.xsdType = .obj id ∧ s.expr = .struct (text ++ elems ++ attrs) ∧ TextField text ∧
      List.Forall₂ (ElemField env cfg H') (filterFields cfg c).2 elems ∧
      List.Forall₂ (AttrField env cfg H') (filterFields cfg c).1 attrs := by
  unfold genComplexType at h
  simp only at h
  obtain ⟨acc, hacc, h⟩ := bind_ok h
  cases h
  obtain ⟨text, elems, attrs, h1, h2, h3, h4⟩ := C74_fields env cfg n _ _ acc hacc
  have hi := takeOver_inherits H t
  have hsame := hi.same
  have hn : (takeOver H t).name = t.name := by have := congrArg ComplexT.name hsame; exact this
  have hd : (takeOver H t).doc = t.doc := by have := congrArg ComplexT.doc hsame; exact this
  exact ⟨takeOver H t, _, text, elems, attrs, hi, rfl, rfl, by rw [hn], hd, rfl, by rw [h1], h2, h3, h4⟩

/-- A wildcard and an attribute are inherited. -/
example :
    let H : THeap := [.complex { name := ⟨[], b!"t"⟩, doc := b!"about t", base := some (.obj 1), elements := [{ name := ⟨[], b!"e"⟩, type := .builtin 28 }] },
      .complex { name := ⟨[], b!"s"⟩, base := some (.builtin 0), elements := [{ wildcard := true, plural := true, type := .builtin 0 }],
                 attributes := [{ name := ⟨[], b!"x"⟩, type := .builtin 28 }] }]
    ((genTypeSpec asciiEnv {} 5 H (.obj 0)).toOption.map fun r => r.2.map fun s => (s.name, s.doc, s.expr)) =
      some [(b!"T", b!"about t", .struct [⟨b!"E", .ident b!"int", b!"xml:\" e\""⟩, ⟨b!"Items", .array (.ident b!"string"), b!"xml:\",any\""⟩,
        ⟨b!"X", .ident b!"int", b!"xml:\"x,attr\""⟩])] := by
  decide +kernel

/-! ### C94 -/

theorem methods_unmarshal (r : Str) (p : Bool) (q : Prop) [Decidable q] :
    (∃ m ∈ (if p then [⟨r, b!"MarshalXML"⟩] else []) ++ (if q then [] else [(⟨r, b!"UnmarshalXML"⟩ : FuncDecl)]), m.name = b!"UnmarshalXML") ↔ ¬ q := by
  by_cases h1 : p = true <;> by_cases h2 : q <;> simp [h1, h2]

theorem methods_marshal (r : Str) (p : Bool) (q : Prop) [Decidable q] :
    (∃ m ∈ (if p then [⟨r, b!"MarshalXML"⟩] else []) ++ (if q then [] else [(⟨r, b!"UnmarshalXML"⟩ : FuncDecl)]), m.name = b!"MarshalXML") ↔ p = true := by
  by_cases h1 : p = true <;> by_cases h2 : q <;> simp [h1, h2]

/-- C94: a struct has a method to read it exactly if one of its fields has a default or a type that needs methods
of its own, and a method to write it exactly if one has such a type. -/
theorem C94_methods (env : Env) (cfg : Config) (n : Nat) (H : THeap) (id : Nat) (t : ComplexT) (H' : THeap) (ss : List Spec)
    (h : genComplexType env cfg n H id t = .ok (H', ss)) :
    ∃ c s, H' = H.set id (.complex c) ∧ ss = [s] ∧
      (s.hasMethod b!"UnmarshalXML" ↔ (∃ b, TextOf H' c b ∧ Special (.builtin b)) ∨
        (∃ e, KeptElem cfg c e ∧ (Special e.type ∨ e.dflt ≠ [])) ∨ (∃ a, KeptAttr cfg c a ∧ (Special a.type ∨ a.dflt ≠ []))) ∧
      (s.hasMethod b!"MarshalXML" ↔ (∃ b, TextOf H' c b ∧ Special (.builtin b)) ∨
        (∃ e, KeptElem cfg c e ∧ Special e.type) ∨ (∃ a, KeptAttr cfg c a ∧ Special a.type)) ∧
      (s.methods.map (·.name)).Nodup ∧ ∀ m ∈ s.methods, m.recv = b!"t *" ++ s.name := by
  unfold genComplexType at h
  simp only at h
  obtain ⟨acc, hacc, h⟩ := bind_ok h
  cases h
  have ht := genFields_types hacc
  have hex : ∀ P : Ty → Prop, (∃ o ∈ acc.overrides, P o.type) ↔ ∃ x, x ∈ acc.overrides.map (·.type) ∧ P x := by
    intro P
    constructor
    · rintro ⟨o, ho, hP⟩; exact ⟨_, List.mem_map.mpr ⟨o, ho, rfl⟩, hP⟩
    · rintro ⟨x, hx, hP⟩
      obtain ⟨o, ho, rfl⟩ := List.mem_map.mp hx
      exact ⟨o, ho, hP⟩
  have hne : acc.overrides ≠ [] ↔ ∃ o ∈ acc.overrides, (fun _ : Ty => True) o.type := by
    constructor
    · intro h
      obtain ⟨o, ho⟩ := List.exists_mem_of_ne_nil _ h
      exact ⟨o, ho, trivial⟩
    · rintro ⟨o, ho, _⟩; exact List.ne_nil_of_mem ho
  have hany : acc.overrides.any (fun o => nonTrivialBuiltin (some o.type)) = true ↔ ∃ o ∈ acc.overrides, Special o.type := by
    rw [List.any_eq_true]
    simp only [special_iff]
  have hne := hne.trans (hex fun _ => True)
  have hany := hany.trans (hex Special)
  refine ⟨takeOver H t, _, rfl, rfl, ?_, ?_, ?_, ?_⟩
  · refine (methods_unmarshal _ _ _).trans ?_
    rw [← ne_eq, hne]
    constructor
    · rintro ⟨x, hx, _⟩
      rcases (ht x).mp hx with ⟨b, rfl, h1, h2⟩ | ⟨e, h1, rfl, h2⟩ | ⟨e, h1, rfl, h2⟩
      · exact Or.inl ⟨b, h1, h2⟩
      · exact Or.inr (Or.inl ⟨e, h1, h2⟩)
      · exact Or.inr (Or.inr ⟨e, h1, h2⟩)
    · rintro (⟨b, h1, h2⟩ | ⟨e, h1, h2⟩ | ⟨e, h1, h2⟩)
      · exact ⟨_, (ht _).mpr (Or.inl ⟨b, rfl, h1, h2⟩), trivial⟩
      · exact ⟨_, (ht _).mpr (Or.inr (Or.inl ⟨e, h1, rfl, h2⟩)), trivial⟩
      · exact ⟨_, (ht _).mpr (Or.inr (Or.inr ⟨e, h1, rfl, h2⟩)), trivial⟩
  · refine (methods_marshal _ _ _).trans ?_
    rw [hany]
    constructor
    · rintro ⟨x, hx, hs⟩
      rcases (ht x).mp hx with ⟨b, rfl, h1, h2⟩ | ⟨e, h1, rfl, h2⟩ | ⟨e, h1, rfl, h2⟩
      · exact Or.inl ⟨b, h1, h2⟩
      · exact Or.inr (Or.inl ⟨e, h1, hs⟩)
      · exact Or.inr (Or.inr ⟨e, h1, hs⟩)
    · rintro (⟨b, h1, h2⟩ | ⟨e, h1, h2⟩ | ⟨e, h1, h2⟩)
      · exact ⟨_, (ht _).mpr (Or.inl ⟨b, rfl, h1, h2⟩), h2⟩
      · exact ⟨_, (ht _).mpr (Or.inr (Or.inl ⟨e, h1, rfl, Or.inl h2⟩)), h2⟩
      · exact ⟨_, (ht _).mpr (Or.inr (Or.inr ⟨e, h1, rfl, Or.inl h2⟩)), h2⟩
  · by_cases h1 : acc.overrides.any (fun o => nonTrivialBuiltin (some o.type)) = true <;> by_cases h2 : acc.overrides = [] <;>
      simp [h1, h2]
  · by_cases h1 : acc.overrides.any (fun o => nonTrivialBuiltin (some o.type)) = true <;> by_cases h2 : acc.overrides = [] <;>
      simp [h1, h2]

/-- A default needs a method to read, a date both, an attribute with a number none. -/
example :
    let spec (c : ComplexT) := ((genTypeSpec asciiEnv (addStandardHelpers {}) 5 [.complex c] (.obj 0)).toOption.map fun r =>
      r.2.map fun s => s.methods.map (·.name))
    spec { base := some (.builtin 0), elements := [{ name := ⟨[], b!"e"⟩, type := .builtin 28, dflt := b!"1" }] } = some [[b!"UnmarshalXML"]] ∧
    spec { base := some (.builtin 0), attributes := [{ name := ⟨[], b!"e"⟩, type := .builtin 16 }] } = some [[b!"MarshalXML", b!"UnmarshalXML"]] ∧
    spec { base := some (.builtin 16), mixed := true } = some [[b!"MarshalXML", b!"UnmarshalXML"]] ∧
    spec { base := some (.builtin 0), attributes := [{ name := ⟨[], b!"e"⟩, type := .builtin 28 }] } = some [[]] := by
  decide +kernel

/-! ### C95 -/

/-- C95, partial: the declaration of a simple type has its Go name. A list is a slice of the Go type of its items, a
union is a string, another type has the Go type of its base. There are methods to read and write text for lists and
types that need them. The documentation is kept unless the type is a list; for lists that is refuted by
`C95_doc_refuted`. -/
theorem C95_simple_partial (env : Env) (cfg : Config) (n : Nat) (H : THeap) (id : Nat) (t : SimpleT) (ss : List Spec)
    (h : genSimpleType env cfg n H id t = .ok ss) :
    ∃ s, ss = [s] ∧ s.name = publicName env cfg t.name ∧ s.xsdType = .obj id ∧ (t.list = false → s.doc = t.doc) ∧
      (t.list = true → ∃ b e, t.base = some b ∧ exprOf env cfg H b = .ok e ∧ s.expr = .plain (.array e) ∧
        s.hasMethod b!"MarshalText" ∧ s.hasMethod b!"UnmarshalText") ∧
      (t.list = false → t.union ≠ [] → s.expr = .plain (.ident b!"string") ∧ s.methods = []) ∧
      (t.list = false → t.union = [] → ∃ b e, t.base = some b ∧ exprOf env cfg H b = .ok e ∧ s.expr = .plain e ∧
        (Special b → s.hasMethod b!"MarshalText" ∧ s.hasMethod b!"UnmarshalText" ∧
          ∃ helper, get cfg.helperTypes (xmlName H b) = some helper ∧ s.helperTypes = [xmlName H helper.xsdType]) ∧
        (¬ Special b → s.methods = [] ∧ s.helperTypes = [])) := by
  unfold genSimpleType at h
  split at h
  · rename_i hl
    unfold genSimpleListSpec at h
    split at h
    · cases h
    · rename_i b hb
      obtain ⟨e, he, h⟩ := bind_ok h
      obtain ⟨base, _, h⟩ := bind_ok h
      split at h
      · simp only at h
        split at h
        · cases h
        · cases h
        · cases h
          refine ⟨_, rfl, rfl, rfl, fun hf => (by rw [hl] at hf; cases hf), fun _ => ⟨b, e, hb, he, rfl, ⟨_, List.mem_cons_self .., rfl⟩,
            ⟨_, List.mem_cons_of_mem _ (List.mem_cons_self ..), rfl⟩⟩, fun hf => (by rw [hl] at hf; cases hf), fun hf => (by rw [hl] at hf; cases hf)⟩
      · cases h
  · rename_i hl
    have hl : t.list = false := by simpa using hl
    simp only at h
    split at h
    · rename_i hu
      cases h
      exact ⟨_, rfl, rfl, rfl, fun _ => rfl, fun hf => (by rw [hl] at hf; cases hf), fun _ _ => ⟨rfl, rfl⟩, fun _ hf => absurd hf hu⟩
    · rename_i hu
      have hu : t.union = [] := by simpa using hu
      split at h
      · cases h
      · rename_i b hb
        obtain ⟨e, he, h⟩ := bind_ok h
        rw [hb] at h
        split at h
        · rename_i hs
          rw [special_iff] at hs
          split at h
          · cases h
          · rename_i helper hh
            cases h
            exact ⟨_, rfl, rfl, rfl, fun _ => rfl, fun hf => (by rw [hl] at hf; cases hf), fun _ hf => absurd hu hf, fun _ _ => ⟨b, e, hb, he, rfl,
              fun _ => ⟨⟨_, List.mem_cons_of_mem _ (List.mem_cons_self ..), rfl⟩, ⟨_, List.mem_cons_self .., rfl⟩, helper, hh, rfl⟩,
              fun hf => absurd hs hf⟩⟩
        · rename_i hs
          rw [special_iff] at hs
          cases h
          exact ⟨_, rfl, rfl, rfl, fun _ => rfl, fun hf => (by rw [hl] at hf; cases hf), fun _ hf => absurd hu hf, fun _ _ => ⟨b, e, hb, he, rfl,
            fun hf => absurd hf hs, fun _ => ⟨rfl, rfl⟩⟩⟩

/-- A type derived from `date`, and a union. -/
example :
    let dates := (genTypeSpec asciiEnv (addStandardHelpers {}) 5
      [.simple { name := ⟨[], b!"s"⟩, doc := b!"a day", base := some (.builtin 16) }] (.obj 0)).toOption
    let union := (genTypeSpec asciiEnv {} 5 [.simple { name := ⟨[], b!"u"⟩, union := [.builtin 28, .builtin 38] }] (.obj 0)).toOption
    (dates.map fun r => r.2.map fun s => (s.name, s.doc, s.expr)) = some [(b!"S", b!"a day", .plain (.ident b!"time.Time"))] ∧
    (dates.map fun r => r.2.map fun s => (s.methods.map (·.name), s.helperTypes)) =
      some [([b!"UnmarshalText", b!"MarshalText"], [builtinName 16])] ∧
    (union.map fun r => r.2.map fun s => (s.name, s.expr)) = some [(b!"U", .plain (.ident b!"string"))] := by
  intro dates union
  exact ⟨by decide +kernel, by decide +kernel, by decide +kernel⟩

/-- C95 is false: the documentation of a list is lost. -/
theorem C95_doc_refuted :
    ((genTypeSpec asciiEnv {} 5 [.simple { name := ⟨[], b!"s"⟩, doc := b!"about s", list := true, base := some (.builtin 28) }] (.obj 0)).toOption.map
      fun r => r.2.map fun s => (s.name, s.doc, s.expr)) = some [(b!"S", [], .plain (.array (.ident b!"int")))] := by
  decide +kernel

end GoXml.Xsdgen
