import Verif.Proofs.XsdgenTypes
import Verif.Proofs.XsdgenExpand
import Verif.Proofs.XsdgenNeeds
import Mathlib.Tactic.Tauto
set_option autoImplicit false

/-! Properties C43, C44, C45, C53 and C67: the list of types to generate. -/

namespace GoXml.Xsdgen
open Xsd

/-! ### C43 -/

/-- C43. `dedup` keeps the first type of every name, in order. -/
theorem C43_dedup (H : THeap) (types : List Ty) :
    dedup H types = firsts (xmlName H) types ∧ ((dedup H types).map (xmlName H)).Nodup ∧
    ∀ n, n ∈ (dedup H types).map (xmlName H) ↔ n ∈ types.map (xmlName H) := by
  rw [dedup_eq]
  exact ⟨rfl, firsts_nodup _ types, firsts_keys _ types⟩

example : dedup [.simple { name := ⟨[], b!"a"⟩ }, .simple { name := ⟨[], b!"a"⟩ }] [.obj 1, .builtin 3, .obj 0, .builtin 3] =
    [.obj 1, .builtin 3] := by decide +kernel

/-- C43. The list of types to generate has each name once, whatever the order in which the map of types
is visited. -/
theorem C43_flatten (cfg : Config) (n : Nat) (H H' : THeap) (types out : List Ty)
    (h : flatten cfg n H types = .ok (H', out)) : (out.map (xmlName H')).Nodup := by
  unfold flatten at h
  cases hr : flattenLoop cfg n H types with
  | error => rw [hr] at h; cases h
  | panic => rw [hr] at h; cases h
  | running => rw [hr] at h; cases h
  | ok r =>
    rw [hr] at h
    simp only [Run.bind, Run.ok.injEq, Prod.mk.injEq] at h
    obtain ⟨rfl, rfl⟩ := h
    exact (C43_dedup r.1 r.2).2.1

/-! ### C44 -/

/-- C44, partial. If the listed types and their ancestors can be told apart by name and no type is its own
ancestor, `expandComplexTypes` ends, gives every listed complex type and every complex ancestor of one the
fields of all its complex ancestors that are not shadowed, and changes nothing else. The full statement
has no hypothesis about ancestors; `C44_inherits_refuted` shows that the call does not end without it. -/
theorem C44_inherits_partial (n : Nat) (H : THeap) (types : List Ty) (hnd : (types.map (xmlName H)).Nodup)
    (hdist : ∀ t1 ∈ types, ∀ t2 ∈ types, ∀ a1 a2, Ancestor H t1 a1 → Ancestor H t2 a2 → xmlName H a1 = xmlName H a2 → a1 = a2)
    (hfin : ∀ t ∈ types, EndsWithin H n t) :
    ∃ H', expandComplexTypes (n + 1) H types = .ok H' ∧ H'.length = H.length ∧
      ∀ id : Nat,
        ((∀ t ∈ types, ¬ Ancestor H t (.obj id)) → H'[id]? = H[id]?) ∧
        ((∀ c, H[id]? ≠ some (.complex c)) → H'[id]? = H[id]?) ∧
        (∀ t ∈ types, Ancestor H t (.obj id) → ∀ c, H[id]? = some (.complex c) →
          ∃ cs, Lineage H id (c :: cs) ∧ H'[id]? = some (.complex (withInherited c cs))) :=
  expand_spec n H types hnd hdist hfin

/-- C44, partial: under the same hypotheses the result does not depend on the order of the list. -/
theorem C44_order_partial (n : Nat) (H : THeap) (types types' : List Ty) (hp : types.Perm types')
    (hnd : (types.map (xmlName H)).Nodup)
    (hdist : ∀ t1 ∈ types, ∀ t2 ∈ types, ∀ a1 a2, Ancestor H t1 a1 → Ancestor H t2 a2 → xmlName H a1 = xmlName H a2 → a1 = a2)
    (hfin : ∀ t ∈ types, EndsWithin H n t) :
    ∃ H', expandComplexTypes (n + 1) H types = .ok H' ∧ expandComplexTypes (n + 1) H types' = .ok H' := by
  obtain ⟨H1, e1, l1, s1⟩ := expand_spec n H types hnd hdist hfin
  obtain ⟨H2, e2, l2, s2⟩ := expand_spec n H types' ((hp.map _).nodup_iff.mp hnd)
    (fun t1 h1 t2 h2 => hdist t1 (hp.mem_iff.mpr h1) t2 (hp.mem_iff.mpr h2)) (fun t h => hfin t (hp.mem_iff.mpr h))
  have : H1 = H2 := by
    apply List.ext_getElem?
    intro id
    obtain ⟨a1, b1, c1⟩ := s1 id
    obtain ⟨a2, b2, c2⟩ := s2 id
    by_cases hc : ∃ c, H[id]? = some (.complex c)
    · obtain ⟨c, hc⟩ := hc
      by_cases hl : ∃ t ∈ types, Ancestor H t (.obj id)
      · obtain ⟨t, ht, ha⟩ := hl
        obtain ⟨cs, q1, q2⟩ := c1 t ht ha c hc
        obtain ⟨cs', q3, q4⟩ := c2 t (hp.mem_iff.mp ht) ha c hc
        have := q1.unique q3
        simp only [List.cons.injEq, true_and] at this
        subst this
        rw [q2, q4]
      · have hl' : ∀ t ∈ types, ¬ Ancestor H t (.obj id) := fun t ht ha => hl ⟨t, ht, ha⟩
        rw [a1 hl', a2 (fun t ht => hl' t (hp.mem_iff.mpr ht))]
    · have hc' : ∀ c, H[id]? ≠ some (.complex c) := fun c h => hc ⟨c, h⟩
      rw [b1 hc', b2 hc']
  subst this
  exact ⟨H1, e1, e2⟩

/-- Three types: C extends B, which extends A; B has an element of A's and C has an attribute of A's. -/
def C44_heap : THeap :=
  [.complex { name := ⟨[], b!"A"⟩, base := some (.builtin 0),
              elements := [{ name := ⟨[], b!"a"⟩, type := .builtin 38 }, { name := ⟨[], b!"s"⟩, type := .builtin 38 }],
              attributes := [{ name := ⟨[], b!"x"⟩, type := .builtin 38 }, { name := ⟨[], b!"y"⟩, type := .builtin 38 }] },
   .complex { name := ⟨[], b!"B"⟩, base := some (.obj 0), extends_ := true,
              elements := [{ name := ⟨[], b!"s"⟩, type := .builtin 28 }, { name := ⟨[], b!"b"⟩, type := .builtin 38 }] },
   .complex { name := ⟨[], b!"C"⟩, base := some (.obj 1), extends_ := true,
              elements := [{ name := ⟨[], b!"c"⟩, type := .builtin 38 }],
              attributes := [{ name := ⟨[], b!"x"⟩, type := .builtin 28 }] }]

/-- Its ancestors. -/
theorem C44_heap_ancestors (a : Ty) (h : Ancestor C44_heap (.obj 2) a) : a ∈ [Ty.obj 2, .obj 1, .obj 0, .builtin 0] := by
  have step : ∀ t ∈ [Ty.obj 2, .obj 1, .obj 0, .builtin 0], ∀ b, baseOf C44_heap t = some b →
      b ∈ [Ty.obj 2, .obj 1, .obj 0, .builtin 0] := by
    intro t ht b hb
    have : ∀ t ∈ [Ty.obj 2, .obj 1, .obj 0, .builtin 0], ∀ b ∈ (baseOf C44_heap t).toList,
      b ∈ [Ty.obj 2, .obj 1, .obj 0, .builtin 0] := by decide +kernel
    exact this t ht b (by rw [hb]; simp)
  have key : ∀ t a, Ancestor C44_heap t a → t ∈ [Ty.obj 2, .obj 1, .obj 0, .builtin 0] → a ∈ [Ty.obj 2, .obj 1, .obj 0, .builtin 0] := by
    intro t a h
    clear * - h step
    induction h with
    | self _ => exact id
    | base hb _ ih => exact fun ht => ih (step _ ht _ hb)
  exact key _ _ h (by simp)

/-- The hypotheses of C44 are met by it, and this is what becomes of C. -/
example : (∀ t ∈ [Ty.obj 2], EndsWithin C44_heap 3 t) ∧
    (∀ t1 ∈ [Ty.obj 2], ∀ t2 ∈ [Ty.obj 2], ∀ a1 a2, Ancestor C44_heap t1 a1 → Ancestor C44_heap t2 a2 →
      xmlName C44_heap a1 = xmlName C44_heap a2 → a1 = a2) ∧
    ((expandComplexTypes 4 C44_heap [.obj 2]).toOption.map fun H' => match H'[2]? with
      | some (TObj.complex c) => (c.elements.map (fun e => (e.name.loc, e.type)), c.attributes.map (fun e => (e.name.loc, e.type)))
      | _ => ([], [])) =
      some ([(b!"a", .builtin 38), (b!"s", .builtin 28), (b!"b", .builtin 38), (b!"c", .builtin 38)],
        [(b!"x", .builtin 28), (b!"y", .builtin 38)]) := by
  refine ⟨?_, ?_, by decide +kernel⟩
  · intro t ht
    simp only [List.mem_singleton] at ht
    subst ht
    exact .base (b := .obj 1) (by decide +kernel) (.base (b := .obj 0) (by decide +kernel)
      (.base (b := .builtin 0) (by decide +kernel) (.none rfl)))
  · intro t1 h1 t2 h2 a1 a2 k1 k2
    simp only [List.mem_singleton] at h1 h2
    subst h1 h2
    have key : ∀ a1 ∈ [Ty.obj 2, .obj 1, .obj 0, .builtin 0], ∀ a2 ∈ [Ty.obj 2, .obj 1, .obj 0, .builtin 0],
      xmlName C44_heap a1 = xmlName C44_heap a2 → a1 = a2 := by decide +kernel
    exact key a1 (C44_heap_ancestors a1 k1) a2 (C44_heap_ancestors a2 k2)

/-- C44 is false if a type is derived from itself: the call does not end. -/
theorem C44_inherits_refuted : ∃ (H : THeap) (types : List Ty), (types.map (xmlName H)).Nodup ∧
    ∀ n H', expandComplexTypes n H types ≠ .ok H' := by
  refine ⟨[.complex { name := ⟨[], b!"A"⟩, base := some (.obj 1) }, .complex { name := ⟨[], b!"B"⟩, base := some (.obj 0) }],
    [.obj 0], by decide +kernel, ?_⟩
  intro n H'
  have key : ∀ (n : Nat) (index : GoMap XName Nat) (all : List Ty) (i : Nat), i < 2 →
      extendBases [.complex { name := ⟨[], b!"A"⟩, base := some (.obj 1) }, .complex { name := ⟨[], b!"B"⟩, base := some (.obj 0) }]
        n index all (some (.obj i)) = .running := by
    intro n
    induction n with
    | zero => intros; rfl
    | succ n ih =>
      intro index all i hi
      have hb : baseOf [.complex { name := ⟨[], b!"A"⟩, base := some (.obj 1) }, .complex { name := ⟨[], b!"B"⟩, base := some (.obj 0) }]
          (.obj i) = some (.obj (1 - i)) := by
        match i, hi with
        | 0, _ => rfl
        | 1, _ => rfl
      simp only [extendBases, hb]
      split
      · exact ih _ _ _ (by omega)
      · exact ih _ _ _ (by omega)
  have e : baseOf [.complex { name := ⟨[], b!"A"⟩, base := some (.obj 1) }, .complex { name := ⟨[], b!"B"⟩, base := some (.obj 0) }]
      (.obj 0) = some (.obj 1) := rfl
  simp only [expandComplexTypes, extendAll, e, key n _ _ 1 (by omega), Run.bind]
  exact fun h => by cases h

/-! ### C45 -/

/-- C45. `mergeAttributes` keeps the attributes of the derived type and appends those attributes of the
base whose name it lacks, the first of each name, in order. -/
theorem C45_merge (src base : List XAttr) :
    mergeAttributes src base =
      src ++ (firsts (·.name) base).filter (fun a => decide (a.name ∉ src.map (·.name))) ∧
    ((src.map (·.name)).Nodup → ((mergeAttributes src base).map (·.name)).Nodup) ∧
    (∀ n, n ∈ (mergeAttributes src base).map (·.name) ↔ n ∈ src.map (·.name) ∨ n ∈ base.map (·.name)) := by
  refine ⟨merge_eq src base, ?_, merge_names base src⟩
  intro h
  rw [merge_eq, List.map_append, List.nodup_append]
  refine ⟨h, ?_, ?_⟩
  · exact (firsts_nodup _ base).sublist ((List.filter_sublist).map _)
  · intro a ha b hb he
    subst he
    obtain ⟨x, hx, rfl⟩ := List.mem_map.mp hb
    simp only [List.mem_filter, decide_eq_true_eq] at hx
    exact hx.2 ha

example : (mergeAttributes [{ name := ⟨[], b!"x"⟩, type := .builtin 28 }]
    [{ name := ⟨[], b!"y"⟩, type := .builtin 38 }, { name := ⟨[], b!"x"⟩, type := .builtin 38 }, { name := ⟨[], b!"y"⟩, type := .builtin 3 }]).map
      (fun a => (a.name.loc, a.type)) = [(b!"x", .builtin 28), (b!"y", .builtin 38)] := by decide +kernel

/-! ### C53 -/

/-- C53. Flattening a simple type makes it and all simple types it is derived from refer to the built-in
type at the end, emits the latter in order, and changes nothing else but the documentation of the type. -/
theorem C53_collapse (cfg : Config) (n d : Nat) (H : THeap) (id : Nat) (ids : List Nat) (b : Builtin) (s : SimpleT)
    (hc : SimpleChain H id ids b) (hs : H[id]? = some (.simple s)) (hn : ids.length < n) :
    ∃ H' doc r, flatten1 cfg n (d + 1) H (some (.obj id)) = .ok (H', ids.map .obj, some r) ∧ H'.length = H.length ∧
      (∀ j, j ∉ id :: ids → H'[j]? = H[j]?) ∧
      (∀ j ∈ ids, ∀ t, H[j]? = some (.simple t) → H'[j]? = some (.simple { t with base := some (.builtin b) })) ∧
      H'[id]? = some (.simple { s with base := some (.builtin b), doc := doc }) ∧
      (r = .obj id ∨ r = .builtin b ∧ doc = s.doc) := by
  obtain ⟨H', doc, r, h1, h2, h3, h4, h5, h6⟩ := flattenSimple_chain n H id ids b s hc hs hn
  refine ⟨H', doc, r, ?_, h2, h3, h4, h5, ?_⟩
  · simp only [flatten1, hs, h1]
  · rcases h6 with ⟨_, _, h⟩ | ⟨_, _, h⟩ | ⟨_, _, h, h'⟩
    · exact Or.inl h
    · exact Or.inl h
    · exact Or.inr ⟨h', h⟩

/-- C53, partial. The type is replaced by the built-in type exactly when it says no more than that. The
full statement has no hypothesis on the facet `length`; it is refuted by `C53_replaced_refuted`. -/
theorem C53_replaced_partial (cfg : Config) (n d : Nat) (H : THeap) (id : Nat) (ids : List Nat) (b : Builtin) (s : SimpleT)
    (hc : SimpleChain H id ids b) (hs : H[id]? = some (.simple s)) (hn : ids.length < n) (hl : s.restriction.length = 0) :
    ∃ H' pushed r, flatten1 cfg n (d + 1) H (some (.obj id)) = .ok (H', pushed, some r) ∧
      (SaysMore s b → r = .obj id) ∧ (¬ SaysMore s b → r = .builtin b) := by
  obtain ⟨H', doc, r, h1, h2, h3, h4, h5, h6⟩ := flattenSimple_chain n H id ids b s hc hs hn
  refine ⟨H', ids.map .obj, r, by simp only [flatten1, hs, h1], ?_⟩
  have hd : ∀ d, keptDoc s.restriction = some d → ¬ (s.restriction.enum = [] ∧ s.restriction.pattern = none ∧
      s.restriction.maxLength = 0 ∧ s.restriction.minLength = 0) := by
    intro d hd h
    rw [(keptDoc_none _).mpr h] at hd
    cases hd
  unfold SaysMore
  rw [← nonTrivial_iff]
  rcases h6 with ⟨k1, _, rfl⟩ | ⟨k1, k2, rfl⟩ | ⟨k1, k2, _, rfl⟩
  · exact ⟨fun _ => rfl, fun h => absurd k1 (by tauto)⟩
  · have := hd _ k2
    exact ⟨fun _ => rfl, fun h => by exfalso; tauto⟩
  · have := (keptDoc_none _).mp k2
    exact ⟨fun h => by exfalso; tauto, fun _ => rfl⟩

/-- A chain of two simple types, the first of which has an enumeration. -/
def C53_heap : THeap :=
  [.simple { name := ⟨[], b!"a"⟩, base := some (.obj 1), restriction := { enum := [b!"u", b!"v"] } },
   .simple { name := ⟨[], b!"b"⟩, base := some (.builtin 40) }]

example : SimpleChain C53_heap 0 [1] 40 ∧
    SaysMore { name := ⟨[], b!"a"⟩, base := some (.obj 1), restriction := { enum := [b!"u", b!"v"] } } 40 :=
  ⟨.step rfl rfl (.last rfl rfl), Or.inr (Or.inr (Or.inr (Or.inl (by simp))))⟩

/-- C53 is false for the facet `length`: a type of strings of length 5 is replaced by the built-in type. -/
theorem C53_replaced_refuted (cfg : Config) (n d : Nat) : ∃ (H : THeap) (s : SimpleT) (b : Builtin),
    SimpleChain H 0 [] b ∧ H[(0 : Nat)]? = some (.simple s) ∧ s.restriction.length = 5 ∧ SaysMore s b ∧
    ∃ H', flatten1 cfg (n + 1) (d + 1) H (some (.obj 0)) = .ok (H', [], some (.builtin b)) :=
  ⟨[.simple { name := ⟨[], b!"a"⟩, base := some (.builtin 38), restriction := { length := 5 } }],
    { name := ⟨[], b!"a"⟩, base := some (.builtin 38), restriction := { length := 5 } }, 38,
    .last rfl rfl, rfl, rfl, by simp [SaysMore], _, rfl⟩

/-! ### C67 -/

/-- C67, partial. Every type in the result of `flatten` is needed by a type that the configuration
selects. The full statement also says that undoing the only `AllowType` selects all types again; that is
refuted by `C67_undo_refuted`. -/
theorem C67_needed_partial (cfg : Config) (n : Nat) (H H' : THeap) (types out : List Ty)
    (h : flatten cfg n H types = .ok (H', out)) (j : Nat) (hj : Ty.obj j ∈ out) :
    ∃ id, Ty.obj id ∈ types ∧ Selected cfg (xmlName H (.obj id)) ∧ Needs H id j := by
  unfold flatten at h
  cases hr : flattenLoop cfg n H types with
  | error => rw [hr] at h; cases h
  | panic => rw [hr] at h; cases h
  | running => rw [hr] at h; cases h
  | ok r =>
    rw [hr] at h
    simp only [Run.bind, Run.ok.injEq, Prod.mk.injEq] at h
    obtain ⟨rfl, rfl⟩ := h
    rw [dedup_eq] at hj
    exact (flattenLoop_good cfg n types H r (Kept.refl H) hr).2 j (firsts_mem _ hj)

/-- Three types, of which the first is selected and uses the second. -/
example : (flatten (applyOpt ⟨fun _ => none, id, fun _ t H => (t, H), id⟩ (.allowType ⟨[], b!"a"⟩) {}).1 5
    [.complex { name := ⟨[], b!"a"⟩, base := some (.builtin 0), elements := [{ name := ⟨[], b!"e"⟩, type := .obj 1 }] },
     .simple { name := ⟨[], b!"b"⟩, base := some (.builtin 38), list := true },
     .simple { name := ⟨[], b!"c"⟩, base := some (.builtin 38), list := true }] [.obj 0, .obj 1, .obj 2]).toOption.map (·.2) =
    some [.obj 1, .obj 0] := by decide +kernel

/-- C67 is false: if `AllowType` is used once and undone, no type at all is selected, and the list of types
to generate is empty. -/
theorem C67_undo_refuted (env : Env) (cfg : Config) (name : XName) (ha : cfg.allowTypes = none) :
    (∀ n, ¬ Selected (undoChain (applyOpt env) (.allowType name) cfg 1).1 n) ∧
    ∀ (n : Nat) (H : THeap) (types : List Ty),
      flatten (undoChain (applyOpt env) (.allowType name) cfg 1).1 n H types = .ok (H, []) := by
  have hs : (undoChain (applyOpt env) (.allowType name) cfg 1).1.allowTypes = some [] := by
    simp [undoChain, applyOpt, ha, GoMap.set, GoMap.erase]
  have hno : ∀ n, ¬ Selected (undoChain (applyOpt env) (.allowType name) cfg 1).1 n := by
    intro n h
    have := h.1 _ hs
    cases this
  refine ⟨hno, ?_⟩
  intro n H types
  generalize (undoChain (applyOpt env) (.allowType name) cfg 1).1 = cfg' at hno
  have : flattenLoop cfg' n H types = .ok (H, []) := by
    induction types with
    | nil => rfl
    | cons t ts ih =>
      have hsk : skipped cfg' (xmlName H t) = true := by
        cases hsk : skipped cfg' (xmlName H t) with
        | true => rfl
        | false => exact absurd ((skipped_iff cfg' _).mp hsk).2 (hno _)
      simp only [flattenLoop, hsk, if_true, ih]
  simp only [flatten, this, Run.bind]
  rfl

/-- C67: before `AllowType` was used, all types were selected. -/
example (n : XName) : Selected {} n := ⟨fun _ h => (by cases h), fun _ h => (by cases h)⟩

end GoXml.Xsdgen
