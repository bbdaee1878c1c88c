import Verif.Proofs.XsdDecl
import Verif.Props.XsdBuiltin
set_option autoImplicit false

/-! Linking the types of schemas (C37, C38, C40). -/

namespace GoXml.Xsd
open Wsdl (attrNamed allNamed searchEl defines refersTo)

/-! ### C37 -/

/-- The types to be visited are built-in or have been allocated. -/
def Allocated (H : THeap) (ts : List Ty) : Prop := ∀ t ∈ ts, t.isLink = false ∧ ∀ id, t = .obj id → id < H.length

/-- C37: what `resolvePartialTypes` does if it succeeds. A type that is visited keeps everything except
that each link is replaced by the type its name means; others do not change. -/
theorem C37_replaced (ext own : GoMap XName Ty) (he : ∀ n t, ext.get n = some t → t.isLink = false)
    (ho : ∀ n t, own.get n = some t → t.isLink = false) (H H' : THeap) (ts : List Ty) (hts : Allocated H ts)
    (h : resolveTypes (lookupType own ext) H ts = some H') :
    H'.length = H.length ∧ ∀ (id : Nat) o, H[id]? = some o →
      (Ty.obj id ∉ ts → H'[id]? = some o) ∧
      (Ty.obj id ∈ ts → ∃ f, H'[id]? = some (o.mapTy f) ∧ (∀ t, t.isLink = false → f t = t) ∧
        ∀ n, Ty.link n ∈ o.tys → Meaning ext.get own.get n (f (.link n)) ∧ (f (.link n)).isLink = false) := by
  have hlk : ∀ n t, lookupType own ext n = some t → t.isLink = false := by
    intro n t h
    unfold lookupType at h
    split at h
    · cases h; rfl
    · split at h
      · rename_i t' ht'; cases h; exact he n _ ht'
      · exact ho n t h
  obtain ⟨h1, h2⟩ := resolveTypes_some _ hlk ts H H' h
  refine ⟨h1, fun id o hid => ?_⟩
  have h3 := h2 id o hid
  refine ⟨fun hn => by rw [if_neg hn] at h3; exact h3, fun hi => ⟨linkTo (lookupType own ext), by rw [if_pos hi] at h3; exact h3,
    fun t ht => linkTo_of_not_link _ t ht, fun n hn => ?_⟩⟩
  cases hl : lookupType own ext n with
  | none =>
    have := (resolveTypes_none _ hlk ts H hts).mpr ⟨id, o, n, hi, hid, hn, hl⟩
    rw [h] at this; cases this
  | some t =>
    simp only [linkTo, hl, Option.getD_some]
    exact ⟨(lookupType_iff own ext n t).mp hl, hlk n t hl⟩

/-- C37: it fails exactly if a type that is visited mentions a name that means nothing. -/
theorem C37_fails_iff (ext own : GoMap XName Ty) (he : ∀ n t, ext.get n = some t → t.isLink = false)
    (ho : ∀ n t, own.get n = some t → t.isLink = false) (H : THeap) (ts : List Ty) (hts : Allocated H ts) :
    resolveTypes (lookupType own ext) H ts = none ↔
      ∃ (id : Nat) (o : TObj) (n : XName), Ty.obj id ∈ ts ∧ H[id]? = some o ∧ Ty.link n ∈ o.tys ∧
        ∀ t, ¬ Meaning ext.get own.get n t := by
  have hlk : ∀ n t, lookupType own ext n = some t → t.isLink = false := by
    intro n t h
    unfold lookupType at h
    split at h
    · cases h; rfl
    · split at h
      · rename_i t' ht'; cases h; exact he n _ ht'
      · exact ho n t h
  rw [resolveTypes_none _ hlk ts H hts]
  have : ∀ n, lookupType own ext n = none ↔ ∀ t, ¬ Meaning ext.get own.get n t := by
    intro n
    rw [Option.eq_none_iff_forall_ne_some]
    exact forall_congr' fun t => not_congr (lookupType_iff own ext n t)
  simp only [this]

/-- C37: the order in which types are visited does not matter, nor do repetitions. -/
theorem C37_order (ext own : GoMap XName Ty) (he : ∀ n t, ext.get n = some t → t.isLink = false)
    (ho : ∀ n t, own.get n = some t → t.isLink = false) (H : THeap) (ts ts' : List Ty) (hts : Allocated H ts)
    (hsame : ∀ t, t ∈ ts ↔ t ∈ ts') :
    resolveTypes (lookupType own ext) H ts = resolveTypes (lookupType own ext) H ts' := by
  have hts' : Allocated H ts' := fun t ht => hts t ((hsame t).mpr ht)
  have hlk : ∀ n t, lookupType own ext n = some t → t.isLink = false := by
    intro n t h
    unfold lookupType at h
    split at h
    · cases h; rfl
    · split at h
      · rename_i t' ht'; cases h; exact he n _ ht'
      · exact ho n t h
  have hn := C37_fails_iff ext own he ho H ts hts
  have hn' := C37_fails_iff ext own he ho H ts' hts'
  simp only [hsame] at hn
  have hiff := hn.trans hn'.symm
  cases h : resolveTypes (lookupType own ext) H ts with
  | none => exact (hiff.mp h).symm
  | some H1 =>
    cases h' : resolveTypes (lookupType own ext) H ts' with
    | none => rw [hiff.mpr h'] at h; cases h
    | some H2 =>
      obtain ⟨l1, s1⟩ := resolveTypes_some _ hlk ts H H1 h
      obtain ⟨l2, s2⟩ := resolveTypes_some _ hlk ts' H H2 h'
      congr 1
      apply List.ext_getElem?
      intro i
      cases hi : H[i]? with
      | none =>
        rw [List.getElem?_eq_none_iff] at hi
        rw [List.getElem?_eq_none (by omega), List.getElem?_eq_none (by omega)]
      | some o =>
        rw [s1 i o hi, s2 i o hi]
        simp only [hsame]

/-- C37: after `Parse`, no link can be reached from a type of a schema. -/
theorem C37_parse (env : ParseEnv) (ord : MapOrder) (roots : List Element) (ss : List Schema) (H : THeap)
    (h : parseSchemas env ord roots = .ok (ss, H)) (s : Schema) (hs : s ∈ ss) (n : XName) (t : Ty) (hn : s.types.get n = some t)
    (u : Ty) (hr : Reach H t u) : u.isLink = false ∧ ∀ id, u = .obj id → id < H.length := by
  obtain ⟨p0, H0, parsed, _, hp, hi, hkeys, hroots, rfl⟩ := parseSchemas_inv h
  have hgood : Good p0 u := by
    induction hr with
    | refl =>
      rcases List.mem_append.mp hs with hs | hs
      · obtain ⟨r, hr, rfl⟩ := List.mem_map.mp hs
        cases hg : parsed.get (target r) with
        | none => rw [hg] at hn; cases hn
        | some s' => rw [hg] at hn; exact hi.vals _ _ hg n t hn
      · simp only [List.mem_singleton] at hs
        subst hs
        have := GoMap.get_some_mem hn
        obtain ⟨e, _, he⟩ := List.mem_map.mp this
        cases he
        exact Or.inl ⟨_, rfl⟩
    | step _ ho hu ih =>
      rcases ih with ⟨b, hb⟩ | ⟨k, s0, n0, hk, hn0⟩
      · cases hb
      · exact hi.done k (hkeys k (by rw [hk]; simp)) s0 hk n0 _ hn0 _ ho _ hu
  refine ⟨good_not_link hp hgood, fun id he => ?_⟩
  subst he
  rw [hi.len]; exact good_addr hp hgood

/-! ### C38 -/

/-- C38, partial: base chains end in a built-in type if no base is missing and they are not circular. The
full claim, without those conditions, is refuted below. -/
theorem C38_bases_partial (env : ParseEnv) (ord : MapOrder) (roots : List Element) (ss : List Schema) (H : THeap)
    (h : parseSchemas env ord roots = .ok (ss, H)) (hb : ∀ o ∈ H, o.base ≠ none)
    (rank : Nat → Nat) (hrank : ∀ (id : Nat) o b, H[id]? = some o → o.base = some (.obj b) → rank b < rank id)
    (s : Schema) (hs : s ∈ ss) (n : XName) (t : Ty) (hn : s.types.get n = some t) : EndsInBuiltin H t := by
  have hreach := C37_parse env ord roots ss H h s hs n t hn
  suffices hh : ∀ k u, Reach H t u → (∀ id, u = .obj id → rank id < k) → EndsInBuiltin H u by
    cases t with
    | builtin b => exact .builtin b
    | link m => exact absurd (hreach _ (.refl _)).1 (by simp [Ty.isLink])
    | obj id => exact hh (rank id + 1) _ (.refl _) (fun id' he => by cases he; omega)
  intro k
  induction k with
  | zero =>
    intro u hr hk
    cases u with
    | builtin b => exact .builtin b
    | link m => exact absurd (hreach _ hr).1 (by simp [Ty.isLink])
    | obj id => exact absurd (hk id rfl) (by omega)
  | succ k ih =>
    intro u hr hk
    cases u with
    | builtin b => exact .builtin b
    | link m => exact absurd (hreach _ hr).1 (by simp [Ty.isLink])
    | obj id =>
      have hlt := (hreach _ hr).2 id rfl
      have ho := List.getElem?_eq_getElem hlt
      cases hbase : H[id].base with
      | none => exact absurd hbase (hb _ (List.getElem_mem hlt))
      | some b =>
        have hrb : Reach H t b := .step hr ho (by
          cases hobj : H[id] with
          | complex c =>
            rw [hobj] at hbase
            have : c.base = some b := hbase
            simp [TObj.tys, this]
          | simple c =>
            rw [hobj] at hbase
            have : c.base = some b := hbase
            simp [TObj.tys, this])
        refine .step ho hbase (ih b hrb ?_)
        intro id' he
        subst he
        have h1 := hrank id _ id' ho hbase
        have h2 := hk id rfl
        omega

/-- Without circular bases, the search along a base chain ends. -/
theorem findType_ends (H : THeap) (rank : Nat → Nat) (hrank : ∀ (id : Nat) o b, H[id]? = some o → o.base = some (.obj b) → rank b < rank id)
    (name : XName) (k : Nat) : ∀ t, (∀ id, t = .obj id → rank id < k) → ∀ fuel, k + 2 ≤ fuel → ∃ r, findType H name fuel t = some r := by
  induction k with
  | zero =>
    intro t hk fuel hf
    obtain ⟨fuel, rfl⟩ : ∃ f, fuel = f + 1 := ⟨fuel - 1, by omega⟩
    rw [findType]
    split
    · exact ⟨_, rfl⟩
    · cases t with
      | builtin b => exact ⟨_, rfl⟩
      | link m => exact ⟨_, rfl⟩
      | obj id => exact absurd (hk id rfl) (by omega)
  | succ k ih =>
    intro t hk fuel hf
    obtain ⟨fuel, rfl⟩ : ∃ f, fuel = f + 1 := ⟨fuel - 1, by omega⟩
    rw [findType]
    split
    · exact ⟨_, rfl⟩
    · cases hb : baseOf H t with
      | none => exact ⟨_, rfl⟩
      | some b =>
        apply ih b _ fuel (by omega)
        intro id he
        subst he
        cases t with
        | builtin b => cases hb
        | link m => cases hb
        | obj id' =>
          simp only [baseOf] at hb
          split at hb
          · rename_i o ho
            have h1 := hrank id' o id ho hb
            have h2 := hk id' rfl
            omega
          · cases hb

/-- C38, partial: `FindType` terminates if bases are not circular. -/
theorem C38_findType_partial (H : THeap) (rank : Nat → Nat)
    (hrank : ∀ (id : Nat) o b, H[id]? = some o → o.base = some (.obj b) → rank b < rank id) (name : XName) (es : List (XName × Ty)) :
    ∃ fuel0, ∀ fuel, fuel0 ≤ fuel → ∃ r, findTypeIn H name fuel es = some r := by
  induction es with
  | nil => exact ⟨0, fun _ _ => ⟨_, rfl⟩⟩
  | cons e es ih =>
    obtain ⟨f1, h1⟩ := ih
    have : ∃ k, ∀ id, e.2 = .obj id → rank id < k := by
      cases e.2 with
      | builtin b => exact ⟨0, fun _ h => by cases h⟩
      | link m => exact ⟨0, fun _ h => by cases h⟩
      | obj id => exact ⟨rank id + 1, fun _ h => by cases h; omega⟩
    obtain ⟨k, hk⟩ := this
    refine ⟨f1 + k + 2, fun fuel hf => ?_⟩
    obtain ⟨r, hr⟩ := findType_ends H rank hrank name k e.2 hk fuel (by omega)
    rw [findTypeIn, hr]
    cases r with
    | some t => exact ⟨_, rfl⟩
    | none => exact h1 fuel (by omega)

/-! ### C40 -/

theorem enter_isSome (ks : List XName) (n : XName) : ∀ (m : GoMap XName Ty) (n0 : Nat), n ∈ ks ∨ m.get n ≠ none → (enter m n0 ks).get n ≠ none := by
  induction ks with
  | nil => intro m n0 h; simpa [enter] using h
  | cons k ks ih =>
    intro m n0 h
    rw [enter]
    apply ih
    rw [GoMap.get_set]
    by_cases hk : k = n
    · right; rw [if_pos hk]; simp
    · rw [if_neg hk]
      rcases h with h | h
      · rcases List.mem_cons.mp h with h | h
        · exact absurd h.symm hk
        · exact Or.inl h
      · exact Or.inr h

/-- C40, partial: if no two schemas have the same target namespace, the result of `Parse` has a schema
for each of them, in the same order, followed by that of the built-in types. It holds every type declared
there, under its name; the object is the one read from that declaration, with links replaced and flags
for mixed content set, if the name is not declared twice. Other entries are only `_self` and the names of
top-level elements. The claim without the condition is refuted below. -/
theorem C40_schemas_partial (env : ParseEnv) (ord : MapOrder) (roots : List Element) (hd : (roots.map target).Nodup)
    (ss : List Schema) (H : THeap) (h : parseSchemas env ord roots = .ok (ss, H)) :
    ss.length = roots.length + 1 ∧ ∀ (i : Nat) r, roots[i]? = some r → ∃ s, ss[i]? = some s ∧ s.targetNS = target r ∧
      (∀ e ∈ typeDecls r, defines (target r) e ≠ selfName r →
        ∃ id o, s.types.get (defines (target r) e) = some (.obj id) ∧ H[id]? = some o ∧ o.name = defines (target r) e ∧
          ((∀ e' ∈ typeDecls r, defines (target r) e' = defines (target r) e → e' = e) →
            ∃ o0, parseDecl env (target r) e = some o0 ∧ Evolved o0 o)) ∧
      (∃ t, s.types.get (selfName r) = some t) ∧
      (∀ n t, s.types.get n = some t → (∃ e ∈ typeDecls r, n = defines (target r) e) ∨ n = selfName r ∨ Alias r n) := by
  obtain ⟨p0, H0, parsed, h0, hp, hi, hkeys, hroots, rfl⟩ := parseSchemas_inv h
  obtain ⟨_, _, _, hin⟩ := parsed_roots roots parsed_nil h0
  refine ⟨by simp, fun i r hr => ?_⟩
  have hrm : r ∈ roots := List.mem_of_getElem? hr
  have huniq : ∀ r' ∈ roots, target r' = target r → r' = r := by
    intro r' hr' he
    exact List.inj_on_of_nodup_map hd hr' hrm he
  obtain ⟨r', hr', he, s0, Hr, Hr', hs0, hpt, hpre⟩ := hin (target r) (List.mem_map.mpr ⟨r, hrm, rfl⟩)
  have := huniq r' hr' he.symm
  subst this
  obtain ⟨s, hs, htns, hsub⟩ := hi.keys _ s0 hs0
  obtain ⟨os, self, ho1, ho2, rfl, hs4, hs5⟩ := parseTypes_eq hpt
  have hforall := (mapOpt_some_iff _ _ _).mp ho1
  obtain ⟨hlen, hget⟩ := List.forall₂_iff_get.mp hforall
  refine ⟨s, ?_, ?_, ?_, ?_, ?_⟩
  · rw [List.getElem?_append_left (by rw [List.length_map]; exact (List.getElem?_eq_some_iff.mp hr).1), List.getElem?_map, hr]
    simp only [Option.map_some]
    rw [hs]; rfl
  · rw [htns, hs4]; rfl
  · intro e hem hne
    obtain ⟨i0, hi0, rfl⟩ := List.getElem_of_mem hem
    have hname : ∀ j (hj : j < os.length), os[j].name = defines (target r') ((typeDecls r')[j]'(by omega)) := fun j hj =>
      (parseDecl_header (hget j (by omega) hj)).1
    have hmem : defines (target r') (typeDecls r')[i0] ∈ os.map (·.name) ++ [selfName r'] := by
      apply List.mem_append_left
      rw [← hname i0 (by omega)]
      exact List.mem_map.mpr ⟨_, List.getElem_mem _, rfl⟩
    obtain ⟨t, ht⟩ := Option.ne_none_iff_exists'.mp (enter_isSome _ _ [] Hr.length (Or.inl hmem))
    obtain ⟨j, hj1, hj2, rfl⟩ := (get_enter _ _ _ _).mp ht
    have hjl : j < os.length := by
      have hlt := (List.getElem?_eq_some_iff.mp hj1).1
      simp only [List.length_append, List.length_map, List.length_singleton] at hlt
      by_contra hcon
      have : j = os.length := by omega
      subst this
      rw [List.getElem?_append_right (by simp)] at hj1
      simp at hj1
      exact hne hj1.symm
    rw [List.getElem?_append_left (by simpa using hjl), List.getElem?_map, List.getElem?_eq_getElem hjl] at hj1
    simp only [Option.map_some, Option.some.injEq] at hj1
    have hs' : s0.types.get (defines (target r') (typeDecls r')[i0]) = some (.obj (Hr.length + j)) := by rw [hs5]; exact ht
    have hH0 : H0[Hr.length + j]? = some os[j] := by
      obtain ⟨rest, rfl⟩ := hpre
      rw [List.append_assoc, List.append_assoc, List.getElem?_append_right (by omega), Nat.add_sub_cancel_left,
        List.getElem?_append_left hjl, List.getElem?_eq_getElem hjl]
    have hlt : Hr.length + j < H.length := by rw [hi.len]; exact (List.getElem?_eq_some_iff.mp hH0).1
    obtain ⟨o0, ho0, hev⟩ := hi.evo _ _ (List.getElem?_eq_getElem hlt)
    rw [hH0] at ho0; cases ho0
    refine ⟨_, _, hsub _ _ hs', List.getElem?_eq_getElem hlt, by rw [evolved_name hev, hj1], ?_⟩
    intro hu
    refine ⟨_, ?_, hev⟩
    have := hu ((typeDecls r')[j]'(by omega)) (List.getElem_mem _) (by rw [← hname j hjl, hj1])
    rw [← this]
    exact hget j (by omega) hjl
  · obtain ⟨t, ht⟩ := Option.ne_none_iff_exists'.mp (enter_isSome (os.map (·.name) ++ [selfName r']) (selfName r') [] Hr.length (Or.inl (by simp)))
    exact ⟨t, hsub _ _ (by rw [hs5]; exact ht)⟩
  · intro n t hn
    rcases hi.names _ s hs n t hn with ⟨s1, hs1, hn1⟩ | ⟨r1, hr1, he1, ha⟩
    · have : s1 = s0 := Option.some.inj (hs1.symm.trans hs0)
      subst this
      rw [hs5, get_enter] at hn1
      obtain ⟨j, hj1, _, _⟩ := hn1
      have hm := List.mem_of_getElem? hj1
      rcases List.mem_append.mp hm with hm | hm
      · obtain ⟨o, ho, rfl⟩ := List.mem_map.mp hm
        obtain ⟨k, hk, rfl⟩ := List.getElem_of_mem ho
        exact Or.inl ⟨_, List.getElem_mem _, (parseDecl_header (hget k (by omega) hk)).1⟩
      · exact Or.inr (Or.inl (List.mem_singleton.mp hm))
    · have := huniq r1 hr1 he1
      subst this
      exact Or.inr (Or.inr ha)

/-- C27 for the result of `Parse`: the last schema is that of the XML Schema namespace, with its built-in types under their names and nothing
else. Missing: the two types of `C27_complete_refuted`. -/
theorem C27_appended_partial (env : ParseEnv) (ord : MapOrder) (roots : List Element) (ss : List Schema) (H : THeap)
    (h : parseSchemas env ord roots = .ok (ss, H)) :
    ∃ s, ss.getLast? = some s ∧ s.targetNS = w3cSchemaNS ∧
      (∀ b l, (b, l) ∈ w3cTypes → l ≠ b!"unsignedShort" → l ≠ b!"anySimpleType" → s.types.get ⟨w3cSchemaNS, l⟩ = some (.builtin b)) ∧
      ∀ n t, s.types.get n = some t → ∃ b, t = .builtin b ∧ n.space = w3cSchemaNS ∧ (b, n.loc) ∈ w3cTypes := by
  obtain ⟨_, _, _, _, _, _, _, _, rfl⟩ := parseSchemas_inv h
  refine ⟨builtinSchema, by simp, by decide, ?_, ?_⟩
  · have : ∀ t ∈ w3cTypes, t.2 ≠ b!"unsignedShort" → t.2 ≠ b!"anySimpleType" →
        builtinSchema.types.get ⟨w3cSchemaNS, t.2⟩ = some (.builtin t.1) := by decide +kernel
    exact fun b l h => this (b, l) h
  · intro n t hn
    have hm := GoMap.get_some_mem hn
    simp only [builtinSchema, List.mem_map] at hm
    obtain ⟨e, he, heq⟩ := hm
    cases heq
    exact ⟨e.2, rfl, C27_complete_partial.2.1 e.1 e.2 he⟩

/-! ### Counterexamples -/

/-- Documents without annotations; no other question is asked about them. -/
def plainEnv : ParseEnv := ⟨fun _ => some [], fun _ => none, fun _ => false, fun _ => false, fun _ => false⟩

/-- Maps are visited in the order of insertion. -/
def inOrder : MapOrder := ⟨fun _ _ _ l => l, fun _ _ _ _ => List.Perm.refl _⟩

def xsScope : Scope := [⟨w3cSchemaNS, []⟩]

example : ∃ ss H, parseSchemas plainEnv inOrder [] = .ok (ss, H) := ⟨_, _, rfl⟩

/-- `<schema targetNamespace="tns" xmlns:p="…">` with the given children. -/
def schemaTree (tns : Str) (scope : Scope) (cs : List Element) : Element :=
  .mk ⟨w3cSchemaNS, b!"schema"⟩ [⟨⟨[], b!"targetNamespace"⟩, tns⟩] scope [] cs

/-- A complex type that extends another. -/
def extensionTree (scope : Scope) (name base : Str) : Element :=
  .mk ⟨w3cSchemaNS, b!"complexType"⟩ [⟨⟨[], b!"name"⟩, name⟩] scope [] [
    .mk ⟨w3cSchemaNS, b!"complexContent"⟩ [] scope [] [
      .mk ⟨w3cSchemaNS, b!"extension"⟩ [⟨⟨[], b!"base"⟩, base⟩] scope [] []]]

/-- Two types that extend each other. -/
def circular : Element :=
  let sc : Scope := ⟨b!"urn:a", b!"a"⟩ :: xsScope
  schemaTree b!"urn:a" sc [extensionTree sc b!"t" b!"a:u", extensionTree sc b!"u" b!"a:t"]

theorem circular_findType (H : THeap) (name : XName) (h : ∀ id < 2, ∃ o, H[id]? = some o ∧ o.name ≠ name ∧ o.base = some (.obj (1 - id))) :
    ∀ fuel id, id < 2 → findType H name fuel (.obj id) = none := by
  intro fuel
  induction fuel with
  | zero => intro id _; rfl
  | succ fuel ih =>
    intro id hid
    obtain ⟨o, ho, hne, hb⟩ := h id hid
    simp only [findType, xmlName, baseOf, ho, hb, if_neg hne]
    exact ih _ (by omega)

/-- What a successful run returns. -/
def resultOf : Outcome (List Schema × THeap) → Option (List Schema × THeap)
  | .ok r => some r
  | _ => none

theorem resultOf_ok {o : Outcome (List Schema × THeap)} {r : List Schema × THeap} (h : resultOf o = some r) : o = .ok r := by
  cases o with
  | ok r' => cases h; rfl
  | error => cases h
  | panic => cases h

/-- C38 is false: types that extend each other are accepted, and then neither does the base chain end in
a built-in type nor does `FindType` return. -/
theorem C38_bases_refuted :
    ∃ root ss H s t, parseSchemas plainEnv inOrder [root] = .ok (ss, H) ∧ s ∈ ss ∧ s.types.get ⟨b!"urn:a", b!"t"⟩ = some t ∧
      ¬ EndsInBuiltin H t ∧ ∀ fuel, findTypeIn H ⟨b!"urn:a", b!"v"⟩ fuel s.types = none := by
  cases hr : parseSchemas plainEnv inOrder [circular] with
  | error =>
    have : (resultOf (parseSchemas plainEnv inOrder [circular])).isSome = true := by decide +kernel
    rw [hr] at this; cases this
  | panic =>
    have : (resultOf (parseSchemas plainEnv inOrder [circular])).isSome = true := by decide +kernel
    rw [hr] at this; cases this
  | ok r =>
    obtain ⟨ss, H⟩ := r
    have hss : ((resultOf (parseSchemas plainEnv inOrder [circular])).map fun r => (r.1.head?.map fun s => s.types)) =
        some (some [(⟨b!"urn:a", b!"t"⟩, .obj 0), (⟨b!"urn:a", b!"u"⟩, .obj 1), (⟨b!"urn:a", b!"_self"⟩, .obj 2)]) := by decide +kernel
    have hH : ((resultOf (parseSchemas plainEnv inOrder [circular])).map fun r => (r.2.take 2).map fun o => (o.name, o.base)) =
        some [(⟨b!"urn:a", b!"t"⟩, some (.obj 1)), (⟨b!"urn:a", b!"u"⟩, some (.obj 0))] := by decide +kernel
    rw [hr] at hss hH
    simp only [resultOf, Option.map_some, Option.some.injEq] at hss hH
    have hc : ∀ id < 2, ∃ o, H[id]? = some o ∧ o.name ≠ ⟨b!"urn:a", b!"v"⟩ ∧ o.base = some (.obj (1 - id)) := by
      match H, hH with
      | [], hH => cases hH
      | [_], hH => simp at hH
      | o1 :: o2 :: H, hH =>
        simp only [List.take_succ_cons, List.take_zero, List.map_cons, List.map_nil, List.cons.injEq, Prod.mk.injEq, and_true] at hH
        intro id hid
        match id, hid with
        | 0, _ => exact ⟨o1, rfl, by rw [hH.1.1]; decide, hH.1.2⟩
        | 1, _ => exact ⟨o2, rfl, by rw [hH.2.1]; decide, hH.2.2⟩
    match ss, hss with
    | [], hss => cases hss
    | s :: ss, hss =>
      simp only [List.head?_cons, Option.map_some, Option.some.injEq] at hss
      refine ⟨circular, _, _, s, .obj 0, hr, List.mem_cons_self, by rw [hss]; rfl, ?_, ?_⟩
      · intro h
        suffices hh : ∀ t, EndsInBuiltin H t → ∀ id, id < 2 → t ≠ .obj id from hh _ h 0 (by omega) rfl
        intro t h
        induction h with
        | builtin b => intro id _ he; cases he
        | @step i o b ho hb _ ih =>
          intro id hid he
          have := Ty.obj.inj he
          subst this
          obtain ⟨o', ho', _, hb'⟩ := hc i hid
          rw [ho] at ho'; cases ho'
          rw [hb] at hb'; cases hb'
          exact ih _ (by omega) rfl
      · intro fuel
        rw [hss, findTypeIn]
        simp only [circular_findType _ _ hc fuel 0 (by omega)]

/-- C40 is false: of two schemas with the same target namespace only the second one's types are in the
result. -/
theorem C40_schemas_refuted :
    ∃ r1 r2 ss H, parseSchemas plainEnv inOrder [r1, r2] = .ok (ss, H) ∧
      (∃ e ∈ typeDecls r1, defines (target r1) e = ⟨b!"urn:a", b!"t"⟩) ∧
      ∀ s ∈ ss, s.types.get ⟨b!"urn:a", b!"t"⟩ = none := by
  let r1 := schemaTree b!"urn:a" xsScope [extensionTree xsScope b!"t" b!"anyType"]
  let r2 := schemaTree b!"urn:a" xsScope [extensionTree xsScope b!"u" b!"anyType"]
  have h : (resultOf (parseSchemas plainEnv inOrder [r1, r2])).map (fun r => r.1.all fun s => (s.types.get ⟨b!"urn:a", b!"t"⟩).isNone) = some true := by
    decide +kernel
  rw [Option.map_eq_some_iff] at h
  obtain ⟨⟨ss, H⟩, h1, h2⟩ := h
  refine ⟨r1, r2, ss, H, resultOf_ok h1, ⟨_, List.mem_cons_self, rfl⟩, ?_⟩
  intro s hs
  simpa using List.all_eq_true.mp h2 s hs

end GoXml.Xsd
