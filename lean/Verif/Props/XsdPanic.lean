import Verif.Proofs.XsdPanic
import Verif.Proofs.XsdOrder
set_option autoImplicit false

/-! `Parse` and the order of schemas (C72), and the order of maps (C73). -/

namespace GoXml.Xsd
open Wsdl (attrNamed allNamed searchEl below defines refersTo)

/-- C72, partial: `Parse` does not panic if the schemas have distinct target namespaces and no schema
names a type of a later one as a base, an item type or the type of a top-level element. In general it
does, see below. -/
theorem C72_no_panic_partial (env : ParseEnv) (ord : MapOrder) (roots : List Element) (hd : (roots.map target).Nodup)
    (ho : InOrder roots) : parseSchemas env ord roots ≠ .panic := by
  intro h
  unfold parseSchemas at h
  split at h
  · cases h
  · rename_i p0 H0 h0
    split at h
    · cases h
    · rename_i hf
      refine finishRoots_no_panic h0 hd ho roots [] p0 H0 0 rfl ?_ hf
      refine ⟨rfl, ?_, fun _ _ => rfl, fun id o0 ho0 _ => ⟨o0.mixedFlag, by rw [withMixed_flag]; exact ho0⟩⟩
      intro id hid
      rcases hid with ⟨b, hb⟩ | ⟨k, hk, _⟩
      · cases hb
      · cases hk
    · cases h

/-- In particular, a single schema never makes `Parse` panic. -/
theorem C72_single_partial (env : ParseEnv) (ord : MapOrder) (root : Element) : parseSchemas env ord [root] ≠ .panic := by
  apply C72_no_panic_partial
  · simp
  · intro i j r r' hij hi hj
    have h1 := (List.getElem?_eq_some_iff.mp hj).1
    simp only [List.length_singleton] at h1
    omega

def isPanic : Outcome (List Schema × THeap) → Bool
  | .panic => true
  | _ => false

def scopeAB : Scope := ⟨b!"urn:a", b!"a"⟩ :: ⟨b!"urn:b", b!"b"⟩ :: xsScope

/-- A schema with a type `t` that extends `u` of the other schema. -/
def schemaA : Element := schemaTree b!"urn:a" scopeAB [extensionTree scopeAB b!"t" b!"b:u"]

/-- A schema with a type `u` that extends `w`, which extends `anyType`. -/
def schemaB : Element :=
  schemaTree b!"urn:b" scopeAB [extensionTree scopeAB b!"u" b!"b:w", extensionTree scopeAB b!"w" b!"anyType"]

/-- C72 is false: a valid pair of schemas makes `Parse` panic if the one that uses the other comes first;
in the other order it is parsed. -/
theorem C72_no_panic_refuted :
    parseSchemas plainEnv inOrder [schemaA, schemaB] = .panic ∧ ∃ r, parseSchemas plainEnv inOrder [schemaB, schemaA] = .ok r := by
  constructor
  · have h : isPanic (parseSchemas plainEnv inOrder [schemaA, schemaB]) = true := by decide +kernel
    cases hp : parseSchemas plainEnv inOrder [schemaA, schemaB] with
    | panic => rfl
    | ok r => rw [hp] at h; cases h
    | error => rw [hp] at h; cases h
  · have h : (resultOf (parseSchemas plainEnv inOrder [schemaB, schemaA])).isSome = true := by decide +kernel
    obtain ⟨r, hr⟩ := Option.isSome_iff_exists.mp h
    exact ⟨r, resultOf_ok hr⟩

/-- The hypotheses of the partial theorem hold for the second order. -/
example : ([schemaB, schemaA].map target).Nodup ∧ InOrder [schemaB, schemaA] := by
  refine ⟨by decide, ?_⟩
  intro i j r r' hij hi hj n hn ht
  have hj2 := (List.getElem?_eq_some_iff.mp hj).1
  simp only [List.length_cons, List.length_nil] at hj2
  have : i = 0 ∧ j = 1 := by omega
  obtain ⟨rfl, rfl⟩ := this
  cases hi; cases hj
  have hn' : n = ⟨b!"urn:a", b!"t"⟩ ∨ n = ⟨b!"urn:a", b!"_self"⟩ := by
    rcases ht with ⟨e, he, rfl⟩ | rfl
    · have : e = extensionTree scopeAB b!"t" b!"b:u" := by simpa using (show e ∈ [extensionTree scopeAB b!"t" b!"b:u"] from he)
      subst this; left; rfl
    · right; rfl
  have hb : ∀ d ∈ below schemaB, refersTo d b!"base" ≠ ⟨b!"urn:a", b!"t"⟩ ∧ refersTo d b!"base" ≠ ⟨b!"urn:a", b!"_self"⟩ ∧
      refersTo d b!"itemType" ≠ ⟨b!"urn:a", b!"t"⟩ ∧ refersTo d b!"itemType" ≠ ⟨b!"urn:a", b!"_self"⟩ := by
    have hbool : ((below schemaB).all fun d => decide (refersTo d b!"base" ≠ ⟨b!"urn:a", b!"t"⟩ ∧ refersTo d b!"base" ≠ ⟨b!"urn:a", b!"_self"⟩ ∧
      refersTo d b!"itemType" ≠ ⟨b!"urn:a", b!"t"⟩ ∧ refersTo d b!"itemType" ≠ ⟨b!"urn:a", b!"_self"⟩)) = true := by decide +kernel
    intro d hd
    simpa using List.all_eq_true.mp hbool d hd
  rcases hn with ⟨d, hd, h⟩ | ⟨el, hel, hname, _⟩ | h
  · have := hb d hd
    rcases hn' with rfl | rfl
    · rcases h with h | h
      · exact this.1 h.symm
      · exact this.2.2.1 h.symm
    · rcases h with h | h
      · exact this.2.1 h.symm
      · exact this.2.2.2 h.symm
  · simp only [schemaB, schemaTree, Element.children, List.mem_cons, List.not_mem_nil, or_false] at hel
    rcases hel with rfl | rfl <;> exact absurd hname (by decide)
  · have : n = ⟨w3cSchemaNS, b!"anyType"⟩ := h
    rcases hn' with hx | hx <;> rw [this] at hx <;> exact absurd hx (by decide)

/-! ### C73 -/

/-- C73, partial: the result of `Parse` does not depend on the order in which maps are visited, if
schemas have distinct target namespaces, none of them empty, no type name contains a colon, no schema
names a type of a later one, and base chains end within the depth limit. In general it does, see below. -/
theorem C73_order_partial (env : ParseEnv) (ord ord' : MapOrder) (roots : List Element) (hd : (roots.map target).Nodup)
    (hplain : ∀ r ∈ roots, target r ≠ [] ∧ ∀ e ∈ typeDecls r, (58 : UInt8) ∉ attrNamed e b!"name") (ho : InOrder roots)
    (ss : List Schema) (H : THeap) (h : parseSchemas env ord roots = .ok (ss, H)) (hc : ∀ id < H.length, Chain H 1001 (.obj id)) :
    parseSchemas env ord' roots = .ok (ss, H) := by
  unfold parseSchemas at h ⊢
  split at h
  · cases h
  · rename_i p0 H0 h0
    split at h
    · cases h
    · cases h
    · rename_i parsed H' hf
      cases h
      obtain ⟨hp, _, _, _⟩ := parsed_roots roots parsed_nil h0
      have := finishRoots_order (ord' := ord') h0 hd ho (distinctNames_of_plain h0 hplain) roots [] [] p0 H0 0 parsed H rfl
        (inv_start hp roots) (by
          refine ⟨rfl, ?_, fun _ _ => rfl, fun id o0 ho0 _ => ⟨o0.mixedFlag, by rw [withMixed_flag]; exact ho0⟩⟩
          intro id hid
          rcases hid with ⟨b, hb⟩ | ⟨k, hk, _⟩
          · cases hb
          · cases hk) hf hc
      unfold extOf at this
      rw [this]

/-- The first loop over maps goes backwards. -/
def backwards : MapOrder where
  run := fun i _ _ l => if i = 0 then l.reverse else l
  perm := by
    intro i _ _ l
    split
    · exact List.reverse_perm l
    · exact List.Perm.refl l

/-- A schema without target namespace in which unprefixed names are in `urn:b`. -/
def schemaNoTarget : Element :=
  let sc : Scope := ⟨w3cSchemaNS, b!"xs"⟩ :: [⟨b!"urn:b", []⟩]
  schemaTree [] sc [extensionTree sc b!"u" b!"xs:anyType"]

/-- C73 is false: two types can have the same name, and which of them is used as the base of another type
depends on the order in which the schemas are visited. -/
theorem C73_order_refuted :
    ∃ roots ss H ss' H', parseSchemas plainEnv inOrder roots = .ok (ss, H) ∧ parseSchemas plainEnv backwards roots = .ok (ss', H') ∧
      ∃ s id, ss[1]? = some s ∧ s.types.get ⟨b!"urn:b", b!"v"⟩ = some (.obj id) ∧ baseOf H (.obj id) ≠ baseOf H' (.obj id) := by
  let sc : Scope := ⟨b!"urn:b", b!"b"⟩ :: xsScope
  let rb := schemaTree b!"urn:b" sc [extensionTree sc b!"u" b!"anyType", extensionTree sc b!"v" b!"b:u"]
  have h : ∃ r1 r2, resultOf (parseSchemas plainEnv inOrder [schemaNoTarget, rb]) = some r1 ∧
      resultOf (parseSchemas plainEnv backwards [schemaNoTarget, rb]) = some r2 := by
    have h1 : (resultOf (parseSchemas plainEnv inOrder [schemaNoTarget, rb])).isSome = true := by decide +kernel
    have h2 : (resultOf (parseSchemas plainEnv backwards [schemaNoTarget, rb])).isSome = true := by decide +kernel
    obtain ⟨r1, hr1⟩ := Option.isSome_iff_exists.mp h1
    obtain ⟨r2, hr2⟩ := Option.isSome_iff_exists.mp h2
    exact ⟨r1, r2, hr1, hr2⟩
  obtain ⟨⟨ss, H⟩, ⟨ss', H'⟩, h1, h2⟩ := h
  have e1 : ((resultOf (parseSchemas plainEnv inOrder [schemaNoTarget, rb])).map fun r =>
      (r.1[1]?.map fun s => s.types.get ⟨b!"urn:b", b!"v"⟩, baseOf r.2 (.obj 3))) = some (some (some (.obj 3)), some (.obj 2)) := by decide +kernel
  have e2 : ((resultOf (parseSchemas plainEnv backwards [schemaNoTarget, rb])).map fun r => baseOf r.2 (.obj 3)) = some (some (.obj 0)) := by
    decide +kernel
  rw [h1] at e1
  rw [h2] at e2
  simp only [Option.map_some, Option.some.injEq, Prod.mk.injEq] at e1 e2
  obtain ⟨e1, e1'⟩ := e1
  rw [Option.map_eq_some_iff] at e1
  obtain ⟨s, hs, hv⟩ := e1
  refine ⟨_, ss, H, ss', H', resultOf_ok h1, resultOf_ok h2, s, 3, hs, hv, ?_⟩
  rw [e1', e2]; decide

/-- The other hypotheses of `C73_order_partial` and those of `C38_bases_partial` hold for these schemas. -/
example : ∃ ss H, parseSchemas plainEnv inOrder [schemaB, schemaA] = .ok (ss, H) ∧
    (∀ r ∈ [schemaB, schemaA], target r ≠ [] ∧ ∀ e ∈ typeDecls r, (58 : UInt8) ∉ attrNamed e b!"name") ∧
    (∀ id < H.length, Chain H 1001 (.obj id)) ∧ (∀ o ∈ H, o.base ≠ none) ∧
    ∃ rank : Nat → Nat, ∀ (id : Nat) o b, H[id]? = some o → o.base = some (.obj b) → rank b < rank id := by
  have h : (resultOf (parseSchemas plainEnv inOrder [schemaB, schemaA])).map (fun r => r.2.map (·.base)) =
      some [some (.obj 1), some (.builtin 0), some (.builtin 0), some (.obj 0), some (.builtin 0)] := by decide +kernel
  rw [Option.map_eq_some_iff] at h
  obtain ⟨⟨ss, H⟩, h1, h2⟩ := h
  have hb : ∀ (i : Nat), (H[i]?).map (·.base) = ([some (.obj 1), some (.builtin 0), some (.builtin 0), some (.obj 0), some (.builtin 0)] : List (Option Ty))[i]? := by
    intro i
    rw [← h2, List.getElem?_map]
  have hlen : H.length = 5 := by rw [← List.length_map (f := (·.base)) (as := H), h2]; rfl
  have c1 : ∀ n, Chain H (n + 1) (.obj 1) := by
    intro n
    obtain ⟨o, ho, hob⟩ := Option.map_eq_some_iff.mp (hb 1)
    exact .step ho hob (.builtin _ _)
  have c0 : ∀ n, Chain H (n + 2) (.obj 0) := by
    intro n
    obtain ⟨o, ho, hob⟩ := Option.map_eq_some_iff.mp (hb 0)
    exact .step ho hob (c1 n)
  refine ⟨ss, H, resultOf_ok h1, ?_, ?_, ?_, ?_⟩
  · have : ([schemaB, schemaA].all fun r => decide (target r ≠ []) && (typeDecls r).all fun e => !(attrNamed e b!"name").contains 58) = true := by
      decide +kernel
    intro r hr
    have := List.all_eq_true.mp this r hr
    simpa using this
  · intro id hid
    rw [hlen] at hid
    match id, hid with
    | 0, _ => exact c0 999
    | 1, _ => exact c1 1000
    | 2, _ =>
      obtain ⟨o, ho, hob⟩ := Option.map_eq_some_iff.mp (hb 2)
      exact .step ho hob (.builtin _ _)
    | 3, _ =>
      obtain ⟨o, ho, hob⟩ := Option.map_eq_some_iff.mp (hb 3)
      exact .step ho hob (c0 998)
    | 4, _ =>
      obtain ⟨o, ho, hob⟩ := Option.map_eq_some_iff.mp (hb 4)
      exact .step ho hob (.builtin _ _)
  · intro o ho hn
    have : o.base ∈ H.map (·.base) := List.mem_map.mpr ⟨o, ho, rfl⟩
    rw [h2, hn] at this
    simp at this
  · refine ⟨fun i => match i with | 3 => 3 | 0 => 2 | 1 => 1 | _ => 0, ?_⟩
    intro id o b ho hob
    have hlt := (List.getElem?_eq_some_iff.mp ho).1
    rw [hlen] at hlt
    have := hb id
    rw [ho, Option.map_some, hob] at this
    match id, hlt with
    | 0, _ => cases this; decide
    | 1, _ => cases this
    | 2, _ => cases this
    | 3, _ => cases this; decide
    | 4, _ => cases this

end GoXml.Xsd
