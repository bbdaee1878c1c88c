import Verif.Proofs.XsdgenName
set_option autoImplicit false

/-! Lemmas for the theorem about the answers of `NameOf` for unknown names. -/

namespace GoXml.Xsdgen
open Xsd GoMap

/-- What is known about a name that nothing has, whatever has been asked before. -/
structure Unheard (env : Env) (cfg : Config) (T : GoMap XName Ty) (D : GoMap Str Spec) (q : XName) (H : THeap) (code : Code) : Prop where
  ready : Ready False env cfg T D ⟨[], []⟩ 0 [] H code
  asked : get code.names q = none
  absent : get T q = none
  nobody : ∀ id, xmlName H (.obj id) ≠ q

theorem nameOf_unheard {env : Env} {cfg : Config} {n : Nat} {T : GoMap XName Ty} {D : GoMap Str Spec} {name : XName}
    (hnb : parseBuiltin name = none) : ∀ (k : Nat) (H : THeap) (code : Code) (q : XName) (r : THeap × Code × Str),
    Unheard env cfg T D name H code → nameOf env cfg n k H code q = .ok r → Unheard env cfg T D name r.1 r.2.1 := by
  intro k
  induction k with
  | zero => intro H code q r _ h; cases h
  | succ k ih =>
    intro H code q r hU h
    have hR' := (nameOf_ready (k + 1) H code q r hU.ready h).1
    simp only [nameOf] at h
    split at h
    · cases h; exact hU
    · split at h
      · rename_i b hb
        obtain ⟨o, ho, h⟩ := bind_ok h
        split at h
        · cases h; exact hU
        · cases h
          refine ⟨hR', ?_, hU.absent, hU.nobody⟩
          show get (GoMap.set code.names q _) name = none
          rw [get_set, if_neg]
          · exact hU.asked
          · rintro rfl
            rw [hnb] at hb
            cases hb
      · split at h
        · cases h; exact hU
        · rename_i t ht
          rw [hU.ready.types] at ht
          obtain ⟨hnl, hkey⟩ := hU.ready.keys q t ht
          obtain ⟨f, hf, h⟩ := bind_ok h
          have hv' : ∀ v, some t = some v → NotLink v := by intro v hv; cases hv; exact hnl
          have flow := (flatten1_flow cfg n 1001 H _ f hU.ready.linked hv' hf).1
          have hU1 : Unheard env cfg T D name f.1 code :=
            ⟨hU.ready.heap (flow.linked hU.ready.linked) flow.names (fun b hs => hs.flow hU.ready.linked hv' hf), hU.asked, hU.absent,
              fun id => by rw [flow.names]; exact hU.nobody id⟩
          split at h
          · exact ih _ _ _ _ hU1 h
          · split at h
            · cases h
              have he := specHeap_ext (env := env) (cfg := cfg) (n := n) (H := f.1) (t := t)
              exact ⟨hR', hU1.asked, hU1.absent, fun id => by rw [he.names]; exact hU1.nobody id⟩
            · rename_i s hs
              cases h
              have he := (genTypeSpec_named hs).1
              refine ⟨hR', ?_, hU1.absent, fun id => by rw [he.names]; exact hU1.nobody id⟩
              show get (nameAll s.1 s.2 code.names) name = none
              rw [nameAll_other, hU1.asked]
              intro x hx
              obtain ⟨h1, -, j, o, rfl, hj⟩ := genTypeSpec_type hs x hx
              rw [h1, he.names]
              exact hU1.nobody j
            · cases h
            · cases h

theorem after_unheard {env : Env} {cfg : Config} {n k : Nat} {T : GoMap XName Ty} {D : GoMap Str Spec} {name : XName} {H H' : THeap} {code code' : Code}
    (hnb : parseBuiltin name = none) (h : AfterCalls env cfg n k H code H' code') (hU : Unheard env cfg T D name H code) :
    Unheard env cfg T D name H' code' := by
  induction h with
  | start => exact hU
  | call _ hc ih => exact nameOf_unheard hnb _ _ _ _ _ ih hc

theorem genSchemas_objs {env : Env} {cfg : Config} {n : Nat} : ∀ (schemas : List (List Ty)) (H : THeap) (r : THeap × List Spec × Bool),
    genSchemas env cfg n H schemas = .ok r → r.2.2 = false → ∀ s ∈ r.2.1, ∃ id, s.xsdType = .obj id := by
  intro schemas
  induction schemas with
  | nil => intro H r h _ s hs; cases h; cases hs
  | cons types rest ih =>
    intro H r h hr s hs
    obtain ⟨f, hf, h⟩ := bind_ok h
    obtain ⟨H2, hH2, h⟩ := bind_ok h
    obtain ⟨g, hg, h⟩ := bind_ok h
    obtain ⟨q, hq, h⟩ := bind_ok h
    cases h
    simp only [Bool.or_eq_false_iff] at hr
    rcases List.mem_append.mp hs with hs | hs
    · obtain ⟨-, -, id, o, h, -⟩ := (genList_class _ H2 g hg hr.1).2.1 s hs
      exact ⟨id, h⟩
    · exact ih _ _ hq hr.2 s hs

theorem gen_unheard {env : Env} {srt : Sorter strLt} {cfg : Config} {n : Nat} {primaries deps : List Schema} {H : THeap} {r : THeap × Code × Config}
    (hpre : Untouched cfg H primaries) (hfine : Fine cfg H) (hsb : SchemaBased H)
    (htop : ∀ s ∈ primaries ++ deps, ∀ e ∈ s.types, ∀ m, e.2 ≠ .link m)
    (hone : ∀ s ∈ primaries ++ deps, ∀ s' ∈ primaries ++ deps, ∀ k t t', (k, t) ∈ s.types → (k, t') ∈ s'.types → t = t')
    (h : gen env srt cfg n primaries deps H = .ok r) (name : XName) (hno : ∀ s ∈ primaries ++ deps, ∀ t, (name, t) ∉ s.types)
    (hobj : ∀ id, xmlName H (.obj id) ≠ name) : Unheard env r.2.2 r.2.1.types r.2.1.decls name r.1 r.2.1 := by
  refine ⟨(gen_ready hpre hfine hsb htop hone h srt).1, ?_, ?_, ?_⟩ <;> rw [gen_untouched hpre] at h <;> obtain ⟨q, hq, h⟩ := bind_ok h <;> split at h
  · cases h
  · rename_i hflag
    have hn := (genSchemas_class _ H q hfine (by
      intro types ht t htt
      obtain ⟨s, hs, rfl⟩ := List.mem_map.mp ht
      obtain ⟨e, he, rfl⟩ := List.mem_map.mp htt
      have := htop s (List.mem_append_left _ hs) e he
      cases he2 : e.2 with
      | link m => exact absurd he2 (this m)
      | _ => trivial) hq (by simpa using hflag)).2.1
    cases h
    show get (nameAll q.1 q.2.1 []) name = none
    rw [nameAll_other]
    · rfl
    · intro s hs
      obtain ⟨id, h⟩ := genSchemas_objs _ _ _ hq (by simpa using hflag) s hs
      rw [h, hn]
      exact hobj id
  · cases h
  · cases h
    show get (allTypes (primaries ++ deps)) name = none
    cases ha : get (allTypes (primaries ++ deps)) name with
    | none => rfl
    | some t =>
      rcases allTypes_from _ [] name t ha with ⟨s, hs, ht⟩ | h
      · exact absurd ht (hno s hs t)
      · cases h
  · cases h
  · rename_i hflag
    have hn := (genSchemas_class _ H q hfine (by
      intro types ht t htt
      obtain ⟨s, hs, rfl⟩ := List.mem_map.mp ht
      obtain ⟨e, he, rfl⟩ := List.mem_map.mp htt
      have := htop s (List.mem_append_left _ hs) e he
      cases he2 : e.2 with
      | link m => exact absurd he2 (this m)
      | _ => trivial) hq (by simpa using hflag)).2.1
    cases h
    intro id
    show xmlName q.1 _ ≠ _
    rw [hn]
    exact hobj id

end GoXml.Xsdgen
