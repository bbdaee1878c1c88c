import Verif.Proofs.XsdgenListFlat
set_option autoImplicit false

/-! If there is code for schemas, something has been generated for each of their simple types with something to say. -/

namespace GoXml.Xsdgen
open Xsd GoMap

/-- Something is generated for the type after it has been flattened. -/
def SpecGiven (env : Env) (cfg : Config) (n : Nat) (H : THeap) (id : Nat) : Prop :=
  ∃ G r, KeepHeap (fun _ => False) H G ∧ FlatAt G id ∧ genTypeSpec env cfg n G (.obj id) = .ok r

theorem genList_given {env : Env} {cfg : Config} {n : Nat} {H : THeap} {id : Nat} : ∀ (ts : List Ty) (G : THeap) (r : THeap × List Spec × Bool),
    KeepHeap (fun _ => False) H G → FlatAt G id → genList env cfg n G ts = .ok r → r.2.2 = false → Ty.obj id ∈ ts → SpecGiven env cfg n H id := by
  intro ts
  induction ts with
  | nil => intro G r _ _ _ _ h; cases h
  | cons t ts ih =>
    intro G r h hf hr hflag hid
    simp only [genList] at hr
    split at hr
    · rename_i q hq
      obtain ⟨p, hp, hr⟩ := bind_ok hr
      cases hr
      rcases List.mem_cons.mp hid with e | hid
      · subst e
        exact ⟨G, q, h, hf, hq⟩
      · exact ih _ _ (h.ext (genTypeSpec_named hq).1) (hf.ext (genTypeSpec_named hq).1) hp hflag hid
    · obtain ⟨p, hp, hr⟩ := bind_ok hr
      cases hr
      cases hflag
    · cases hr
    · cases hr

theorem genSchemas_given {env : Env} {cfg : Config} {n : Nat} {H : THeap} {id : Nat} : ∀ (schemas : List (List Ty)) (G : THeap)
    (r : THeap × List Spec × Bool) (s : SimpleT), Linked G → KeepHeap (fun _ => False) H G → OwnNames G → (∀ types ∈ schemas, ∀ t ∈ types, NotLink t) →
    G[id]? = some (.simple s) → HasContent cfg (.simple s) → skipped cfg s.name = false → (∀ j, xmlName G (.obj j) = s.name → j = id) →
    genSchemas env cfg n G schemas = .ok r → r.2.2 = false → ∀ types ∈ schemas, Ty.obj id ∈ types → SpecGiven env cfg n H id := by
  intro schemas
  induction schemas with
  | nil => intro G r s _ _ _ _ _ _ _ _ _ _ types ht; cases ht
  | cons types rest ih =>
    intro G r s hl h hown hnl hs hsay hsk hone hr hflag ts hts hid
    obtain ⟨f, hf, hr⟩ := bind_ok hr
    obtain ⟨L, hL, hf⟩ := bind_ok hf
    cases hf
    obtain ⟨H2, hH2, hr⟩ := bind_ok hr
    obtain ⟨g, hg, hr⟩ := bind_ok hr
    obtain ⟨q, hq, hr⟩ := bind_ok hr
    cases hr
    simp only [Bool.or_eq_false_iff] at hflag
    have hL' := flattenLoop_flat (W := fun _ => False) _ _ _ (fun _ h => h.elim) (.refl _ G) hL
    have e1 := expand_ext hH2
    have k2 : KeepHeap (fun _ => False) H H2 := e1.keep _ (fun _ _ he hk => hk.ext he) (h.flat hL')
    obtain ⟨k3, -⟩ := genList_traced _ _ _ k2 hg
    obtain ⟨f1, -, n1, g1⟩ := flattenLoop_flow types G L hl (Keep.refl G) (hnl types (List.mem_cons_self ..)) hL
    by_cases hin : Ty.obj id ∈ types
    · have fl := flattenLoop_flatAt _ _ _ _ hin hs hsk hL
      have f2 : FlatAt H2 id := e1.keep (fun K => FlatAt K id) (fun _ _ he hk => hk.ext he) fl
      refine genList_given _ _ _ k2 f2 hg hflag.1 ?_
      have hmem := g1 id _ hin hs (Or.inl hsay) hsk
      have hname : xmlName L.1 (.obj id) = s.name := by rw [f1.names]; simp only [xmlName, hs, TObj.name]
      have hk : s.name ∈ (firsts (xmlName L.1) L.2).map (xmlName L.1) := (firsts_keys _ _ _).mpr (List.mem_map.mpr ⟨_, hmem, hname⟩)
      obtain ⟨u, hu, hun⟩ := List.mem_map.mp hk
      have hmem := firsts_mem _ hu
      rw [← dedup_eq] at hu
      cases u with
      | builtin b => exact absurd hun.symm (hown id _ hs b)
      | link b => exact (n1 _ hmem).elim
      | obj k =>
        rw [f1.names] at hun
        rw [hone k hun] at hu
        exact hu
    · have hts' : ts ∈ rest := by
        rcases List.mem_cons.mp hts with rfl | hts
        · exact absurd hid hin
        · exact hts
      obtain ⟨e2, -⟩ := genList_named _ H2 g hg hflag.1
      have e12 := e1.trans e2
      have hl3 : Linked g.1 := e12.keep _ (fun _ _ h => h.linked) (f1.linked hl)
      have hown3 : OwnNames g.1 := e12.keep _ (fun _ _ h => ownNames_names h.names h.length) (ownNames_names f1.names f1.len hown)
      obtain ⟨o', ho', hk⟩ := hL'.objs.get hs
      cases o' with
      | complex c => cases hk
      | simple s' =>
        obtain ⟨a1, a2, a3, a4⟩ := hk
        have hs3 : g.1[id]? = some (.simple s') := e12.keep (fun K => K[id]? = some (.simple s')) (fun _ _ he hx => he.simple.mpr hx) ho'
        exact ih g.1 q s' hl3 k3 hown3 (fun ts hts => hnl ts (List.mem_cons_of_mem _ hts)) hs3 (by simp only [HasContent, a2, a3, a4]; exact hsay)
          (by rw [a1]; exact hsk) (by
            intro j hj
            rw [e12.names, f1.names, a1] at hj
            exact hone j hj) hq hflag.2 ts hts' hid

end GoXml.Xsdgen
