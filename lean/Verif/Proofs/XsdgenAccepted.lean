import Verif.Proofs.XsdgenSucceeds
import Verif.Proofs.XsdNamed
import Verif.Props.XsdSchema
import Verif.Model.XsdgenCli
set_option autoImplicit false

/-! The types that `Parse` makes of orderly and regular schemas are coherent. -/

namespace GoXml.Xsd
open Wsdl (attrNamed allNamed below defines refersTo)

/-- Every type stands in a schema under its own name. -/
theorem parse_covers {env : ParseEnv} {ord : MapOrder} {roots : List Element} {ss : List Schema} {H : THeap} (ho : Orderly roots)
    (h : parseSchemas env ord roots = .ok (ss, H)) (id : Nat) (o : TObj) (hid : H[id]? = some o) :
    ∃ s ∈ ss, (o.name, Ty.obj id) ∈ s.types ∧ s.types.get o.name = some (.obj id) := by
  obtain ⟨p0, H0, parsed, h0, h1, rfl⟩ := parseSchemas_run h
  have hc : Cov roots p0 H0 := parseRoots_cov roots [] p0 [] H0 (fun r hr => ⟨hr, rfl, ho.types r hr, ho.unnamed r hr⟩) ho.targets
    ⟨by simp, by simp [GoMap.get_nil], by simp [GoMap.get_nil]⟩ h0
  obtain ⟨hp, _, hout, hin⟩ := parsed_roots roots parsed_nil h0
  have hsome : ∀ r ∈ roots, p0.get (target r) ≠ none := by
    intro r hr
    obtain ⟨_, _, _, s, _, _, hs, _⟩ := hin _ (List.mem_map.mpr ⟨r, hr, rfl⟩)
    rw [hs]; simp
  obtain ⟨done, hi, -, hdone⟩ := finishRoots_inv hp roots [] p0 H0 0 parsed H (fun r hr => ⟨hr, hsome r hr⟩) (inv_start hp roots) h1
  obtain ⟨o0, hid0, hev⟩ := hi.evo _ _ hid
  obtain ⟨k, s, hk, hs⟩ := hc.held id o0 hid0
  obtain ⟨r, hr, rfl, -⟩ := hc.from_ k s hk
  obtain ⟨s1, hs1, -, hsub⟩ := hi.keys _ s hk
  refine ⟨s1, List.mem_append_left _ (List.mem_map.mpr ⟨r, hr, by rw [hs1]; rfl⟩), ?_⟩
  rw [evolved_name hev]
  exact ⟨GoMap.get_some_mem (hsub _ _ hs), hsub _ _ hs⟩

open Xsdgen in
/-- The types are coherent if fields have no types of XML attributes, every type is based on something, and none on itself. -/
theorem parse_coherent {env : ParseEnv} {ord : MapOrder} {roots : List Element} {ss : List Schema} {H : THeap} (ho : Orderly roots)
    (hr : Regular roots) (h : parseSchemas env ord roots = .ok (ss, H)) (hb : ∀ o ∈ H, o.base ≠ none)
    (hf : ∀ (id : Nat) c, H[id]? = some (.complex c) → (∀ e ∈ c.elements, ∀ b, e.type = .builtin b → Xsdgen.InSchema b) ∧
      ∀ a ∈ c.attributes, ∀ b, a.type = .builtin b → Xsdgen.InSchema b)
    (hself : ∀ (id : Nat) b, baseOf H (.obj id) = some b → ¬ Ancestor H b (.obj id)) :
    Coherent H ∧ ∀ s ∈ ss, ∀ e ∈ s.types, Present H e.2 := by
  obtain ⟨h1, h2, h3, h4, -⟩ := parse_orderly ho h
  obtain ⟨-, h7, -, h8⟩ := parse_regular ho hr h
  have hreach : ∀ (id : Nat) o, H[id]? = some o → ∀ t ∈ o.tys, t.isLink = false ∧ ∀ j, t = .obj j → j < H.length := by
    intro id o hid t ht
    obtain ⟨s, hs, -, hg⟩ := parse_covers ho h id o hid
    exact C37_parse env ord roots ss H h s hs _ _ hg t (.step (.refl _) hid ht)
  have hpres : ∀ t : Ty, t.isLink = false → (∀ j, t = .obj j → j < H.length) → (∀ b, t = .builtin b → Xsdgen.InSchema b) → Present H t := by
    intro t hl hj hb
    cases t with
    | builtin b => exact Or.inl ⟨b, rfl, hb b rfl⟩
    | obj j => exact Or.inr ⟨j, rfl, hj j rfl⟩
    | link m => cases hl
  refine ⟨⟨?_, h2, ?_, ?_, hself⟩, ?_⟩
  · intro i j o o' hi hj he
    obtain ⟨s, hs, hm, -⟩ := parse_covers ho h i o hi
    obtain ⟨s', hs', hm', -⟩ := parse_covers ho h j o' hj
    rw [← he] at hm'
    have := h4 s hs s' hs' _ _ _ hm hm'
    cases this
    rfl
  · intro id c hid
    obtain ⟨k1, k2⟩ := hf id c hid
    constructor
    · intro e he
      obtain ⟨l1, l2⟩ := hreach id _ hid e.type (by simp only [TObj.tys, List.mem_append, List.mem_map]; exact Or.inl (Or.inr ⟨e, he, rfl⟩))
      exact hpres _ l1 l2 (k1 e he)
    · intro e he
      obtain ⟨l1, l2⟩ := hreach id _ hid e.type (by simp only [TObj.tys, List.mem_append, List.mem_map]; exact Or.inr ⟨e, he, rfl⟩)
      exact hpres _ l1 l2 (k2 e he)
  · intro id o hid
    obtain ⟨b, hbo⟩ := Option.ne_none_iff_exists'.mp (hb o (List.mem_of_getElem? hid))
    refine ⟨b, hbo, ?_⟩
    have hbase : baseOf H (.obj id) = some b := by simp only [baseOf, hid]; exact hbo
    obtain ⟨l1, l2⟩ := hreach id o hid b (by
      cases o with
      | complex c => simp only [TObj.base] at hbo; simp [TObj.tys, hbo]
      | simple s => simp only [TObj.base] at hbo; simp [TObj.tys, hbo])
    exact hpres _ l1 l2 (by rintro x rfl; exact h7 id x (.base hbase (.self _)))
  · intro s hs e he
    have hl : e.2.isLink = false := by
      cases hx : e.2 with
      | link m => exact absurd hx (h3 s hs e he m)
      | builtin b => rfl
      | obj j => rfl
    refine hpres _ hl ?_ (fun b hb => h8 s hs e he b hb)
    intro j hj
    have hg : s.types.get e.1 = some e.2 := by
      cases hx : s.types.get e.1 with
      | none => exact absurd (List.mem_map.mpr ⟨e, he, rfl⟩) (GoMap.get_none.mp hx)
      | some t => rw [h4 s hs s hs e.1 _ _ (GoMap.get_some_mem hx) he]
    exact (C37_parse env ord roots ss H h s hs e.1 e.2 hg e.2 (.refl _)).2 j hj

end GoXml.Xsd
