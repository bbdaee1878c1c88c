import Verif.Proofs.XsdPipeline
import Verif.Props.XsdDeref
set_option autoImplicit false

/-! Helper lemmas: the name and the base of a declared type. -/

namespace GoXml.Xsd
open Wsdl (attrNamed allNamed searchEl below belows defines refersTo)

theorem mem_belows {c d : Element} {cs : List Element} (hc : c ∈ cs) (hd : d = c ∨ d ∈ below c) : d ∈ belows cs := by
  induction cs with
  | nil => cases hc
  | cons x cs ih =>
    rw [belows, List.mem_cons, List.mem_append]
    rcases List.mem_cons.mp hc with rfl | hc
    · rcases hd with rfl | hd
      · exact Or.inl rfl
      · exact Or.inr (Or.inl hd)
    · exact Or.inr (Or.inr (ih hc))

theorem below_eq (e : Element) : below e = belows e.children := by cases e; rfl

theorem mem_below_child {e c : Element} (hc : c ∈ e.children) : c ∈ below e := by
  rw [below_eq]; exact mem_belows hc (Or.inl rfl)

theorem mem_below_trans {e c d : Element} (hc : c ∈ e.children) (hd : d ∈ below c) : d ∈ below e := by
  rw [below_eq]; exact mem_belows hc (Or.inr hd)

mutual
theorem below_below : ∀ (e c d : Element), c ∈ below e → d ∈ below c → d ∈ below e
  | .mk _ _ _ _ cs, c, d, hc, hd => belows_below cs c d hc hd
theorem belows_below : ∀ (cs : List Element) (c d : Element), c ∈ belows cs → d ∈ below c → d ∈ belows cs
  | [], _, _, hc, _ => by simp [belows] at hc
  | x :: cs, c, d, hc, hd => by
    rw [belows, List.mem_cons, List.mem_append] at hc ⊢
    rcases hc with rfl | hc | hc
    · exact Or.inr (Or.inl hd)
    · exact Or.inr (Or.inl (below_below x c d hc hd))
    · exact Or.inr (Or.inr (belows_below cs c d hc hd))
end

theorem walkFold_inv_mem {σ : Type} (P : σ → Prop) (f : σ → Element → Option σ) (es : List Element) :
    ∀ s r, (∀ s e s', e ∈ es → P s → f s e = some s' → P s') → P s → walkFold f s es = some r → P r := by
  induction es with
  | nil => intro s r _ hs h; cases h; exact hs
  | cons e es ih =>
    intro s r hf hs h
    rw [walkFold] at h
    split at h
    · exact ih s r (fun s e s' he => hf s e s' (by simp [he])) hs h
    · split at h
      · cases h
      · rename_i s' hs'
        exact ih s' r (fun s e s' he => hf s e s' (by simp [he])) (hf s e s' (by simp) hs hs') h

/-- A name that an element below `e` gives as a base or an item type. -/
def NamedBase (e : Element) (n : XName) : Prop := ∃ d ∈ below e, n = refersTo d b!"base" ∨ n = refersTo d b!"itemType"

/-- The name, and any link that is the base. -/
def Header (N : XName) (B : XName → Prop) (c : ComplexT) : Prop := c.name = N ∧ ∀ n, c.base = some (.link n) → B n

theorem parseType_link {n m : XName} (h : parseType n = .link m) : m = n := by
  unfold parseType at h
  split at h
  · cases h
  · cases h; rfl

theorem header_base {el : Element} {m : XName} (h : some (parseType (resolve el.scope (el.attr [] b!"base"))) = some (Ty.link m)) :
    m = refersTo el b!"base" := by
  rw [parseType_link (Option.some.inj h), Wsdl.attr_eq, Wsdl.resolve_eq]; rfl

theorem derivation_header {env : ParseEnv} {ns : Str} {ext : Bool} {t t' : ComplexT} {el : Element} {N : XName} {B : XName → Prop}
    (hB : B (refersTo el b!"base")) (ht : Header N B t) (h : complexDerivation env ns ext t el = some t') : Header N B t' := by
  unfold complexDerivation at h
  split at h
  · cases h
  · split at h
    · cases h
    · split at h
      · cases h
      · cases h
        exact ⟨ht.1, fun m hm => by rw [header_base hm]; exact hB⟩

theorem complexContent_header {env : ParseEnv} {ns : Str} {t t' : ComplexT} {el : Element} {N : XName} {B : XName → Prop}
    (hB : ∀ c ∈ el.children, B (refersTo c b!"base")) (ht : Header N B t) (h : parseComplexContent env ns t el = some t') : Header N B t' := by
  unfold parseComplexContent at h
  split at h
  · cases h
  · rw [Option.map_eq_some_iff] at h
    obtain ⟨r, h, rfl⟩ := h
    exact walkFold_inv_mem (fun s : ComplexT × Str => Header N B s.1) _ _ _ r (by
      intro s e s' he hs hf
      split at hf
      · rw [Option.map_eq_some_iff] at hf
        obtain ⟨t1, h1, rfl⟩ := hf
        exact derivation_header (hB e he) hs h1
      · split at hf
        · rw [Option.map_eq_some_iff] at hf
          obtain ⟨t1, h1, rfl⟩ := hf
          exact derivation_header (hB e he) hs h1
        · split at hf
          · rw [Option.map_eq_some_iff] at hf
            obtain ⟨t1, h1, rfl⟩ := hf
            exact hs
          · cases hf) ht h

theorem simpleContent_header {env : ParseEnv} {ns : Str} {t t' : ComplexT} {el : Element} {N : XName} {B : XName → Prop}
    (hB : ∀ c ∈ el.children, B (refersTo c b!"base")) (ht : Header N B t) (h : parseSimpleContent env ns t el = some t') : Header N B t' := by
  unfold parseSimpleContent at h
  rw [Option.map_eq_some_iff] at h
  obtain ⟨r, h, rfl⟩ := h
  exact walkFold_inv_mem (fun s : ComplexT × Str => Header N B s.1) _ _ _ r (by
    intro s e s' he hs hf
    split at hf
    · rw [Option.map_eq_some_iff] at hf
      obtain ⟨t1, h1, rfl⟩ := hf
      exact hs
    · split at hf
      · cases hf
        exact ⟨hs.1, fun m hm => by rw [header_base hm]; exact hB e he⟩
      · split at hf
        · rw [Option.map_eq_some_iff] at hf
          obtain ⟨as, h1, rfl⟩ := hf
          exact ⟨hs.1, fun m hm => by rw [header_base hm]; exact hB e he⟩
        · cases hf; exact hs) ht h

theorem complexType_header {env : ParseEnv} {ns : Str} {t : ComplexT} {el : Element} {B : XName → Prop}
    (hB : ∀ c ∈ el.children, ∀ d ∈ c.children, B (refersTo d b!"base")) (h : parseComplexType env ns el = some t) :
    Header (defines ns el) B t := by
  unfold parseComplexType at h
  split at h
  · rw [Option.map_eq_some_iff] at h
    obtain ⟨r, h, rfl⟩ := h
    exact walkFold_inv_mem (fun s : ComplexT × Str => Header (defines ns el) B s.1) _ _ _ r (by
      intro s e s' he hs hf
      split at hf
      · rw [Option.map_eq_some_iff] at hf
        obtain ⟨t1, h1, rfl⟩ := hf
        exact hs
      · split at hf
        · rw [Option.map_eq_some_iff] at hf
          obtain ⟨t1, h1, rfl⟩ := hf
          exact simpleContent_header (hB e he) hs h1
        · split at hf
          · rw [Option.map_eq_some_iff] at hf
            obtain ⟨t1, h1, rfl⟩ := hf
            exact complexContent_header (hB e he) hs h1
          · cases hf) (by exact ⟨Wsdl.resolveDefault_eq ns el, fun _ hm => by cases hm⟩) h
  · cases h

theorem simpleType_header {env : ParseEnv} {ns : Str} {t : SimpleT} {el : Element} (h : parseSimpleType env ns el = some t) :
    t.name = defines ns el ∧ ∀ n, t.base = some (.link n) → NamedBase el n := by
  unfold parseSimpleType at h
  rw [Option.map_eq_some_iff] at h
  obtain ⟨r, h, rfl⟩ := h
  exact walkFold_inv_mem (fun s : SimpleT × Str => s.1.name = defines ns el ∧ ∀ n, s.1.base = some (.link n) → NamedBase el n) _ _ _ r (by
    intro s e s' he hs hf
    unfold simpleStep at hf
    split at hf
    · rw [Option.map_eq_some_iff] at hf
      obtain ⟨t1, h1, rfl⟩ := hf
      exact ⟨hs.1, fun m hm => ⟨e, mem_below_child he, Or.inl (header_base hm)⟩⟩
    · split at hf
      · cases hf
        refine ⟨hs.1, fun m hm => ⟨e, mem_below_child he, Or.inr ?_⟩⟩
        simp only at hm
        rw [parseType_link (Option.some.inj hm), Wsdl.attr_eq, Wsdl.resolve_eq]; rfl
      · split at hf
        · cases hf
          refine ⟨hs.1, fun m hm => ?_⟩
          simp only at hm
          split at hm
          · exact hs.2 m hm
          · cases hm
        · split at hf
          · rw [Option.map_eq_some_iff] at hf
            obtain ⟨t1, h1, rfl⟩ := hf
            exact hs
          · cases hf; exact hs) ⟨Wsdl.resolveDefault_eq ns el, fun _ hm => by cases hm⟩ h

theorem parseDecl_header {env : ParseEnv} {ns : Str} {e : Element} {o : TObj} (h : parseDecl env ns e = some o) :
    o.name = defines ns e ∧ ∀ n, o.base = some (.link n) → NamedBase e n := by
  unfold parseDecl at h
  split at h
  · rw [Option.map_eq_some_iff] at h
    obtain ⟨c, h, rfl⟩ := h
    exact complexType_header (fun c hc d hd => ⟨d, mem_below_trans hc (mem_below_child hd), Or.inl rfl⟩) h
  · rw [Option.map_eq_some_iff] at h
    obtain ⟨c, h, rfl⟩ := h
    exact simpleType_header h

theorem selfTree_header {env : ParseEnv} {root : Element} {t : ComplexT} (h : parseComplexType env (target root) (selfTree root) = some t) :
    t.name = (if target root ≠ [] then selfName root else Wsdl.denoted root.scope b!"_self") ∧
    ∀ n, t.base = some (.link n) → n = Wsdl.denoted root.scope (prefixOf root.scope ⟨w3cSchemaNS, b!"anyType"⟩) := by
  have := complexType_header (B := fun n => n = Wsdl.denoted root.scope (prefixOf root.scope ⟨w3cSchemaNS, b!"anyType"⟩)) (by
    intro c hc d hd
    simp only [selfTree, Element.children, List.mem_singleton] at hc
    subst hc
    simp only [Element.children, List.mem_singleton] at hd
    subst hd
    rfl) h
  refine ⟨this.1.trans ?_, this.2⟩
  have hn : attrNamed (selfTree root) b!"name" = b!"_self" := by
    rw [← Wsdl.attr_eq]
    exact attr_attrSet_same _ _ _ _
  unfold defines
  rw [hn]
  have hc : ¬ (58 : UInt8) ∈ b!"_self" := by decide
  by_cases ht : target root = []
  · rw [if_neg (fun x => x.1 ht), if_neg (fun x => x ht)]; rfl
  · rw [if_pos ⟨ht, hc⟩, if_pos ht]; rfl

theorem typeDecls_below {root e : Element} (h : e ∈ typeDecls root) : e ∈ below root := by
  unfold typeDecls allNamed at h
  rcases List.mem_append.mp h with h | h <;> exact (List.mem_filter.mp h).1

end GoXml.Xsd
