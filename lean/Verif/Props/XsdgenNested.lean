import Verif.Proofs.XsdgenNested
import Verif.Spec.XsdgenClosed
import Verif.Props.XsdgenValues
set_option autoImplicit false

/-! Theorems about generated types that contain themselves: C134. -/

namespace GoXml.Values
open Xsd Xsdgen

/-- C134 is false: for a list whose items have the rest of the list inside, the generated struct has itself inside. -/
theorem C134_refuted :
    let S := fromSchema (schemaO [complexType b!"list" [] [xs b!"sequence" [] [declare1 b!"value" b!"xs:int" [], declare1 b!"rest" b!"o:list" unlessNeeded]]])
    (S.prog.decls.get b!"List").map (·.expr) =
      some (.struct [⟨b!"Value", .ident b!"int", b!"xml:\"o value\""⟩, ⟨b!"Rest", .ident b!"List", b!"xml:\"o rest,omitempty\""⟩]) ∧
    Recursive S.prog.decls := by
  intro S
  have h : (S.prog.decls.get b!"List").map (·.expr) =
      some (.struct [⟨b!"Value", .ident b!"int", b!"xml:\"o value\""⟩, ⟨b!"Rest", .ident b!"List", b!"xml:\"o rest,omitempty\""⟩]) := by decide +kernel
  refine ⟨h, b!"List", .single ?_⟩
  obtain ⟨sp, h1, h2⟩ := Option.map_eq_some_iff.mp h
  exact .field h1 h2 (List.mem_cons_of_mem _ (List.mem_cons_self ..)) rfl

/-- C134, as far as it holds: a type with itself inside is generated exactly if something of a schema type can have something of the same type inside
that is not repeated. This is for types with distinct names that are all generated. -/
theorem C134_recursive_partial (env : Env) (cfg : Config) (n : Nat) (H : THeap) (ts : List Ty) (r : THeap × List Spec × Bool)
    (h : genList env cfg n H ts = .ok r) (hr : r.2.2 = false) (hts : ts.Nodup) (hn : (r.2.1.map (·.name)).Nodup)
    (hpre : ∀ sp ∈ r.2.1, sp.name ∉ predeclared)
    (hclosed : ∀ t u, t ∈ ts → Within cfg r.1 t u → (∃ b, u = .builtin b) ∨ (∃ id, u = .obj id ∧ r.1[id]? ≠ none ∧ u ∈ ts)) :
    Recursive (declare r.2.1 []) ↔ ∃ t ∈ ts, Relation.TransGen (Within cfg r.1) t t := by
  obtain ⟨d1, d2⟩ := genList_desc ts H r h hr hts
  let nm : Nat → Str := fun id => publicName env cfg (xmlName r.1 (.obj id))
  have hget : ∀ s sp, (declare r.2.1 []).get s = some sp → sp ∈ r.2.1 ∧ sp.name = s := by
    intro s sp hs
    rcases declare_some r.2.1 [] s sp hs with h | h
    · exact h
    · cases h
  have hbuiltin : ∀ b x, exprOf env cfg r.1 (.builtin b) = .ok (.ident x) → x ∈ predeclared := by
    intro b x hx
    rcases exprOf_known (P := fun _ => False) hx trivial with h | ⟨j, hj, _⟩
    · exact h
    · exact hj.elim
  have hinj : ∀ i j, .obj i ∈ ts → .obj j ∈ ts → r.1[i]? ≠ none → r.1[j]? ≠ none → nm i = nm j → i = j := by
    intro i j hi hj hi' hj' hij
    obtain ⟨s1, m1, n1, x1, _⟩ := d2 i hi hi'
    obtain ⟨s2, m2, n2, x2, _⟩ := d2 j hj hj'
    have e1 := declare_mem r.2.1 [] hn s1 m1
    have e2 := declare_mem r.2.1 [] hn s2 m2
    have : s1.name = s2.name := by rw [n1, n2]; exact hij
    rw [this, e2] at e1
    cases e1
    rw [x1] at x2
    cases x2
    rfl
  -- one step from the Go types to the schema types
  have hstep : ∀ s t, Inside (declare r.2.1 []) s t → (∃ sp, (declare r.2.1 []).get t = some sp) →
      ∃ i j, .obj i ∈ ts ∧ .obj j ∈ ts ∧ r.1[i]? ≠ none ∧ r.1[j]? ≠ none ∧ s = nm i ∧ t = nm j ∧ Within cfg r.1 (.obj i) (.obj j) := by
    intro s t hst ⟨sp', ht⟩
    have htp : t ∉ predeclared := by
      obtain ⟨m, e⟩ := hget t sp' ht
      rw [← e]
      exact hpre sp' m
    have fin : ∀ i, .obj i ∈ ts → r.1[i]? ≠ none → s = nm i → ∀ u, Within cfg r.1 (.obj i) u → exprOf env cfg r.1 u = .ok (.ident t) →
        ∃ i j, .obj i ∈ ts ∧ .obj j ∈ ts ∧ r.1[i]? ≠ none ∧ r.1[j]? ≠ none ∧ s = nm i ∧ t = nm j ∧ Within cfg r.1 (.obj i) (.obj j) := by
      intro i hi hi' hs u hu hx
      rcases hclosed _ _ hi hu with ⟨b, rfl⟩ | ⟨j, rfl, hj', hj⟩
      · exact absurd (hbuiltin b t hx) htp
      · cases hx
        exact ⟨i, j, hi, hj, hi', hj', hs, rfl, hu⟩
    cases hst with
    | field g1 g2 g3 g4 =>
      obtain ⟨m, e⟩ := hget _ _ g1
      obtain ⟨id, hid, k1, k2, k3⟩ := d1 _ m
      rcases k3 with ⟨c, acc, c1, c2, c3⟩ | ⟨s', c1, c2 | c2 | c2⟩
      · rw [c3] at g2
        cases g2
        rcases (genFields_within c1 c2).1 _ g3 _ g4 with ⟨u, hu, hx⟩ | hx
        · exact fin id hid (by rw [c1]; nofun) (e ▸ k1) u hu hx
        · exact absurd (hx ▸ by decide) htp
      · obtain ⟨_, _, _, _, _, _, c2⟩ := c2
        rw [c2] at g2; cases g2
      · obtain ⟨_, _, c2⟩ := c2
        rw [c2] at g2; cases g2
      · rw [c2.2] at g2; cases g2
    | definition g1 g2 =>
      obtain ⟨m, e⟩ := hget _ _ g1
      obtain ⟨id, hid, k1, k2, k3⟩ := d1 _ m
      rcases k3 with ⟨c, acc, c1, c2, c3⟩ | ⟨s', c1, c2 | c2 | c2⟩
      · rw [c3] at g2; cases g2
      · obtain ⟨l1, l2, b, ex, l3, l4, c2⟩ := c2
        rw [c2] at g2
        cases g2
        exact fin id hid (by rw [c1]; nofun) (e ▸ k1) b (.base c1 l1 l2 l3) l4
      · obtain ⟨_, _, c2⟩ := c2
        rw [c2] at g2; cases g2
      · rw [c2.2] at g2
        cases g2
        exact absurd (by decide) htp
  have hsrc : ∀ s t, Inside (declare r.2.1 []) s t → ∃ sp, (declare r.2.1 []).get s = some sp := by
    intro s t h
    cases h with
    | field g _ _ _ => exact ⟨_, g⟩
    | definition g _ => exact ⟨_, g⟩
  have hpath : ∀ s t, Relation.TransGen (Inside (declare r.2.1 [])) s t → (∃ sp, (declare r.2.1 []).get t = some sp) →
      ∃ i j, .obj i ∈ ts ∧ .obj j ∈ ts ∧ r.1[i]? ≠ none ∧ r.1[j]? ≠ none ∧ s = nm i ∧ t = nm j ∧
        Relation.TransGen (Within cfg r.1) (.obj i) (.obj j) := by
    intro s t hst
    induction hst with
    | single h1 =>
      intro ht
      obtain ⟨i, j, a1, a2, a3, a4, a5, a6, a7⟩ := hstep _ _ h1 ht
      exact ⟨i, j, a1, a2, a3, a4, a5, a6, .single a7⟩
    | tail _ h1 ih =>
      intro ht
      obtain ⟨i, j, a1, a2, a3, a4, a5, a6, a7⟩ := hstep _ _ h1 ht
      obtain ⟨i', j', b1, b2, b3, b4, b5, b6, b7⟩ := ih (hsrc _ _ h1)
      have := hinj j' i b2 a1 b4 a3 (b6.symm.trans a5)
      subst this
      exact ⟨i', j, b1, a2, b3, a4, b5, a6, .tail b7 a7⟩
  -- and back
  have hback : ∀ i u, .obj i ∈ ts → Within cfg r.1 (.obj i) u → ∀ j, u = .obj j → Inside (declare r.2.1 []) (nm i) (nm j) := by
    intro i u hi hw j hj
    have hne : r.1[i]? ≠ none := by
      cases hw with
      | element g => rw [g]; nofun
      | attr g => rw [g]; nofun
      | text g => rw [g]; nofun
      | base g => rw [g]; nofun
    obtain ⟨sp, m, k1, k2, k3⟩ := d2 i hi hne
    have hg := declare_mem r.2.1 [] hn sp m
    rw [k1] at hg
    rcases k3 with ⟨c, acc, c1, c2, c3⟩ | ⟨s', c1, c2⟩
    · obtain ⟨f, hf, hx⟩ := (genFields_within c1 c2).2 _ hw j hj
      subst hj
      simp only [exprOf, Run.ok.injEq] at hx
      exact .field hg c3 hf hx.symm
    · cases hw with
      | element g => rw [c1] at g; cases g
      | attr g => rw [c1] at g; cases g
      | text g => rw [c1] at g; cases g
      | base g l1 l2 l3 =>
        rw [c1] at g
        cases g
        rcases c2 with ⟨_, _, b, e, q1, q2, q3⟩ | ⟨q, _⟩ | ⟨q, _⟩
        · rw [l3] at q1
          cases q1
          subst hj
          cases q2
          exact .definition hg q3
        · rw [l1] at q; cases q
        · exact absurd l2 q
  have hends : ∀ t u, Within cfg r.1 t u → ∃ i, t = .obj i := by
    intro t u h
    cases h <;> exact ⟨_, rfl⟩
  constructor
  · rintro ⟨s, hs⟩
    have : ∃ sp, (declare r.2.1 []).get s = some sp := by
      have first : ∀ s t, Relation.TransGen (Inside (declare r.2.1 [])) s t → ∃ sp, (declare r.2.1 []).get s = some sp := by
        intro s t h
        induction h with
        | single h => exact hsrc _ _ h
        | tail _ _ ih => exact ih
      exact first _ _ hs
    obtain ⟨i, j, a1, a2, a3, a4, a5, a6, a7⟩ := hpath s s hs this
    have := hinj i j a1 a2 a3 a4 (a5.symm.trans a6)
    subst this
    exact ⟨_, a1, a7⟩
  · rintro ⟨t, ht, hw⟩
    have key : ∀ t u, Relation.TransGen (Within cfg r.1) t u → t ∈ ts → ∀ j, u = .obj j →
        .obj j ∈ ts ∧ ∃ i, t = .obj i ∧ Relation.TransGen (Inside (declare r.2.1 [])) (nm i) (nm j) := by
      intro t u h
      have mem : ∀ t j, t ∈ ts → Within cfg r.1 t (.obj j) → .obj j ∈ ts := by
        intro t j ht hw
        rcases hclosed _ _ ht hw with ⟨b, hb⟩ | ⟨_, _, _, hm⟩
        · cases hb
        · exact hm
      induction h with
      | single h1 =>
        intro ht j hj
        subst hj
        obtain ⟨i, rfl⟩ := hends _ _ h1
        exact ⟨mem _ _ ht h1, i, rfl, .single (hback i _ ht h1 j rfl)⟩
      | tail _ h1 ih =>
        intro ht j hj
        subst hj
        obtain ⟨k, rfl⟩ := hends _ _ h1
        obtain ⟨m, i, e, g⟩ := ih ht k rfl
        exact ⟨mem _ _ m h1, i, e, .tail g (hback k _ m h1 j rfl)⟩
    have hobj : ∃ i, t = .obj i := by
      have : ∀ t u, Relation.TransGen (Within cfg r.1) t u → ∃ i, t = .obj i := by
        intro t u h
        induction h with
        | single h => exact hends _ _ h
        | tail _ _ ih => exact ih
      exact this _ _ hw
    obtain ⟨i, rfl⟩ := hobj
    obtain ⟨_, i', e, g⟩ := key _ _ hw ht i rfl
    cases e
    exact ⟨_, g⟩

/-- A list as above, and a tree, whose nodes have other nodes inside that are repeated. -/
def listHeap (plural : Bool) : THeap :=
  [.complex { name := ⟨b!"o", b!"node"⟩, base := some (.builtin AnyType)
              elements := [{ name := ⟨b!"o", b!"value"⟩, type := .builtin 28 }, { name := ⟨b!"o", b!"next"⟩, type := .obj 0, plural := plural, optional := true }] }]

/-- Both meet the conditions of `C134_recursive_partial`. -/
theorem list_meets (plural : Bool) : ∃ r, genList asciiEnv {} 20 (listHeap plural) [.obj 0] = .ok r ∧ r.2.2 = false ∧ (r.2.1.map (·.name)).Nodup ∧
    (∀ sp ∈ r.2.1, sp.name ∉ predeclared) ∧ r.1 = listHeap plural := by
  cases plural <;> exact ⟨_, rfl, by decide +kernel⟩

theorem list_closed (plural : Bool) (u : Ty) (hw : Within {} (listHeap plural) (.obj 0) u) :
    (∃ b, u = .builtin b) ∨ (∃ id, u = .obj id ∧ (listHeap plural)[id]? ≠ none ∧ u ∈ [Ty.obj 0]) := by
  cases hw with
  | element hc hel hp =>
    cases hc
    rcases List.mem_cons.mp hel with rfl | hel
    · exact Or.inl ⟨_, rfl⟩
    · rcases List.mem_singleton.mp hel with rfl
      exact Or.inr ⟨0, rfl, nofun, by simp⟩
  | attr hc ha => cases hc; cases ha
  | text hc hm => cases hc; cases hm
  | base hc => cases hc

example : Recursive (declare (((genList asciiEnv {} 20 (listHeap false) [.obj 0]).toOption.map (·.2.1)).getD []) []) := by
  obtain ⟨r, h1, h2, h3, h4, h5⟩ := list_meets false
  rw [h1]
  refine (C134_recursive_partial asciiEnv {} 20 _ _ r h1 h2 (by simp) h3 h4 ?_).mpr ⟨.obj 0, by simp, .single ?_⟩
  · rw [h5]
    intro t u ht
    rw [List.mem_singleton.mp ht]
    exact list_closed false u
  · rw [h5]
    exact .element (el := { name := ⟨b!"o", b!"next"⟩, type := .obj 0, plural := false, optional := true }) rfl (List.mem_cons_of_mem _ (List.mem_cons_self ..)) rfl

example : ¬ Recursive (declare (((genList asciiEnv {} 20 (listHeap true) [.obj 0]).toOption.map (·.2.1)).getD []) []) := by
  obtain ⟨r, h1, h2, h3, h4, h5⟩ := list_meets true
  rw [h1]
  have hc := C134_recursive_partial asciiEnv {} 20 _ _ r h1 h2 (by simp) h3 h4 (by
    rw [h5]
    intro t u ht
    rw [List.mem_singleton.mp ht]
    exact list_closed true u)
  refine fun h => ?_
  obtain ⟨t, ht, hw⟩ := hc.mp h
  rw [List.mem_singleton.mp ht, h5] at hw
  have no : ∀ u v, Within {} (listHeap true) u v → v ≠ .obj 0 := by
    intro u v h
    cases h with
    | @element id c el hc hel hp =>
      rcases id with _ | id
      · cases hc
        rcases List.mem_cons.mp hel with rfl | hel
        · exact nofun
        · rcases List.mem_singleton.mp hel with rfl
          cases hp
      · cases hc
    | @attr id c a hc ha =>
      rcases id with _ | id
      · cases hc; cases ha
      · cases hc
    | @text id c b t hc hm =>
      rcases id with _ | id
      · cases hc; cases hm
      · cases hc
    | @base id s b hc =>
      rcases id with _ | id <;> cases hc
  have last : ∀ u v, Relation.TransGen (Within {} (listHeap true)) u v → v ≠ .obj 0 := by
    intro u v h
    cases h with
    | single h => exact no _ _ h
    | tail _ h => exact no _ _ h
  exact last _ _ hw rfl

end GoXml.Values
