import Verif.Spec.XsdgenDecls
import Verif.Proofs.XsdgenSpec
import Verif.Proofs.XsdgenGen
import Verif.Proofs.XsdgenTypes
import Verif.Proofs.XsdgenFlatten
import Verif.Proofs.XsdgenNeeds
import Verif.Proofs.Xsdgen
set_option autoImplicit false

/-! Lemmas about overrides, renaming and helper functions. -/

namespace GoXml.Xsdgen
open Xsd GoMap

theorem special_iff (t : Ty) : nonTrivialBuiltin (some t) = true ↔ Special t := by
  cases t with
  | builtin b =>
    rw [nonTrivial_iff]
    constructor
    · intro h; exact ⟨b, rfl, h⟩
    · rintro ⟨b', e, h⟩; cases e; exact h
  | obj id => constructor <;> intro h
              · cases h
              · obtain ⟨b, e, _⟩ := h; cases e
  | link n => constructor <;> intro h
              · cases h
              · obtain ⟨b, e, _⟩ := h; cases e

theorem keptElem_iff (cfg : Config) (c : ComplexT) (e : XElem) : e ∈ (filterFields cfg c).2 ↔ KeptElem cfg c e := by
  unfold filterFields KeptElem
  cases h : cfg.filterElements with
  | none => simp [keepElems_none]
  | some p => simp [keepElems_eq]

theorem keptAttr_iff (cfg : Config) (c : ComplexT) (a : XAttr) : a ∈ (filterFields cfg c).1 ↔ KeptAttr cfg c a := by
  unfold filterFields KeptAttr
  cases h : cfg.filterAttributes with
  | none => simp [keepAttrs_none]
  | some p => simp [keepAttrs_eq]

/-- What an override and a helper are made for. -/
theorem addOverride_types {cfg : Config} {H : THeap} {acc acc' : Acc} {name dflt tag : Str} {type : Ty} {e : GoExpr} {hp : Spec → XName}
    (h : addOverride cfg H acc name dflt tag type e hp = .ok acc') :
    acc'.overrides.map (·.type) = acc.overrides.map (·.type) ++ (if nonTrivialBuiltin (some type) ∨ dflt ≠ [] then [type] else []) ∧
    (nonTrivialBuiltin (some type) = true → ∃ s, get cfg.helperTypes (xmlName H type) = some s ∧ acc'.helpers = acc.helpers ++ [hp s]) ∧
    (nonTrivialBuiltin (some type) = false → acc'.helpers = acc.helpers) := by
  unfold addOverride at h
  split at h
  · rename_i hn
    split at h
    · cases h
    · rename_i s hs
      cases h
      exact ⟨by simp [hn], fun _ => ⟨s, hs, rfl⟩, fun hf => by rw [hn] at hf; cases hf⟩
  · rename_i hn
    have hn : nonTrivialBuiltin (some type) = false := by simpa using hn
    split at h <;> rename_i hd <;> cases h
    · exact ⟨by simp [hd], fun hf => (by rw [hn] at hf; cases hf), fun _ => rfl⟩
    · exact ⟨by simp [hd, hn], fun hf => (by rw [hn] at hf; cases hf), fun _ => rfl⟩

/-- What is shown of the loops over fields; `P` says which types occur with a default or not. -/
def Overridden (cfg : Config) (H : THeap) (acc acc' : Acc) (P : Ty → Str → Prop) : Prop :=
  (∀ t, t ∈ acc'.overrides.map (·.type) ↔ t ∈ acc.overrides.map (·.type) ∨ ∃ d, P t d ∧ (Special t ∨ d ≠ [])) ∧
  (∀ t d, P t d → Special t → ∃ s, get cfg.helperTypes (xmlName H t) = some s)

theorem elems_types {env : Env} {cfg : Config} {H : THeap} : ∀ (els : List XElem) (acc acc' : Acc),
    runFold (elemStep env cfg H) acc els = .ok acc' → Overridden cfg H acc acc' fun t d => ∃ e ∈ els, e.type = t ∧ e.dflt = d := by
  intro els
  induction els with
  | nil => intro acc acc' h; cases h; exact ⟨by simp, by simp⟩
  | cons el els ih =>
    intro acc acc' h
    obtain ⟨acc1, h1, h2⟩ := runFold_cons h
    obtain ⟨k1, k2⟩ := ih _ _ h2
    unfold elemStep at h1
    obtain ⟨e, he, h1⟩ := bind_ok h1
    obtain ⟨j1, j2, j3⟩ := addOverride_types h1
    refine ⟨?_, ?_⟩
    · intro t
      rw [k1, j1]
      simp only [List.mem_append, List.mem_cons]
      constructor
      · rintro ((hm | hm) | ⟨d, ⟨x, hx, rfl, rfl⟩, hs⟩)
        · exact Or.inl hm
        · split at hm
          · rename_i hc
            rw [special_iff] at hc
            cases List.mem_singleton.mp hm
            exact Or.inr ⟨el.dflt, ⟨el, Or.inl rfl, rfl, rfl⟩, hc⟩
          · cases hm
        · exact Or.inr ⟨_, ⟨x, Or.inr hx, rfl, rfl⟩, hs⟩
      · rintro (hm | ⟨d, ⟨x, hx, rfl, rfl⟩, hs⟩)
        · exact Or.inl (Or.inl hm)
        · rcases hx with rfl | hx
          · rw [← special_iff] at hs
            exact Or.inl (Or.inr (by simp [hs]))
          · exact Or.inr ⟨_, ⟨x, hx, rfl, rfl⟩, hs⟩
    · rintro t d ⟨x, hx, rfl, rfl⟩ hs
      rcases List.mem_cons.mp hx with rfl | hx
      · obtain ⟨s, h, _⟩ := j2 ((special_iff _).mpr hs)
        exact ⟨s, h⟩
      · exact k2 _ _ ⟨x, hx, rfl, rfl⟩ hs

theorem attrs_types {env : Env} {cfg : Config} {H : THeap} : ∀ (as : List XAttr) (acc acc' : Acc),
    runFold (attrStep env cfg H) acc as = .ok acc' → Overridden cfg H acc acc' fun t d => ∃ e ∈ as, e.type = t ∧ e.dflt = d := by
  intro els
  induction els with
  | nil => intro acc acc' h; cases h; exact ⟨by simp, by simp⟩
  | cons el els ih =>
    intro acc acc' h
    obtain ⟨acc1, h1, h2⟩ := runFold_cons h
    obtain ⟨k1, k2⟩ := ih _ _ h2
    unfold attrStep at h1
    simp only at h1
    obtain ⟨e, he, h1⟩ := bind_ok h1
    obtain ⟨j1, j2, j3⟩ := addOverride_types h1
    refine ⟨?_, ?_⟩
    · intro t
      rw [k1, j1]
      simp only [List.mem_append, List.mem_cons]
      constructor
      · rintro ((hm | hm) | ⟨d, ⟨x, hx, rfl, rfl⟩, hs⟩)
        · exact Or.inl hm
        · split at hm
          · rename_i hc
            rw [special_iff] at hc
            cases List.mem_singleton.mp hm
            exact Or.inr ⟨el.dflt, ⟨el, Or.inl rfl, rfl, rfl⟩, hc⟩
          · cases hm
        · exact Or.inr ⟨_, ⟨x, Or.inr hx, rfl, rfl⟩, hs⟩
      · rintro (hm | ⟨d, ⟨x, hx, rfl, rfl⟩, hs⟩)
        · exact Or.inl (Or.inl hm)
        · rcases hx with rfl | hx
          · rw [← special_iff] at hs
            exact Or.inl (Or.inr (by simp [hs]))
          · exact Or.inr ⟨_, ⟨x, hx, rfl, rfl⟩, hs⟩
    · rintro t d ⟨x, hx, rfl, rfl⟩ hs
      rcases List.mem_cons.mp hx with rfl | hx
      · obtain ⟨s, h, _⟩ := j2 ((special_iff _).mpr hs)
        exact ⟨s, h⟩
      · exact k2 _ _ ⟨x, hx, rfl, rfl⟩ hs

theorem ancestor_builtin {H : THeap} {b : Builtin} {a : Ty} (h : Ancestor H (.builtin b) a) : a = .builtin b := by
  cases h with
  | self => rfl
  | base h _ => cases h

theorem mixedBase_builtin {H : THeap} {b : Builtin} : ∀ {n : Nat} {t : Ty}, mixedBase H n t = .ok (.builtin b) →
    ∀ id s, Ancestor H t (.obj id) → H[id]? ≠ some (.simple s) := by
  intro n
  induction n with
  | zero => intro t h; cases h
  | succ n ih =>
    intro t h id s ha hs
    simp only [mixedBase] at h
    split at h
    · cases h
      cases ancestor_builtin ha
    · rename_i c hc
      split at h
      · cases h; cases hc
      · rename_i hns
        cases ha with
        | self => exact hns (by simp only [isSimple, hs])
        | base h1 h2 =>
          rw [hc] at h1
          cases h1
          exact ih h id s h2 hs

theorem mixedBase_simple {H : THeap} {x : Ty} : ∀ {n : Nat} {t : Ty}, mixedBase H n t = .ok x → isSimple H x = true →
    ∃ id s, Ancestor H t (.obj id) ∧ H[id]? = some (.simple s) := by
  intro n t h hs
  have ha := mixedBase_ancestor h
  cases x with
  | builtin b => cases hs
  | link b => cases hs
  | obj id =>
    simp only [isSimple] at hs
    split at hs
    · rename_i s e
      exact ⟨id, s, ha, e⟩
    · cases hs

theorem TextOf.unique {H : THeap} {c : ComplexT} {b b' : Builtin} (h : TextOf H c b) (h' : TextOf H c b') : b = b' := by
  obtain ⟨-, x, hx, h1, -⟩ := h
  obtain ⟨-, y, hy, h2, -⟩ := h'
  rw [hx] at hy
  cases hy
  have key : ∀ {t a : Ty}, Ancestor H t a → a = .builtin b → ∀ b', Ancestor H t (.builtin b') → b = b' := by
    intro t a h
    induction h with
    | self t =>
      intro e b' h'
      subst e
      cases ancestor_builtin h'
      rfl
    | base hb _ ih =>
      intro e b' h'
      cases h' with
      | self => cases hb
      | base hb' h' => rw [hb] at hb'; cases hb'; exact ih e b' h'
  exact key h1 rfl b' h2

theorem charData_types {env : Env} {cfg : Config} {n : Nat} {H : THeap} {t : ComplexT} {acc : Acc} (h : charData env cfg n H t = .ok acc) :
    (∀ x, x ∈ acc.overrides.map (·.type) ↔ ∃ b, x = .builtin b ∧ TextOf H t b ∧ Special x) ∧
    (∀ b, TextOf H t b → Special (.builtin b) → ∃ s, get cfg.helperTypes (builtinName b) = some s) := by
  unfold charData at h
  split at h
  · rename_i hm
    split at h
    · cases h
    · rename_i b0 hb0
      obtain ⟨base, hbase, h⟩ := bind_ok h
      obtain ⟨e, he, h⟩ := bind_ok h
      simp only at h
      split at h
      · rename_i b _
        have hT : TextOf H t b := ⟨hm, b0, hb0, mixedBase_ancestor hbase, mixedBase_builtin hbase⟩
        split at h
        · rename_i hany
          cases h
          have hns : ¬ Special (.builtin b) := by
            rw [← special_iff, hany]; decide
          refine ⟨?_, ?_⟩
          · intro x
            constructor
            · intro h; cases h
            · rintro ⟨b', rfl, h1, h2⟩
              cases h1.unique hT
              exact absurd h2 hns
          · intro b' h1 h2
            cases h1.unique hT
            exact absurd h2 hns
        · split at h
          · rename_i hsp
            rw [special_iff] at hsp
            split at h
            · cases h
            · rename_i s hs
              cases h
              refine ⟨?_, ?_⟩
              · intro x
                simp only [List.map_cons, List.map_nil, List.mem_singleton]
                constructor
                · rintro rfl; exact ⟨b, rfl, hT, hsp⟩
                · rintro ⟨b', rfl, h1, h2⟩
                  cases h1.unique hT
                  rfl
              · intro b' h1 h2
                cases h1.unique hT
                exact ⟨s, hs⟩
          · rename_i hns
            rw [special_iff] at hns
            cases h
            refine ⟨?_, ?_⟩
            · intro x
              constructor
              · intro h; cases h
              · rintro ⟨b', rfl, h1, h2⟩
                cases h1.unique hT
                exact absurd h2 hns
            · intro b' h1 h2
              cases h1.unique hT
              exact absurd h2 hns
      · split at h
        · rename_i hs
          cases h
          obtain ⟨id, s, k1, k2⟩ := mixedBase_simple hbase hs
          have hno : ∀ b, ¬ TextOf H t b := by
            rintro b ⟨-, y, hy, -, h2⟩
            rw [hb0] at hy
            cases hy
            exact h2 id s k1 k2
          refine ⟨?_, fun b h1 => absurd h1 (hno b)⟩
          intro x
          constructor
          · intro h; cases h
          · rintro ⟨b, _, h1, _⟩
            exact absurd h1 (hno b)
        · cases h
  · rename_i hm
    cases h
    refine ⟨?_, ?_⟩
    · intro x
      constructor
      · intro h; cases h
      · rintro ⟨b, _, h1, _⟩
        exact absurd h1.1 hm
    · intro b h1
      exact absurd h1.1 hm

/-- The types that are overridden. -/
theorem genFields_types {env : Env} {cfg : Config} {n : Nat} {H : THeap} {t : ComplexT} {acc : Acc} (h : genFields env cfg n H t = .ok acc)
    (x : Ty) : x ∈ acc.overrides.map (·.type) ↔
      (∃ b, x = .builtin b ∧ TextOf H t b ∧ Special x) ∨
      (∃ e, KeptElem cfg t e ∧ e.type = x ∧ (Special x ∨ e.dflt ≠ [])) ∨
      (∃ a, KeptAttr cfg t a ∧ a.type = x ∧ (Special x ∨ a.dflt ≠ [])) := by
  obtain ⟨a1, a2, h1, h2, h3⟩ := genFields_ok h
  rw [(attrs_types _ _ _ h3).1, (elems_types _ _ _ h2).1, (charData_types h1).1]
  constructor
  · rintro ((h | ⟨d, ⟨e, he, rfl, rfl⟩, hs⟩) | ⟨d, ⟨e, he, rfl, rfl⟩, hs⟩)
    · exact Or.inl h
    · exact Or.inr (Or.inl ⟨e, (keptElem_iff ..).mp he, rfl, hs⟩)
    · exact Or.inr (Or.inr ⟨e, (keptAttr_iff ..).mp he, rfl, hs⟩)
  · rintro (h | ⟨e, he, rfl, hs⟩ | ⟨e, he, rfl, hs⟩)
    · exact Or.inl (Or.inl h)
    · exact Or.inl (Or.inr ⟨_, ⟨e, (keptElem_iff ..).mpr he, rfl, rfl⟩, hs⟩)
    · exact Or.inr ⟨_, ⟨e, (keptAttr_iff ..).mpr he, rfl, rfl⟩, hs⟩

/-- `takeOver` in terms of what a type inherits. -/
theorem takeOver_inherits (H : THeap) (t : ComplexT) : Inherits H t (takeOver H t) := by
  have hiff : ∀ b, DerivedFrom H t b ↔ ∃ bid, complexBase H t = some (bid, b) := by
    intro b
    unfold DerivedFrom complexBase
    constructor
    · rintro ⟨bid, h1, h2⟩
      exact ⟨bid, by simp [h1, h2]⟩
    · rintro ⟨bid, h⟩
      split at h
      · split at h
        · cases h; exact ⟨_, by assumption, by assumption⟩
        · cases h
      · cases h
  cases hb : complexBase H t with
  | none =>
    have e : takeOver H t = t := by simp [takeOver, hb]
    have hno : ∀ b, ¬ DerivedFrom H t b := by
      intro b h
      obtain ⟨_, h⟩ := (hiff b).mp h
      rw [hb] at h
      cases h
    rw [e]
    exact ⟨rfl, fun _ => rfl, fun b h => absurd h (hno b), fun b h => absurd h (hno b), fun b h => absurd h (hno b)⟩
  | some q =>
    have huniq : ∀ b, DerivedFrom H t b → b = q.2 := by
      intro b h
      obtain ⟨_, h⟩ := (hiff b).mp h
      rw [hb] at h
      cases h
      rfl
    refine ⟨?_, ?_, ?_, ?_, ?_⟩
    · simp [takeOver, hb]
    · intro h
      exact absurd ((hiff q.2).mpr ⟨q.1, hb⟩) (h _)
    · intro b h
      cases huniq b h
      simp only [takeOver, hb]
      exact merge_eq _ _
    · rintro b h ⟨e, he, hw⟩
      have : t.elements.any (·.wildcard) = true := List.any_eq_true.mpr ⟨e, he, hw⟩
      simp [takeOver, hb, this]
    · intro b h hw
      cases huniq b h
      have : t.elements.any (·.wildcard) = false := by
        rw [List.any_eq_false]
        intro e he
        simp [hw e he]
      simp only [takeOver, hb, this]
      have hf : ∀ l : List XElem, (match l.find? (·.wildcard) with | some e => t.elements ++ [e] | none => t.elements) =
          t.elements ++ (l.filter (·.wildcard)).take 1 := by
        intro l
        induction l with
        | nil => simp
        | cons e l ih =>
          rw [List.find?_cons, List.filter_cons]
          cases e.wildcard with
          | true => simp
          | false => simpa using ih
      exact hf _

end GoXml.Xsdgen
