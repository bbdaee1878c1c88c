import Verif.Spec.XsdParse
import Verif.Proofs.Gen
import Verif.Proofs.Wsdl
import Mathlib.Tactic.Ring
import Mathlib.Tactic.Tauto
import Mathlib.Data.List.Induction
import Mathlib.Data.List.Nodup
import Mathlib.Data.List.Forall2
set_option autoImplicit false

/-! Helper lemmas for C35 and C36. -/

namespace GoXml.Xsd
open Wsdl (attrNamed allNamed searchEl)

/-! ### Numbers -/

theorem digitsVal_some (ds : Str) : ∀ acc n, digitsVal acc ds = some n ↔
    (∀ c ∈ ds, 48 ≤ c ∧ c ≤ 57) ∧ n = acc * 10 ^ ds.length + decimalValue ds := by
  induction ds with
  | nil => intro acc n; simp [digitsVal, decimalValue, eq_comm]
  | cons c cs ih =>
    intro acc n
    rw [digitsVal]
    have hv : decimalValue (c :: cs) = (c.toNat - 48) * 10 ^ cs.length + decimalValue cs := by
      unfold decimalValue
      rw [List.reverse_cons, List.zipIdx_append, List.map_append, List.sum_append]
      simp; omega
    split
    · rename_i h
      rw [ih, hv]
      simp only [List.mem_cons, forall_eq_or_imp, h, true_and, and_self, List.length_cons, pow_succ]
      have : (acc * 10 + (c.toNat - 48)) * 10 ^ cs.length = acc * (10 ^ cs.length * 10) + (c.toNat - 48) * 10 ^ cs.length := by ring
      rw [this]
      constructor
      · rintro ⟨h1, h2⟩; exact ⟨h1, by omega⟩
      · rintro ⟨h1, h2⟩; exact ⟨h1, by omega⟩
    · rename_i h
      simp [h]

theorem atoi_iff (s : Str) (n : Int) : atoi s = some n ↔ IntText s n := by
  unfold atoi IntText
  constructor
  · intro h
    simp only at h
    generalize hds : (if s.head? = some 45 ∨ s.head? = some 43 then s.tail else s) = ds at h
    by_cases hne : ds = []
    · rw [if_pos hne] at h; cases h
    · rw [if_neg hne] at h
      split at h
      · cases h
      · rename_i k hk
        obtain ⟨hd, hkv⟩ := (digitsVal_some _ _ _).mp hk
        rw [Nat.zero_mul, Nat.zero_add] at hkv
        refine ⟨_, ⟨hne, hd⟩, ?_⟩
        split at h
        · rename_i hneg
          simp only [decide_eq_true_eq] at hneg
          split at h
          · cases h
            refine ⟨Or.inr ⟨?_, by rw [hkv]⟩, by omega, by omega⟩
            rw [if_pos (Or.inl hneg)] at hds
            subst hds
            cases s with
            | nil => cases hneg
            | cons c cs => simp only [List.head?_cons, Option.some.injEq] at hneg; subst hneg; rfl
          · cases h
        · rename_i hneg
          simp only [decide_eq_true_eq] at hneg
          split at h
          · cases h
            refine ⟨Or.inl ⟨?_, by rw [hkv]⟩, by omega, by omega⟩
            by_cases hp : s.head? = some 43
            · right
              rw [if_pos (Or.inr hp)] at hds
              subst hds
              cases s with
              | nil => cases hp
              | cons c cs => simp only [List.head?_cons, Option.some.injEq] at hp; subst hp; rfl
            · left
              rw [if_neg (by simp [hneg, hp])] at hds
              exact hds
          · cases h
  · rintro ⟨ds, ⟨hne, hd⟩, hs, hlo, hhi⟩
    have hv : digitsVal 0 ds = some (decimalValue ds) := (digitsVal_some _ _ _).mpr ⟨hd, by simp⟩
    have hhead : ds.head? ≠ some 45 ∧ ds.head? ≠ some 43 := by
      cases ds with
      | nil => exact absurd rfl hne
      | cons c cs =>
        have := hd c (by simp)
        simp only [List.head?_cons, ne_eq, Option.some.injEq]
        constructor
        · rintro rfl; exact absurd this.1 (by decide)
        · rintro rfl; exact absurd this.1 (by decide)
    rcases hs with ⟨hs | hs, hn⟩ | ⟨hs, hn⟩
    · subst hs
      simp only [hhead.1, hhead.2, or_self, if_false, decide_false, Bool.false_eq_true, if_neg hne, hv]
      rw [if_pos (by omega), hn]
    · subst hs
      have e1 : (b!"+" ++ ds).head? = some 43 := rfl
      have e2 : (b!"+" ++ ds).tail = ds := rfl
      simp only [e1, e2, or_true, if_true, if_neg hne, hv]
      rw [if_neg (by decide), if_pos (by omega), hn]
    · subst hs
      have e1 : (b!"-" ++ ds).head? = some 45 := rfl
      have e2 : (b!"-" ++ ds).tail = ds := rfl
      simp only [e1, e2, true_or, if_true, if_neg hne, hv, decide_true]
      rw [if_pos (by omega), hn]

theorem intText_ne {n : Int} : ¬ IntText [] n ∧ ¬ IntText b!"unbounded" n := by
  constructor
  · rw [← atoi_iff]; simp [atoi]
  · rw [← atoi_iff]
    have : atoi b!"unbounded" = none := by decide
    rw [this]; simp

theorem parseInt_iff (s : Str) (n : Int) : parseInt s = some n ↔ Means s n := by
  unfold parseInt Means
  have ht := Gen.trimSpace_spec s
  constructor
  · intro h
    refine ⟨_, ht, ?_⟩
    split at h
    · cases h; exact Or.inl ⟨‹_›, rfl⟩
    · split at h
      · cases h; exact Or.inr (Or.inl ⟨‹_›, rfl⟩)
      · exact Or.inr (Or.inr ((atoi_iff _ _).mp h))
  · rintro ⟨t, h1, h2⟩
    obtain rfl := Gen.trimmedTo_unique ht h1
    rcases h2 with ⟨h2, rfl⟩ | ⟨h2, rfl⟩ | h2
    · rw [if_pos h2]
    · rw [if_neg (by rw [h2]; decide), if_pos h2]
    · rw [if_neg, if_neg]
      · exact (atoi_iff _ _).mpr h2
      · intro h; rw [h] at h2; exact intText_ne.2 h2
      · intro h; rw [h] at h2; exact intText_ne.1 h2

theorem parseInt_none (s : Str) : parseInt s = none ↔ Malformed s := by
  unfold Malformed
  cases h : parseInt s with
  | none =>
    simp only [true_iff]
    intro n hn
    rw [(parseInt_iff s n).mpr hn] at h
    cases h
  | some n =>
    simp only [reduceCtorEq, false_iff]
    intro hn
    exact hn n ((parseInt_iff s n).mp h)

theorem parseBool_iff (s : Str) (b : Bool) : parseBool s = some b ↔ BoolText s b := by
  unfold parseBool BoolText
  split
  · rename_i h
    constructor
    · intro e; cases e; right; exact ⟨rfl, by tauto⟩
    · rintro (⟨_, h2⟩ | ⟨rfl, _⟩)
      · rcases h2 with rfl | rfl <;> exact absurd h (by decide)
      · rfl
  · rename_i h
    split
    · rename_i h2
      constructor
      · intro e; cases e; left; exact ⟨rfl, by tauto⟩
      · rintro (⟨rfl, _⟩ | ⟨_, h3⟩)
        · rfl
        · exact absurd (by tauto) h
    · rename_i h2
      constructor
      · intro e; cases e
      · rintro (⟨_, h3⟩ | ⟨_, h3⟩)
        · exact absurd (by tauto) h2
        · exact absurd (by tauto) h

theorem parseBool_none (s : Str) : parseBool s = none ↔ ∀ b, ¬ BoolText s b := by
  cases h : parseBool s with
  | none =>
    simp only [true_iff]
    intro b hb
    rw [(parseBool_iff s b).mpr hb] at h; cases h
  | some b =>
    simp only [reduceCtorEq, false_iff]
    intro hn
    exact hn b ((parseBool_iff s b).mp h)

/-! ### walk -/

theorem schemaNS_eq : schemaNS = w3cSchemaNS := rfl

/-- A walk whose body only fails on some elements fails iff there is such an element. -/
theorem walkFold_none {σ : Type} (f : σ → Element → Option σ) (bad : Element → Prop)
    (hf : ∀ s e, e.name.space = schemaNS → (f s e = none ↔ bad e)) (es : List Element) :
    ∀ s, walkFold f s es = none ↔ ∃ e ∈ es, e.name.space = schemaNS ∧ bad e := by
  induction es with
  | nil => intro s; simp [walkFold]
  | cons e es ih =>
    intro s
    rw [walkFold]
    split
    · rename_i h
      rw [ih]; simp [h]
    · rename_i h
      have h : e.name.space = schemaNS := by simpa using h
      cases hfe : f s e with
      | none =>
        simp only [true_iff]
        exact ⟨e, by simp, h, (hf s e h).mp hfe⟩
      | some s' =>
        simp only
        have hb : ¬ bad e := by
          intro hb; rw [(hf s e h).mpr hb] at hfe; cases hfe
        rw [ih]; simp [hb]

theorem childDocs_none (env : ParseEnv) (el : Element) : childDocs env el = none ↔ BadAnnotation env el := by
  unfold childDocs
  rw [walkFold_none _ (fun c => c.name.loc = b!"annotation" ∧ env.annotation c = none)]
  · unfold BadAnnotation
    constructor
    · rintro ⟨c, h1, h2, h3, h4⟩
      refine ⟨c, h1, ?_, h4⟩
      cases hn : c.name with
      | mk sp l => rw [hn] at h2 h3; simp only at h2 h3; rw [h2, h3]; rfl
    · rintro ⟨c, h1, h2, h3⟩
      exact ⟨c, h1, by rw [h2]; rfl, by rw [h2], h3⟩
  · intro s e _
    split
    · rename_i h; simp [h]
    · rename_i h; simp [h]

/-! ### Merging -/

theorem mapOpt_append {α β : Type} (f : α → Option β) (xs ys : List α) :
    mapOpt f (xs ++ ys) = (match mapOpt f xs, mapOpt f ys with
      | some a, some b => some (a ++ b)
      | _, _ => none) := by
  induction xs with
  | nil => simp only [List.nil_append, mapOpt]; cases mapOpt f ys <;> rfl
  | cons x xs ih =>
    rw [List.cons_append, mapOpt, ih, mapOpt]
    cases f x <;> cases mapOpt f xs <;> cases mapOpt f ys <;> rfl

theorem mapOpt_forall₂ {α β : Type} {f : α → Option β} {xs : List α} : ∀ {ys : List β}, mapOpt f xs = some ys →
    List.Forall₂ (fun x y => f x = some y) xs ys := by
  induction xs with
  | nil => intro ys h; cases h; exact .nil
  | cons x xs ih =>
    intro ys h
    rw [mapOpt] at h
    split at h
    · rename_i y zs h1 h2
      cases h
      exact .cons h1 (ih h2)
    · cases h

/-- Adding one declaration to the elements collected so far. -/
def addDecl (ms : List XElem) (d : XElem) : List XElem :=
  if d.name ∈ ms.map (·.name) then ms.map fun m => if m.name = d.name then joinElem m d else m else ms ++ [d]

theorem joinElem_name (a b : XElem) : (joinElem a b).name = a.name := rfl

theorem addDecl_names (ms : List XElem) (d : XElem) :
    (addDecl ms d).map (·.name) = if d.name ∈ ms.map (·.name) then ms.map (·.name) else ms.map (·.name) ++ [d.name] := by
  unfold addDecl
  split
  · rw [List.map_map]
    apply List.map_congr_left
    intro m _
    simp only [Function.comp_apply]
    split <;> simp [joinElem_name]
  · simp

theorem modify_pos {pre ms : List XElem} {k : Nat} {m : XElem} {n : XName} (f : XElem → XElem)
    (hk : ms[k]? = some m) (hm : m.name = n) (hn : (ms.map (·.name)).Nodup) :
    (pre ++ ms).modify (pre.length + k) f = pre ++ ms.map (fun x => if x.name = n then f x else x) := by
  apply List.ext_getElem?
  intro i
  rw [List.getElem?_modify]
  by_cases hi : i < pre.length
  · rw [List.getElem?_append_left hi, List.getElem?_append_left hi]
    have : ¬ pre.length + k = i := by omega
    simp [this]
  · rw [List.getElem?_append_right (by omega), List.getElem?_append_right (by omega), List.getElem?_map]
    by_cases hk' : pre.length + k = i
    · subst hk'
      simp [hk, hm]
    · cases hx : ms[i - pre.length]? with
      | none => simp
      | some x =>
        have hne : x.name ≠ n := by
          intro he
          have h1 : (ms.map (·.name))[i - pre.length]? = some n := by simp [hx, he]
          have h2 : (ms.map (·.name))[k]? = some n := by simp [hk, hm]
          have := (List.nodup_iff_getElem?_ne_getElem?.mp hn)
          rcases Nat.lt_trichotomy (i - pre.length) k with h | h | h
          · have hlt : k < (ms.map (·.name)).length := (List.getElem?_eq_some_iff.mp h2).1
            exact this _ _ h hlt (by rw [h1, h2])
          · omega
          · have hlt : i - pre.length < (ms.map (·.name)).length := (List.getElem?_eq_some_iff.mp h1).1
            exact this _ _ h hlt (by rw [h1, h2])
        simp [hk', hne]

theorem elementLoop_eq (env : ParseEnv) (ns : Str) (vs : List Element) : ∀ (used : GoMap XName Nat) (pre ms : List XElem),
    (ms.map (·.name)).Nodup →
    (∀ n i, used.get n = some i ↔ ∃ k m, i = pre.length + k ∧ ms[k]? = some m ∧ m.name = n) →
    elementLoop env ns used (pre ++ ms) vs =
      (mapOpt (parseElement env ns) vs).map fun ds => pre ++ ds.foldl addDecl ms := by
  induction vs with
  | nil => intro used pre ms _ _; rfl
  | cons v vs ih =>
    intro used pre ms hn hu
    rw [elementLoop, mapOpt]
    cases hp : parseElement env ns v with
    | none => rfl
    | some elt =>
      simp only
      cases hg : used.get elt.name with
      | none =>
        simp only
        have hnot : elt.name ∉ ms.map (·.name) := by
          intro hm
          obtain ⟨m, hm, he⟩ := List.mem_map.mp hm
          obtain ⟨k, hk⟩ := List.mem_iff_getElem?.mp hm
          rw [(hu elt.name (pre.length + k)).mpr ⟨k, m, rfl, hk, he⟩] at hg
          cases hg
        have hadd : addDecl ms elt = ms ++ [elt] := by unfold addDecl; rw [if_neg hnot]
        rw [List.append_assoc, ih]
        · cases mapOpt (parseElement env ns) vs <;> simp [hadd]
        · rw [← hadd, addDecl_names, if_neg hnot]
          exact List.nodup_append.mpr ⟨hn, by simp, by
            intro a ha b hb
            simp only [List.mem_singleton] at hb
            subst hb; rintro rfl; exact hnot ha⟩
        · intro n i
          rw [GoMap.get_set]
          constructor
          · intro h
            split at h
            · rename_i he
              cases h
              exact ⟨ms.length, elt, by simp, by simp, he⟩
            · obtain ⟨k, m, h1, h2, h3⟩ := (hu n i).mp h
              exact ⟨k, m, h1, by rw [List.getElem?_append_left (List.getElem?_eq_some_iff.mp h2).1]; exact h2, h3⟩
          · rintro ⟨k, m, h1, h2, h3⟩
            by_cases hk : k < ms.length
            · rw [List.getElem?_append_left hk] at h2
              rw [if_neg, (hu n i).mpr ⟨k, m, h1, h2, h3⟩]
              rintro rfl
              exact hnot (h3 ▸ List.mem_map_of_mem (List.mem_of_getElem? h2))
            · rw [List.getElem?_append_right (by omega)] at h2
              have hk0 : k - ms.length = 0 := by
                have := (List.getElem?_eq_some_iff.mp h2).1
                simp at this; omega
              rw [hk0] at h2
              simp only [List.getElem?_cons_zero, Option.some.injEq] at h2
              subst h2
              rw [if_pos h3, h1]
              simp; omega
      | some i =>
        simp only
        obtain ⟨k, m, rfl, hk, hm⟩ := (hu _ _).mp hg
        have hin : elt.name ∈ ms.map (·.name) := hm ▸ List.mem_map_of_mem (List.mem_of_getElem? hk)
        have hadd : addDecl ms elt = ms.map fun x => if x.name = elt.name then joinElem x elt else x := by
          unfold addDecl; rw [if_pos hin]
        rw [modify_pos (joinElem · elt) hk hm hn, ← hadd, ih]
        · cases mapOpt (parseElement env ns) vs <;> simp
        · rw [addDecl_names, if_pos hin]; exact hn
        · intro n i
          rw [hu]
          have hmap : ∀ k : Nat, ((addDecl ms elt)[k]?).map (·.name) = (ms[k]?).map (·.name) := by
            intro k
            rw [← List.getElem?_map, ← List.getElem?_map, addDecl_names, if_pos hin]
          constructor
          · rintro ⟨k, m, h1, h2, h3⟩
            have := hmap k
            rw [h2] at this
            cases h4 : (addDecl ms elt)[k]? with
            | none => rw [h4] at this; cases this
            | some m' => rw [h4] at this; exact ⟨k, m', h1, h4, by simpa [h3] using this⟩
          · rintro ⟨k, m, h1, h2, h3⟩
            have := hmap k
            rw [h2] at this
            cases h4 : ms[k]? with
            | none => rw [h4] at this; cases this
            | some m' => rw [h4] at this; exact ⟨k, m', h1, h4, by simpa [h3] using this.symm⟩

theorem firsts_append {α : Type} [DecidableEq α] (xs : List α) (y : α) :
    firsts (xs ++ [y]) = if y ∈ firsts xs then firsts xs else firsts xs ++ [y] := by
  induction xs with
  | nil => simp [firsts]
  | cons x xs ih =>
    rw [List.cons_append, firsts, ih, firsts]
    by_cases hyx : y = x
    · subst hyx
      split
      · simp
      · simp [List.filter_append]
    · split
      · rename_i h; simp [h, hyx]
      · rename_i h; simp [h, hyx, List.filter_append]

theorem mem_firsts {α : Type} [DecidableEq α] (xs : List α) (y : α) : y ∈ firsts xs ↔ y ∈ xs := by
  induction xs with
  | nil => simp [firsts]
  | cons x xs ih =>
    rw [firsts, List.mem_cons, List.mem_filter, ih, List.mem_cons]
    by_cases h : y = x <;> simp [h]

theorem firsts_nodup {α : Type} [DecidableEq α] (xs : List α) : (firsts xs).Nodup := by
  induction xs with
  | nil => simp [firsts]
  | cons x xs ih =>
    rw [firsts, List.nodup_cons]
    exact ⟨by simp, ih.filter _⟩

theorem isMerge_single (d : XElem) : IsMerge [d] d where
  first := ⟨d, rfl, rfl, rfl, rfl, rfl, rfl⟩
  plural := by simp
  optional := by simp
  nillable := by simp
  abstract := by simp
  same_default := by intro v h; exact h d (by simp)
  other_default := by
    rintro ⟨a, ha, b, hb, h⟩
    simp only [List.mem_singleton] at ha hb
    rw [ha, hb] at h; exact absurd rfl h
  doc := by
    by_cases h : d.doc = [] <;> simp [List.dropWhile_cons, h]

theorem intercalate_append (sep : Str) (l : List Str) (x : Str) (h : l ≠ []) :
    List.intercalate sep (l ++ [x]) = List.intercalate sep l ++ sep ++ x := by
  induction l with
  | nil => exact absurd rfl h
  | cons a l ih =>
    cases l with
    | nil => simp [List.intercalate]
    | cons b l =>
      have := ih (by simp)
      simp only [List.intercalate, List.cons_append, List.intersperse_cons_cons, List.flatten_cons] at *
      rw [this]; simp

theorem dropWhile_append_nil (l : List Str) (x : Str) :
    (l ++ [x]).dropWhile (fun s => decide (s = [])) =
      if l.dropWhile (fun s => decide (s = [])) = [] then (if x = [] then [] else [x])
      else l.dropWhile (fun s => decide (s = [])) ++ [x] := by
  induction l with
  | nil => by_cases h : x = [] <;> simp [List.dropWhile_cons, h]
  | cons a l ih =>
    rw [List.cons_append, List.dropWhile_cons, List.dropWhile_cons]
    by_cases h : a = []
    · simp only [h, decide_true, if_true]; exact ih
    · simp [h]

theorem isMerge_join {ds : List XElem} {e d : XElem} (hm : IsMerge ds e) : IsMerge (ds ++ [d]) (joinElem e d) where
  first := by
    obtain ⟨d0, h0, h⟩ := hm.first
    refine ⟨d0, ?_, h⟩
    cases ds with
    | nil => cases h0
    | cons a as => exact h0
  plural := by
    simp only [joinElem, Bool.or_eq_true, hm.plural, List.mem_append, List.mem_singleton]
    constructor
    · rintro (⟨x, h1, h2⟩ | h)
      · exact ⟨x, Or.inl h1, h2⟩
      · exact ⟨d, Or.inr rfl, h⟩
    · rintro ⟨x, h1 | rfl, h2⟩
      · exact Or.inl ⟨x, h1, h2⟩
      · exact Or.inr h2
  optional := by
    simp only [joinElem, Bool.or_eq_true, hm.optional, List.mem_append, List.mem_singleton]
    constructor
    · rintro (⟨x, h1, h2⟩ | h)
      · exact ⟨x, Or.inl h1, h2⟩
      · exact ⟨d, Or.inr rfl, h⟩
    · rintro ⟨x, h1 | rfl, h2⟩
      · exact Or.inl ⟨x, h1, h2⟩
      · exact Or.inr h2
  nillable := by
    simp only [joinElem, Bool.or_eq_true, hm.nillable, List.mem_append, List.mem_singleton]
    constructor
    · rintro (⟨x, h1, h2⟩ | h)
      · exact ⟨x, Or.inl h1, h2⟩
      · exact ⟨d, Or.inr rfl, h⟩
    · rintro ⟨x, h1 | rfl, h2⟩
      · exact Or.inl ⟨x, h1, h2⟩
      · exact Or.inr h2
  abstract := by
    simp only [joinElem, Bool.and_eq_true, hm.abstract, List.mem_append, List.mem_singleton]
    constructor
    · rintro ⟨h1, h2⟩ x (h | rfl)
      · exact h1 x h
      · exact h2
    · intro h
      exact ⟨fun x hx => h x (Or.inl hx), h d (Or.inr rfl)⟩
  same_default := by
    intro v h
    have h1 := hm.same_default v fun x hx => h x (by simp [hx])
    have h2 := h d (by simp)
    simp [joinElem, h1, h2]
  other_default := by
    rintro ⟨a, ha, b, hb, hab⟩
    simp only [joinElem]
    by_cases hall : ∃ x ∈ ds, ∃ y ∈ ds, x.dflt ≠ y.dflt
    · rw [hm.other_default hall]; split <;> rfl
    · obtain ⟨d0, h0, _⟩ := hm.first
      have hmem : d0 ∈ ds := List.mem_of_head? h0
      have hsame : ∀ x ∈ ds, x.dflt = d0.dflt := by
        intro x hx
        by_contra hc
        exact hall ⟨x, hx, d0, hmem, hc⟩
      rw [hm.same_default _ hsame, if_pos]
      intro he
      have : ∀ x ∈ ds ++ [d], x.dflt = d0.dflt := by
        intro x hx
        rcases List.mem_append.mp hx with hx | hx
        · exact hsame x hx
        · simp only [List.mem_singleton] at hx; rw [hx, he]
      exact hab (by rw [this a ha, this b hb])
  doc := by
    simp only [joinElem]
    rw [hm.doc, List.map_append, List.map_cons, List.map_nil, dropWhile_append_nil]
    by_cases h : (ds.map (·.doc)).dropWhile (fun s => decide (s = [])) = []
    · rw [if_pos h, h]
      by_cases hd : d.doc = [] <;> simp [hd]
    · rw [if_neg h, intercalate_append _ _ _ h, if_pos]
      have hh : ∃ x xs, (ds.map (·.doc)).dropWhile (fun s => decide (s = [])) = x :: xs := List.exists_cons_of_ne_nil h
      obtain ⟨x, xs, hx⟩ := hh
      have hxn : x ≠ [] := by
        have := List.head?_dropWhile_not (fun s => decide (s = [])) (ds.map (·.doc))
        rw [hx] at this
        simpa using this
      rw [hx]
      cases xs with
      | nil => simpa [List.intercalate] using hxn
      | cons y ys => simp [List.intercalate, hxn]

/-- What collecting declarations amounts to. -/
theorem foldl_addDecl (ds : List XElem) :
    (ds.foldl addDecl []).map (·.name) = firsts (ds.map (·.name)) ∧
    ∀ m ∈ ds.foldl addDecl [], IsMerge (ds.filter fun d => decide (d.name = m.name)) m := by
  induction ds using List.reverseRecOn with
  | nil => simp [firsts]
  | append_singleton ds d ih =>
    obtain ⟨h1, h2⟩ := ih
    rw [List.foldl_append, List.foldl_cons, List.foldl_nil]
    constructor
    · rw [addDecl_names, h1, List.map_append, List.map_cons, List.map_nil, firsts_append]
    · intro m hm
      rw [List.filter_append]
      rw [addDecl] at hm
      split at hm
      · rename_i hin
        obtain ⟨m0, hm0, he⟩ := List.mem_map.mp hm
        split at he
        · rename_i hn
          subst he
          rw [joinElem_name]
          have := isMerge_join (d := d) (h2 m0 hm0)
          simpa [hn] using this
        · rename_i hn
          subst he
          have hn' : ¬ d.name = m0.name := fun e => hn e.symm
          simpa [hn'] using h2 m0 hm0
      · rename_i hnot
        rcases List.mem_append.mp hm with hm | hm
        · have hn' : ¬ d.name = m.name := by
            intro e; exact hnot (e ▸ List.mem_map_of_mem hm)
          simpa [hn'] using h2 m hm
        · simp only [List.mem_singleton] at hm
          subst hm
          have : ds.filter (fun x => decide (x.name = m.name)) = [] := by
            rw [List.filter_eq_nil_iff]
            intro x hx hxe
            simp only [decide_eq_true_eq] at hxe
            apply hnot
            rw [h1, mem_firsts, ← hxe]
            exact List.mem_map_of_mem hx
          rw [this]
          simpa using isMerge_single m

/-! ### Content models -/

/-- A walk of which one element matters: the others leave `g` of the state alone. -/
theorem walkFold_one {σ τ : Type} (f : σ → Element → Option σ) (g : σ → τ) (el : Element)
    (hf : ∀ s e s', e.name.space = schemaNS → e.name.loc = b!"annotation" → f s e = some s' → g s' = g s)
    (es : List Element) : ∀ s r,
      es.filter (fun c => decide (c.name.space = w3cSchemaNS ∧ c.name.loc ≠ b!"annotation")) = [el] →
      walkFold f s es = some r → ∃ s1 s2, g s1 = g s ∧ f s1 el = some s2 ∧ g r = g s2 := by
  have none_left : ∀ (es : List Element) s r,
      es.filter (fun c => decide (c.name.space = w3cSchemaNS ∧ c.name.loc ≠ b!"annotation")) = [] →
      walkFold f s es = some r → g r = g s := by
    intro es
    induction es with
    | nil => intro s r _ h; cases h; rfl
    | cons e es ih =>
      intro s r hfil h
      rw [List.filter_eq_nil_iff] at hfil
      have he := hfil e (by simp)
      have hrest : es.filter (fun c => decide (c.name.space = w3cSchemaNS ∧ c.name.loc ≠ b!"annotation")) = [] :=
        List.filter_eq_nil_iff.mpr fun x hx => hfil x (by simp [hx])
      rw [walkFold] at h
      split at h
      · exact ih s r hrest h
      · rename_i hns
        have hns : e.name.space = schemaNS := by simpa using hns
        split at h
        · cases h
        · rename_i s' hs'
          rw [ih s' r hrest h]
          apply hf s e s' hns _ hs'
          simpa [hns, schemaNS_eq] using he
  induction es with
  | nil => intro s r h; cases h
  | cons e es ih =>
    intro s r hfil h
    rw [walkFold] at h
    rw [List.filter_cons] at hfil
    split at h
    · rename_i hns
      rw [if_neg (by simp [← schemaNS_eq, hns])] at hfil
      exact ih s r hfil h
    · rename_i hns
      have hns : e.name.space = schemaNS := by simpa using hns
      split at h
      · cases h
      · rename_i s' hs'
        split at hfil
        · rename_i hk
          rw [List.cons.injEq] at hfil
          obtain ⟨rfl, hrest⟩ := hfil
          exact ⟨s, s', rfl, hs', none_left es s' r hrest h⟩
        · rename_i hk
          obtain ⟨s1, s2, h1, h2, h3⟩ := ih s' r hfil h
          refine ⟨s1, s2, ?_, h2, h3⟩
          rw [h1]
          apply hf s e s' hns _ hs'
          simpa [hns, schemaNS_eq] using hk

end GoXml.Xsd
