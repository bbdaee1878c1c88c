import Verif.Proofs.Sort
import Verif.Spec.XmlTree

/-! Helper lemmas for attributes and scopes. -/

namespace GoXml

theorem cut_some {c : UInt8} {q p l : Str} (h : cut c q = some (p, l)) : q = p ++ c :: l ∧ c ∉ p := by
  induction q generalizing p with
  | nil => simp [cut] at h
  | cons x xs ih =>
    rw [cut] at h
    split at h
    · rename_i hx; simp at h; obtain ⟨rfl, rfl⟩ := h; simp [hx]
    · rename_i hx
      split at h
      · cases h
      · rename_i a r heq
        simp at h
        obtain ⟨rfl, rfl⟩ := h
        obtain ⟨h1, h2⟩ := ih heq
        refine ⟨by rw [h1]; rfl, ?_⟩
        simp only [List.mem_cons, not_or]
        exact ⟨fun h => hx h.symm, h2⟩

theorem cut_none {c : UInt8} {q : Str} (h : cut c q = none) : c ∉ q := by
  induction q with
  | nil => simp
  | cons x xs ih =>
    rw [cut] at h
    split at h
    · cases h
    · rename_i hx
      split at h
      · rename_i heq
        simp only [List.mem_cons, not_or]
        exact ⟨fun h => hx h.symm, ih heq⟩
      · cases h

theorem cut_eq {c : UInt8} {p l : Str} (h : c ∉ p) : cut c (p ++ c :: l) = some (p, l) := by
  induction p with
  | nil => simp [cut]
  | cons x xs ih =>
    simp at h
    simp [cut, ih h.2, Ne.symm h.1]

theorem cut_eq_none {c : UInt8} {q : Str} (h : c ∉ q) : cut c q = none := by
  cases h' : cut c q with
  | none => rfl
  | some pl => obtain ⟨p, l⟩ := pl; have := (cut_some h').1; rw [this] at h; simp at h

theorem splitQName_spec (q : Str) : QNameParts q (splitQName q).1 (splitQName q).2 := by
  unfold splitQName
  split
  · rename_i p l h
    left; obtain ⟨h1, h2⟩ := cut_some h
    exact ⟨by rw [h1]; simp [colon], h2⟩
  · rename_i h
    right; exact ⟨cut_none h, rfl, rfl⟩

theorem splitQName_eq {q p l : Str} (h : QNameParts q p l) : splitQName q = (p, l) := by
  rcases h with ⟨rfl, h⟩ | ⟨h, rfl, rfl⟩
  · have : p ++ b!":" ++ l = p ++ colon :: l := by simp [colon]
    rw [this]; unfold splitQName; rw [cut_eq (c := colon) h]
  · unfold splitQName; rw [cut_eq_none (c := colon) h]

theorem resolveLoop_some {pre loc : Str} {ds : List XName} {n : XName}
    (h : resolveLoop pre loc ds = some n) :
    ∃ a b, ds = a ++ ⟨n.space, pre⟩ :: b ∧ (∀ d ∈ a, d.loc ≠ pre) ∧ n.loc = loc := by
  induction ds with
  | nil => simp [resolveLoop] at h
  | cons d ds ih =>
    rw [resolveLoop] at h
    split at h
    · rename_i hd
      simp at h; subst h
      refine ⟨[], ds, ?_, by simp, rfl⟩
      subst hd; rfl
    · rename_i hd
      obtain ⟨a, b, h1, h2, h3⟩ := ih h
      refine ⟨d :: a, b, by rw [h1]; rfl, ?_, h3⟩
      intro x hx
      rcases List.mem_cons.mp hx with rfl | hx
      · exact hd
      · exact h2 x hx

theorem resolveLoop_none {pre loc : Str} {ds : List XName} (h : resolveLoop pre loc ds = none) :
    ∀ d ∈ ds, d.loc ≠ pre := by
  induction ds with
  | nil => simp
  | cons d ds ih =>
    rw [resolveLoop] at h
    split at h
    · cases h
    · rename_i hd
      intro x hx
      rcases List.mem_cons.mp hx with rfl | hx
      · exact hd
      · exact ih h x hx

theorem innermost_unique {sc : Scope} {p a b : Str} (h1 : Innermost sc p a) (h2 : Innermost sc p b) : a = b := by
  obtain ⟨o1, i1, e1, n1⟩ := h1
  obtain ⟨o2, i2, e2, n2⟩ := h2
  subst e1
  rcases List.append_eq_append_iff.mp e2 with ⟨x, hx, hy⟩ | ⟨x, hx, hy⟩
  · cases x with
    | nil => simp at hy; exact hy.1
    | cons y ys =>
      simp at hy
      have := n1 ⟨b, p⟩ (by rw [hy.2]; simp)
      simp at this
  · cases x with
    | nil => simp at hy; exact hy.1.symm
    | cons y ys =>
      simp at hy
      have := n2 ⟨a, p⟩ (by rw [hy.2]; simp)
      simp at this

theorem innermost_exists {sc : Scope} {p : Str} (h : Declared sc p) : ∃ ns, Innermost sc p ns := by
  cases hr : resolveLoop p [] sc.reverse with
  | none =>
    obtain ⟨d, hd, hl⟩ := h
    exact absurd hl (resolveLoop_none hr d (by simp [hd]))
  | some n =>
    obtain ⟨a, b, h1, h2, _⟩ := resolveLoop_some hr
    refine ⟨n.space, b.reverse, a.reverse, ?_, by simpa using h2⟩
    have := congrArg List.reverse h1
    simpa using this

/-- `resolveLoop` in terms of the innermost declaration. -/
theorem resolveLoop_iff {pre loc : Str} {sc : Scope} :
    (∀ ns, Innermost sc pre ns → resolveLoop pre loc sc.reverse = some ⟨ns, loc⟩) ∧
    (¬ Declared sc pre → resolveLoop pre loc sc.reverse = none) := by
  constructor
  · intro ns hi
    cases hr : resolveLoop pre loc sc.reverse with
    | none =>
      obtain ⟨o, i, e, _⟩ := hi
      exact absurd rfl (resolveLoop_none hr ⟨ns, pre⟩ (by rw [e]; simp))
    | some n =>
      obtain ⟨a, b, h1, h2, h3⟩ := resolveLoop_some hr
      have : Innermost sc pre n.space := ⟨b.reverse, a.reverse, by
        have := congrArg List.reverse h1
        simpa using this, by simpa using h2⟩
      rw [innermost_unique hi this, ← h3]
  · intro hd
    cases hr : resolveLoop pre loc sc.reverse with
    | none => rfl
    | some n =>
      obtain ⟨a, b, h1, _, _⟩ := resolveLoop_some hr
      exfalso; apply hd
      refine ⟨⟨n.space, pre⟩, ?_, rfl⟩
      have := congrArg List.reverse h1
      simp at this
      rw [this]; simp

theorem innermost_declared {sc : Scope} {p ns : Str} (h : Innermost sc p ns) : Declared sc p := by
  obtain ⟨o, i, e, _⟩ := h
  exact ⟨⟨ns, p⟩, by rw [e]; simp, rfl⟩

/-! `Prefix` -/

theorem prefixLoop_default {space loc : Str} (hl : loc ≠ []) {ds : List XName} {q : Str}
    (h : ⟨space, []⟩ ∈ ds) : prefixLoop space loc ds q = loc := by
  induction ds generalizing q with
  | nil => simp at h
  | cons d ds ih =>
    -- once a default declaration was seen the result stays `loc`, unless another one sets it again
    have stay : ∀ (ds : List XName), prefixLoop space loc ds loc = loc := by
      intro ds
      induction ds with
      | nil => rfl
      | cons d ds ih =>
        rw [prefixLoop]
        have : loc.length ≠ 0 := by simpa using hl
        simp [this, ih]
    by_cases hd : d = ⟨space, []⟩
    · subst hd; simp [prefixLoop, stay]
    · have hin : (⟨space, []⟩ : XName) ∈ ds := by
        rcases List.mem_cons.mp h with h | h
        · exact absurd h.symm hd
        · exact h
      rw [prefixLoop]
      split
      · split
        · exact ih hin
        · split
          · exact ih hin
          · exact ih hin
      · exact ih hin

theorem prefixLoop_keep {space loc : Str} {ds : List XName} {q : Str} (hq : q ≠ [])
    (h : ⟨space, []⟩ ∉ ds) : prefixLoop space loc ds q = q := by
  induction ds with
  | nil => rfl
  | cons d ds ih =>
    simp only [List.mem_cons, not_or] at h
    rw [prefixLoop]
    have hq' : q.length ≠ 0 := by simpa using hq
    split
    · rename_i hs
      split
      · rename_i hl
        exact absurd (by cases d; simp_all) h.1
      · simp [hq', ih h.2]
    · exact ih h.2

theorem prefixLoop_first {space loc p : Str} {a b : List XName} (hp : p ≠ [])
    (ha : ∀ d ∈ a, d.space ≠ space) (hnd : ⟨space, []⟩ ∉ b) :
    prefixLoop space loc (a ++ ⟨space, p⟩ :: b) [] = p ++ b!":" ++ loc := by
  induction a with
  | nil =>
    simp only [List.nil_append, prefixLoop]
    simp only [if_true, hp, if_false, List.length_nil]
    exact prefixLoop_keep (by simp [hp]) hnd
  | cons d ds ih =>
    simp only [List.cons_append, prefixLoop]
    rw [if_neg (ha d (by simp))]
    exact ih (fun x hx => ha x (by simp [hx]))

theorem prefixLoop_none {space loc : Str} {ds : List XName} {q : Str} (h : ∀ d ∈ ds, d.space ≠ space) :
    prefixLoop space loc ds q = q := by
  induction ds with
  | nil => rfl
  | cons d ds ih =>
    rw [prefixLoop, if_neg (h d (by simp))]
    exact ih (fun x hx => h x (by simp [hx]))

end GoXml
