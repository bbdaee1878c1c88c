import Verif.Proofs.RoundTrip
set_option autoImplicit false

/-! Character data and comments are pieces in the sense of `OtherPiece`; consequences of `Re`. -/

namespace GoXml

open Lex

theorem textLoop_plain {t : Str} (ht : ∀ c ∈ t, c ≠ 60 ∧ c ≠ 62 ∧ c ≠ 38 ∧ c ≠ 13) :
    ∀ (n : Nat) (b0 b1 : UInt8) (rest : Str), t.length < n → b1 ≠ 13 →
      textLoop none n b0 b1 (t ++ 60 :: rest) = some (t, 60 :: rest) := by
  induction t with
  | nil =>
    intro n b0 b1 rest hn hb
    cases n with
    | zero => omega
    | succ n => simp [textLoop]
  | cons c cs ih =>
    intro n b0 b1 rest hn hb
    cases n with
    | zero => omega
    | succ n =>
      obtain ⟨h1, h2, h3, h4⟩ := ht c (by simp)
      have := ih (fun x hx => ht x (by simp [hx])) n b1 c rest (by simp at hn; omega) h4
      simp only [List.cons_append, textLoop]
      simp [h1, h2, h3, h4, hb, this]

/-- Character data without special characters. -/
theorem otherPiece_text {u : Unicode} {t : Str} (hne : t ≠ []) (hu : u.okText t = true)
    (ht : ∀ c ∈ t, c ≠ 60 ∧ c ≠ 62 ∧ c ≠ 38 ∧ c ≠ 13) : OtherPiece u t := by
  refine ⟨hne, ?_⟩
  intro stack ns rest
  cases t with
  | nil => exact absurd rfl hne
  | cons c cs =>
    have hc := (ht c (by simp)).1
    have htext : text u none ((c :: cs) ++ 60 :: rest) = some (c :: cs, 60 :: rest) := by
      unfold text
      rw [textLoop_plain ht _ 0 0 rest (by simp; omega) (by decide)]
      simp [hu]
    simp only [token, List.cons_append] at htext ⊢
    split
    · rename_i heq; cases heq
    · rename_i heq; simp at heq; exact absurd heq.1 hc
    · rename_i heq; simp at heq; exact absurd heq.1 hc
    · rename_i heq; simp at heq; exact absurd heq.1 hc
    · rename_i heq; simp at heq; exact absurd heq.1 hc
    · rename_i heq; simp at heq; exact absurd heq.1 hc
    · rename_i heq; simp at heq; exact absurd heq.1 hc
    · rw [htext]

theorem commentLoop_plain {t : Str} (ht : (45 : UInt8) ∉ t) (rest : Str) :
    ∀ b0 b1 : UInt8, b1 ≠ 45 → commentLoop b0 b1 (t ++ 45 :: 45 :: 62 :: rest) = some rest := by
  induction t with
  | nil => intro b0 b1 h; simp [commentLoop, h]
  | cons c cs ih =>
    intro b0 b1 h
    simp only [List.mem_cons, not_or] at ht
    simp only [List.cons_append, commentLoop]
    rw [if_neg (by simp [h])]
    exact ih ht.2 b1 c (Ne.symm ht.1)

/-- A comment without hyphens in it. -/
theorem otherPiece_comment {u : Unicode} {t : Str} (ht : (45 : UInt8) ∉ t) :
    OtherPiece u (b!"<!--" ++ t ++ b!"-->") := by
  refine ⟨by simp, ?_⟩
  intro stack ns rest
  have := commentLoop_plain ht (60 :: rest) 0 0 (by decide)
  simp [token, this]

/-! ### From `Re` to `SameTree` -/

theorem sameTreeL_of_index {R : Scope → Scope → Prop} (ks ks' : List Element) (hlen : ks.length = ks'.length)
    (h : ∀ (i : Nat) (k k' : Element), ks[i]? = some k → ks'[i]? = some k' → SameTree R k k') :
    SameTreeL R ks ks' := by
  induction ks generalizing ks' with
  | nil =>
    cases ks' with
    | nil => exact .nil
    | cons a b => simp at hlen
  | cons a b ih =>
    cases ks' with
    | nil => simp at hlen
    | cons c d =>
      refine .cons (h 0 a c rfl rfl) (ih d (by simpa using hlen) ?_)
      intro i k k' h1 h2
      exact h (i + 1) k k' (by simpa using h1) (by simpa using h2)

theorem sortedDeclsL_mem {ps : Scope} {ks : List Element} (h : SortedDeclsL ps ks) :
    ∀ (i : Nat) (k : Element), ks[i]? = some k → SortedDecls ps k := by
  induction ks with
  | nil => intro i k hk; simp at hk
  | cons a b ih =>
    cases h with
    | cons h1 h2 =>
      intro i k hk
      cases i with
      | zero => simp at hk; subst hk; exact h1
      | succ i => exact ih h2 i k (by simpa using hk)

/-- A list that is strictly sorted is left as it is. -/
theorem sort_strict (srt : Sorter nsLess) {own : Scope}
    (h : own.Pairwise (fun a b => strLt (a.space ++ a.loc) (b.space ++ b.loc) = true)) :
    srt.sort own = own := by
  have h2 : own.Pairwise (fun a b => strLt (b.space ++ b.loc) (a.space ++ a.loc) = false) :=
    h.imp (fun hab => strLt_asymm hab)
  refine sorted_perm_eq (key := fun x : XName => x.space ++ x.loc) (srt.perm own) (srt.sorted own) h2 ?_
  have hinj : ∀ a ∈ own, ∀ b ∈ own, a.space ++ a.loc = b.space ++ b.loc → a = b := by
    clear h2
    induction own with
    | nil => simp
    | cons x xs ih =>
      obtain ⟨h1, h2⟩ := List.pairwise_cons.mp h
      intro a ha b hb hk
      rcases List.mem_cons.mp ha with ea | ha' <;> rcases List.mem_cons.mp hb with eb | hb'
      · rw [ea, eb]
      · have := h1 b hb'; rw [← ea, hk, strLt_irrefl] at this; cases this
      · have := h1 a ha'; rw [← eb, hk, strLt_irrefl] at this; cases this
      · exact ih h2 a ha' b hb' hk
  intro a ha b hb
  exact hinj a ((srt.perm own).subset ha) b ((srt.perm own).subset hb)

theorem re_same {srt : Sorter nsLess} {acc ps : Scope} {el el' : Element} (h : Re srt acc ps el el')
    (hacc : acc = ps) (hs : SortedDecls ps el) : SameTree Eq el el' := by
  induction h with
  | @mk acc ps own name attrs c c' ks ks' h1 h2 h3 ih =>
    generalize he : Element.mk name attrs (ps ++ own) c ks = e at hs
    cases hs with
    | @mk _ own' _ _ _ _ p1 p2 =>
      simp only [Element.mk.injEq] at he
      obtain ⟨rfl, rfl, e3, rfl, rfl⟩ := he
      have e3 := List.append_cancel_left e3
      subst e3
      subst hacc
      rw [sort_strict srt p1] at ih ⊢
      refine .mk rfl h1 (sameTreeL_of_index _ _ h2 ?_)
      intro i k k' hk hk'
      exact ih i k k' hk hk' rfl (sortedDeclsL_mem p2 i k hk)

theorem nsLookup_append (p : Str) (a b : List XName) :
    nsLookup p (a ++ b) = (nsLookup p a).orElse (fun _ => nsLookup p b) := by
  induction a with
  | nil => simp [nsLookup]
  | cons x xs ih =>
    simp only [List.cons_append, nsLookup]
    split
    · rfl
    · exact ih

theorem nsLookup_some {p v : Str} {ds : List XName} (h : nsLookup p ds = some v) : ⟨v, p⟩ ∈ ds := by
  induction ds with
  | nil => simp [nsLookup] at h
  | cons d ds ih =>
    simp only [nsLookup] at h
    split at h
    · rename_i hd
      simp only [Option.some.injEq] at h
      subst h; subst hd; simp
    · exact List.mem_cons_of_mem _ (ih h)

theorem nsLookup_none {p : Str} {ds : List XName} (h : nsLookup p ds = none) : ∀ d ∈ ds, d.loc ≠ p := by
  induction ds with
  | nil => simp
  | cons d ds ih =>
    simp only [nsLookup] at h
    split at h
    · cases h
    · rename_i hd
      intro x hx
      rcases List.mem_cons.mp hx with rfl | hx
      · exact hd
      · exact ih h x hx

theorem nsLookup_perm {p : Str} {a b : List XName} (hp : a.Perm b)
    (hd : ∀ x ∈ a, ∀ y ∈ a, x.loc = y.loc → x = y) : nsLookup p a = nsLookup p b := by
  cases ha : nsLookup p a with
  | none =>
    cases hb : nsLookup p b with
    | none => rfl
    | some v => exact absurd rfl (nsLookup_none ha _ (hp.symm.subset (nsLookup_some hb)))
  | some v =>
    cases hb : nsLookup p b with
    | none => exact absurd rfl (nsLookup_none hb _ (hp.subset (nsLookup_some ha)))
    | some w =>
      have := hd _ (nsLookup_some ha) _ (hp.symm.subset (nsLookup_some hb)) rfl
      simp only [XName.mk.injEq, and_true] at this
      rw [this]

theorem resolveNS_congr {s s' : Scope} (h : ∀ p, nsLookup p s.reverse = nsLookup p s'.reverse) (q : Str) :
    resolveNS s q = resolveNS s' q := by
  unfold resolveNS
  simp only [resolveLoop_lookup, h]

/-- The scope after re-parsing looks up prefixes the same way. -/
theorem lookup_sorted (srt : Sorter nsLess) {acc ps own : Scope}
    (hacc : ∀ p, nsLookup p ps.reverse = nsLookup p acc.reverse)
    (hd : ∀ x ∈ own, ∀ y ∈ own, x.loc = y.loc → x = y) (p : Str) :
    nsLookup p (ps ++ own).reverse = nsLookup p (acc ++ srt.sort own).reverse := by
  simp only [List.reverse_append, nsLookup_append, hacc]
  rw [nsLookup_perm (p := p) (a := own.reverse) (b := (srt.sort own).reverse)]
  · exact (List.reverse_perm _).trans ((srt.perm own).symm.trans (List.reverse_perm _).symm)
  · simpa using hd

theorem distinctL_mem {ps : Scope} {ks : List Element} (h : DistinctPrefixesL ps ks) :
    ∀ (i : Nat) (k : Element), ks[i]? = some k → DistinctPrefixes ps k := by
  induction ks with
  | nil => intro i k hk; simp at hk
  | cons a b ih =>
    cases h with
    | cons h1 h2 =>
      intro i k hk
      cases i with
      | zero => simp at hk; subst hk; exact h1
      | succ i => exact ih h2 i k (by simpa using hk)

theorem re_resolves {srt : Sorter nsLess} {acc ps : Scope} {el el' : Element} (h : Re srt acc ps el el')
    (hacc : ∀ p, nsLookup p ps.reverse = nsLookup p acc.reverse) (hs : DistinctPrefixes ps el) :
    SameTree (fun s s' => ∀ q, resolveNS s q = resolveNS s' q) el el' := by
  induction h with
  | @mk acc ps own name attrs c c' ks ks' h1 h2 h3 ih =>
    generalize he : Element.mk name attrs (ps ++ own) c ks = e at hs
    cases hs with
    | @mk _ own' _ _ _ _ p1 p2 =>
      simp only [Element.mk.injEq] at he
      obtain ⟨rfl, rfl, e3, rfl, rfl⟩ := he
      have e3 := List.append_cancel_left e3
      subst e3
      have hl := lookup_sorted srt hacc p1
      refine .mk (resolveNS_congr hl) h1 (sameTreeL_of_index _ _ h2 ?_)
      intro i k k' hk hk'
      exact ih i k k' hk hk' hl (distinctL_mem p2 i k hk)

theorem re_perm {srt : Sorter nsLess} {acc ps : Scope} {el el' : Element} (h : Re srt acc ps el el')
    (hacc : ps.Perm acc) : SameTree List.Perm el el' := by
  induction h with
  | @mk acc ps own name attrs c c' ks ks' h1 h2 h3 ih =>
    have hl : (ps ++ own).Perm (acc ++ srt.sort own) := hacc.append (srt.perm own).symm
    refine .mk hl h1 (sameTreeL_of_index _ _ h2 ?_)
    intro i k k' hk hk'
    exact ih i k k' hk hk' hl

end GoXml
