import Verif.Spec.XsdContent
import Verif.Props.XsdParse
import Verif.Props.XsdNormalize
set_option autoImplicit false

/-! Lemmas about content models. -/

namespace GoXml.Xsd
open Wsdl

/-! ### Positions -/

theorem mem_below_iff (e x : Element) : x ∈ below e ↔ ∃ q, q ≠ [] ∧ e.at? q = some x := by
  have h1 : (e.searchFunc fun _ _ => true).map (·.2) = below e := by
    have := walkAt_belows (fun _ => true) [] 0 e.children
    cases e
    simpa [Element.searchFunc, below, Element.children] using this
  rw [← h1, List.mem_map]
  have h2 := (C12_searchFunc e fun _ _ => true).1
  constructor
  · rintro ⟨⟨q, y⟩, hm, rfl⟩
    obtain ⟨a, b, _⟩ := (h2 q y).mp hm
    exact ⟨q, a, b⟩
  · rintro ⟨q, a, b⟩
    exact ⟨(q, x), (h2 q x).mpr ⟨a, b, rfl⟩, rfl⟩

theorem mem_belows_iff {cs : List Element} {x : Element} : x ∈ belows cs ↔ ∃ c ∈ cs, x ∈ c :: below c := by
  induction cs with
  | nil => simp [belows]
  | cons c cs ih => simp [belows, ih, or_assoc]

theorem below_children (e : Element) : below e = belows e.children := by cases e; rfl

/-! ### Words -/

/-- The declared names in a list of elements. -/
def namesIn (xs : List Element) : List Str := (xs.filter fun x => decide (x.name = ⟨w3cSchemaNS, b!"element"⟩)).map (attrNamed · b!"name")

theorem namesIn_append (xs ys : List Element) : namesIn (xs ++ ys) = namesIn xs ++ namesIn ys := by simp [namesIn]

theorem namesIn_cons_mem {x : Element} {xs : List Element} {n : Str} (h : n ∈ namesIn xs) : n ∈ namesIn (x :: xs) := by
  have : namesIn (x :: xs) = namesIn [x] ++ namesIn xs := namesIn_append [x] xs
  rw [this]; exact List.mem_append_right _ h

theorem namesIn_belows_cons (c : Element) (cs : List Element) : namesIn (belows (c :: cs)) = namesIn (c :: below c) ++ namesIn (belows cs) := by
  rw [belows, ← List.cons_append, namesIn_append]

mutual
theorem allows_names (n : Str) : ∀ (e : Element) (w : List Str), Allows e w → n ∈ w → n ∈ namesIn (e :: below e)
  | .mk nm as sc ct cs, w, h, hn => by
    simp only [Allows] at h
    rcases h with ⟨h, k, _, rfl⟩ | ⟨h, ws, _, hv, rfl⟩ | ⟨h, ws, _, hv, rfl⟩ | ⟨h, ws, _, hv, rfl⟩ | ⟨_, rfl⟩
    · obtain rfl := List.eq_of_mem_replicate hn
      unfold namesIn
      rw [List.filter_cons_of_pos (by exact decide_eq_true h)]
      exact List.mem_cons_self
    · obtain ⟨v, hvm, hn⟩ := List.mem_flatten.mp hn
      exact namesIn_cons_mem (inTurn_names n cs v (hv v hvm) hn)
    · obtain ⟨v, hvm, hn⟩ := List.mem_flatten.mp hn
      obtain ⟨u, hu, hp⟩ := hv v hvm
      exact namesIn_cons_mem (inTurn_names n cs u hu (hp.symm.subset hn))
    · obtain ⟨v, hvm, hn⟩ := List.mem_flatten.mp hn
      exact namesIn_cons_mem (oneOf_names n cs v (hv v hvm) hn)
    · cases hn
theorem inTurn_names (n : Str) : ∀ (cs : List Element) (w : List Str), InTurn cs w → n ∈ w → n ∈ namesIn (belows cs)
  | [], w, h, hn => by simp only [InTurn] at h; subst h; cases hn
  | c :: cs, w, h, hn => by
    simp only [InTurn] at h
    obtain ⟨u, v, hu, hv, rfl⟩ := h
    rw [namesIn_belows_cons]
    rcases List.mem_append.mp hn with hn | hn
    · exact List.mem_append_left _ (allows_names n c u hu hn)
    · exact List.mem_append_right _ (inTurn_names n cs v hv hn)
theorem oneOf_names (n : Str) : ∀ (cs : List Element) (w : List Str), OneOf cs w → n ∈ w → n ∈ namesIn (belows cs)
  | [], w, h, hn => by simp only [OneOf] at h
  | c :: cs, w, h, hn => by
    simp only [OneOf] at h
    rw [namesIn_belows_cons]
    rcases h with ⟨_, h⟩ | h
    · exact List.mem_append_left _ (allows_names n c w h hn)
    · exact List.mem_append_right _ (oneOf_names n cs w h hn)
end

/-- Nothing is repeated: neither groups nor the declarations of `n`, of which there is at most one. -/
structure Single (n : Str) (xs : List Element) : Prop where
  group : ∀ g ∈ xs, IsGroup g → ∀ k, Occurs g k → k ≤ 1
  elem : ∀ d ∈ xs, IsXs b!"element" d → attrNamed d b!"name" = n → ∀ k, Occurs d k → k ≤ 1
  nodup : (namesIn xs).Nodup

theorem Single.sub {n : Str} {xs ys : List Element} (h : Single n xs) (hs : ys.Sublist xs) : Single n ys :=
  ⟨fun g hg => h.group g (hs.subset hg), fun d hd => h.elem d (hs.subset hd), h.nodup.sublist ((hs.filter _).map _)⟩

theorem count_flatten_one {n : Str} {ws : List (List Str)} (hl : ws.length ≤ 1) (h : ∀ v ∈ ws, v.count n ≤ 1) : ws.flatten.count n ≤ 1 := by
  rcases ws with _ | ⟨w, _ | ⟨w', ws⟩⟩
  · simp
  · simpa using h w (by simp)
  · simp at hl

mutual
theorem allows_single (n : Str) : ∀ (e : Element) (w : List Str), Allows e w → Single n (e :: below e) → w.count n ≤ 1
  | .mk nm as sc ct cs, w, h, hs => by
    simp only [Allows] at h
    rcases h with ⟨h, k, hk, rfl⟩ | ⟨h, ws, hl, hv, rfl⟩ | ⟨h, ws, hl, hv, rfl⟩ | ⟨h, ws, hl, hv, rfl⟩ | ⟨_, rfl⟩
    · rw [List.count_replicate]
      split
      · rename_i hn
        exact hs.elem _ List.mem_cons_self h (by simpa using hn) k hk
      · exact Nat.zero_le _
    · exact count_flatten_one (hs.group _ List.mem_cons_self (Or.inl h) _ hl)
        fun v hvm => inTurn_single n cs v (hv v hvm) (hs.sub (List.sublist_cons_self _ _))
    · refine count_flatten_one (hs.group _ List.mem_cons_self (Or.inr (Or.inl h)) _ hl) fun v hvm => ?_
      obtain ⟨u, hu, hp⟩ := hv v hvm
      rw [← hp.count_eq]
      exact inTurn_single n cs u hu (hs.sub (List.sublist_cons_self _ _))
    · exact count_flatten_one (hs.group _ List.mem_cons_self (Or.inr (Or.inr h)) _ hl)
        fun v hvm => oneOf_single n cs v (hv v hvm) (hs.sub (List.sublist_cons_self _ _))
    · simp
theorem inTurn_single (n : Str) : ∀ (cs : List Element) (w : List Str), InTurn cs w → Single n (belows cs) → w.count n ≤ 1
  | [], w, h, hs => by simp only [InTurn] at h; subst h; simp
  | c :: cs, w, h, hs => by
    simp only [InTurn] at h
    obtain ⟨u, v, hu, hv, rfl⟩ := h
    rw [List.count_append]
    have hsplit : belows (c :: cs) = (c :: below c) ++ belows cs := by simp [belows]
    rw [hsplit] at hs
    have h1 := allows_single n c u hu (hs.sub (List.sublist_append_left _ _))
    have h2 := inTurn_single n cs v hv (hs.sub (List.sublist_append_right _ _))
    have hd := hs.nodup
    rw [namesIn_append, List.nodup_append] at hd
    by_cases hn : n ∈ u
    · have : n ∉ v := fun hn' => hd.2.2 n (allows_names n c u hu hn) n (inTurn_names n cs v hv hn') rfl
      rw [List.count_eq_zero.mpr this]
      omega
    · rw [List.count_eq_zero.mpr hn]
      omega
theorem oneOf_single (n : Str) : ∀ (cs : List Element) (w : List Str), OneOf cs w → Single n (belows cs) → w.count n ≤ 1
  | [], w, h, hs => by simp only [OneOf] at h
  | c :: cs, w, h, hs => by
    simp only [OneOf] at h
    have hsplit : belows (c :: cs) = (c :: below c) ++ belows cs := by simp [belows]
    rw [hsplit] at hs
    rcases h with ⟨_, h⟩ | h
    · exact allows_single n c w h (hs.sub (List.sublist_append_left _ _))
    · exact oneOf_single n cs w h (hs.sub (List.sublist_append_right _ _))
end

/-! ### Required elements -/

theorem inTurn_part {cs : List Element} {w : List Str} (h : InTurn cs w) {i : Nat} {c : Element} (hc : cs[i]? = some c) :
    ∃ u, Allows c u ∧ ∀ n ∈ u, n ∈ w := by
  induction cs generalizing i w with
  | nil => simp at hc
  | cons a cs ih =>
    simp only [InTurn] at h
    obtain ⟨u, v, hu, hv, rfl⟩ := h
    cases i with
    | zero => simp at hc; subst hc; exact ⟨u, hu, fun n hn => List.mem_append_left _ hn⟩
    | succ i =>
      obtain ⟨x, hx, hs⟩ := ih hv (by simpa using hc)
      exact ⟨x, hx, fun n hn => List.mem_append_right _ (hs n hn)⟩

theorem exists_mem_of_length {α : Type} {l : List α} (h : 1 ≤ l.length) : ∃ x, x ∈ l := by
  cases l with
  | nil => simp at h
  | cons x _ => exact ⟨x, List.mem_cons_self⟩

/-- A declaration that must be met and is only inside sequences that must be met occurs in every word. -/
theorem allows_required (d : Element) (hd : IsXs b!"element" d) (hk : ∀ k, Occurs d k → 1 ≤ k) : ∀ (q : List Nat) (e : Element) (w : List Str),
    e.at? q = some d →
    (∀ a b x, q = a ++ b → b ≠ [] → e.at? a = some x → (IsXs b!"sequence" x ∨ IsXs b!"all" x) ∧ ∀ k, Occurs x k → 1 ≤ k) →
    Allows e w → attrNamed d b!"name" ∈ w := by
  intro q
  induction q with
  | nil =>
    intro e w he _ hw
    cases he
    obtain ⟨nm, as, sc, ct, cs⟩ := d
    simp only [Allows] at hw
    have ne : ∀ l : Str, l ≠ b!"element" → ¬ IsXs l (.mk nm as sc ct cs) := by
      intro l hl hx
      unfold IsXs at hd hx
      rw [hd] at hx
      exact hl (by simpa using congrArg XName.loc hx.symm)
    rcases hw with ⟨_, k, hocc, rfl⟩ | ⟨h, _⟩ | ⟨h, _⟩ | ⟨h, _⟩ | ⟨h, _⟩
    · exact List.mem_replicate.mpr ⟨by have := hk k hocc; omega, rfl⟩
    · exact absurd h (ne _ (by decide))
    · exact absurd h (ne _ (by decide))
    · exact absurd h (ne _ (by decide))
    · exact absurd (Or.inl hd) h
  | cons i q ih =>
    intro e w he hpre hw
    obtain ⟨hg, hocc⟩ := hpre [] (i :: q) e rfl (by simp) rfl
    obtain ⟨nm, as, sc, ct, cs⟩ := e
    simp only [Element.at?, Element.children] at he
    cases hc : cs[i]? with
    | none => rw [hc] at he; cases he
    | some c =>
      rw [hc] at he
      simp only at he
      have hrec : ∀ v, InTurn cs v → attrNamed d b!"name" ∈ v := by
        intro v hv
        obtain ⟨u, hu, hsub⟩ := inTurn_part hv hc
        refine hsub _ (ih c u he (fun a b x hab hb hx => hpre (i :: a) b x (by rw [hab]; rfl) hb ?_) hu)
        simp only [Element.at?, Element.children, hc]
        exact hx
      simp only [Allows] at hw
      have ne : ∀ l : Str, l ≠ b!"sequence" → l ≠ b!"all" → ¬ IsXs l (.mk nm as sc ct cs) := by
        intro l h1 h2 hx
        unfold IsXs at hg hx
        rcases hg with hg | hg
        · rw [hg] at hx
          exact h1 (by simpa using congrArg XName.loc hx.symm)
        · rw [hg] at hx
          exact h2 (by simpa using congrArg XName.loc hx.symm)
      rcases hw with ⟨h, _⟩ | ⟨_, ws, hl, hv, rfl⟩ | ⟨_, ws, hl, hv, rfl⟩ | ⟨h, _⟩ | ⟨h, _⟩
      · exact absurd h (ne _ (by decide) (by decide))
      · obtain ⟨v, hvm⟩ := exists_mem_of_length (hocc _ hl)
        exact List.mem_flatten.mpr ⟨v, hvm, hrec v (hv v hvm)⟩
      · obtain ⟨v, hvm⟩ := exists_mem_of_length (hocc _ hl)
        obtain ⟨u, hu, hp⟩ := hv v hvm
        exact List.mem_flatten.mpr ⟨v, hvm, hp.subset (hrec u hu)⟩
      · exact absurd h (ne _ (by decide) (by decide))
      · exact absurd (Or.inr (by rcases hg with hg | hg; exacts [Or.inl hg, Or.inr (Or.inl hg)])) h

/-! ### Numbers -/

theorem means_unique {s : Str} {a b : Int} (h : Means s a) (h' : Means s b) : a = b := by
  rw [← parseInt_iff] at h h'
  rw [h] at h'
  exact Option.some.inj h'

/-- A declaration that may be repeated is parsed as plural. -/
theorem plural_of_occurs {env : ParseEnv} {ns : Str} {d d' : Element} {e : XElem} {k : Nat} (h : parseElement env ns d' = some e)
    (hm : attrNamed d' b!"maxOccurs" = attrNamed d b!"maxOccurs") (hk : Occurs d k) (h2 : 2 ≤ k) : e.plural = true := by
  obtain ⟨hp, _⟩ := C36_flags env ns d' e h
  obtain ⟨lo, _, h1 | ⟨_, hi, hhi, hiff⟩⟩ := (C36_plural d' e.plural).mp hp
  · exact h1.2
  · rw [hm] at hhi
    refine hiff.mpr ?_
    rcases hk.2 with ⟨_, h⟩ | h | ⟨t, n, ht, hn, hkn⟩
    · omega
    · have := means_unique hhi ⟨_, h, Or.inr (Or.inl ⟨rfl, rfl⟩)⟩
      omega
    · have := means_unique hhi ⟨_, ht, Or.inr (Or.inr hn)⟩
      omega

/-- `minOccurs` is zero. -/
def MayLack (d : Element) : Prop := attrNamed d b!"minOccurs" ≠ [] ∧ Means (attrNamed d b!"minOccurs") 0

theorem mayLack_of_occurs {d : Element} (hk : Occurs d 0) : MayLack d := by
  rcases hk.1 with ⟨_, h0⟩ | ⟨t, n, ht, hn, hn0⟩
  · omega
  · have h0 : n = 0 := by omega
    subst h0
    refine ⟨?_, t, ht, Or.inr (Or.inr hn)⟩
    intro he
    rw [he] at ht
    obtain ⟨a, b, hab, _⟩ := ht
    obtain ⟨ds, hds, h1, _⟩ := hn
    have ht : t = [] := by
      have := congrArg List.length hab
      simp at this
      exact List.eq_nil_of_length_eq_zero (by omega)
    subst ht
    rcases h1 with ⟨h1 | h1, _⟩ | ⟨h1, _⟩
    · exact hds.1 h1.symm
    · simp at h1
    · simp at h1

theorem means_zero : Means b!"0" 0 := by rw [← parseInt_iff]; decide

theorem optional_of_mayLack {env : ParseEnv} {ns : Str} {d : Element} {e : XElem} (h : parseElement env ns d = some e)
    (hk : MayLack d) : e.optional = true := (C36_flags env ns d e h).2.1.mpr (Or.inl hk)

/-! ### What `setChoicesOptional` keeps -/

theorem attrNamed_set_other {a b : Element} {p : List Nat} {x y : Element} {loc v l : Str} (h : OneAttrSetAt loc v a b p) (hx : a.at? p = some x)
    (hy : b.at? p = some y) (hl : l ≠ loc) : attrNamed y l = attrNamed x l := by
  obtain ⟨x', y', hx', hy', h⟩ := h
  rw [hx] at hx'; cases hx'
  rw [hy] at hy'; cases hy'
  unfold attrNamed
  rcases h with ⟨before, t, after, h1, h2, _, h3⟩ | ⟨_, h3⟩
  · rw [h1, h3, List.find?_append, List.find?_append]
    have : ¬ t.name.loc = l := fun e => hl (e.symm.trans h2)
    simp [this]
  · rw [h3, List.find?_append]
    have : ¬ loc = l := fun e => hl e.symm
    simp [this]

theorem attrNamed_set {a b : Element} {p : List Nat} {y : Element} {loc v : Str} (h : OneAttrSetAt loc v a b p)
    (hy : b.at? p = some y) : attrNamed y loc = v := by
  obtain ⟨x', y', hx', hy', h⟩ := h
  rw [hy] at hy'; cases hy'
  unfold attrNamed
  rcases h with ⟨before, t, after, h1, h2, h4, h3⟩ | ⟨h1, h3⟩
  · have : before.find? (fun a => decide (a.name.loc = loc)) = none := by
      rw [List.find?_eq_none]
      intro z hz
      simpa using h4 z hz
    rw [h3, List.find?_append, this]
    simp [h2]
  · have : x'.attrs.find? (fun a => decide (a.name.loc = loc)) = none := by
      rw [List.find?_eq_none]
      intro z hz
      simpa using h1 z hz
    rw [h3, List.find?_append, this]
    simp

theorem filter_one_same {α β : Type} (f : α → β) (P : β → Bool) : ∀ (as bs : List α), as.map f = bs.map f →
    (as.filter (fun x => P (f x)) = [] → bs.filter (fun x => P (f x)) = []) ∧
    ∀ c, as.filter (fun x => P (f x)) = [c] → ∃ (i : Nat) (c' : α), as[i]? = some c ∧ bs[i]? = some c' ∧ bs.filter (fun x => P (f x)) = [c'] := by
  intro as
  induction as with
  | nil => intro bs h; cases bs with
    | nil => exact ⟨id, fun c h => by simp at h⟩
    | cons b bs => simp at h
  | cons a as ih =>
    intro bs h
    cases bs with
    | nil => simp at h
    | cons b bs =>
      simp only [List.map_cons, List.cons.injEq] at h
      obtain ⟨h1, h2⟩ := ih bs h.2
      by_cases hp : P (f a) = true
      · have hq : P (f b) = true := h.1 ▸ hp
        rw [List.filter_cons_of_pos (by exact hp), List.filter_cons_of_pos (by exact hq)]
        refine ⟨fun h => by simp at h, fun c hc => ?_⟩
        simp only [List.cons.injEq] at hc
        obtain ⟨rfl, hc⟩ := hc
        exact ⟨0, b, rfl, rfl, by rw [h1 hc]⟩
      · have hq : ¬ P (f b) = true := h.1 ▸ hp
        rw [List.filter_cons_of_neg (by exact hp), List.filter_cons_of_neg (by exact hq)]
        refine ⟨h1, fun c hc => ?_⟩
        obtain ⟨i, c', a1, a2, a3⟩ := h2 c hc
        exact ⟨i + 1, c', by simpa using a1, by simpa using a2, a3⟩

theorem SameShape.names {a b : Element} (h : SameShape a b) : a.children.map (·.name) = b.children.map (·.name) := by
  apply List.ext_getElem?
  intro i
  rw [List.getElem?_map, List.getElem?_map]
  have hi := h [i]
  have e : ∀ x : Element, x.at? [i] = x.children[i]? := by
    intro x
    simp only [Element.at?]
    split <;> simp_all
  rw [e, e] at hi
  rcases hi with ⟨h1, h2⟩ | ⟨x, y, h1, h2, h3, _⟩
  · rw [h1, h2]
  · rw [h1, h2]; simp [h3]

theorem SameShape.below {a b : Element} (h : SameShape a b) {p : List Nat} {x y : Element} (hx : a.at? p = some x) (hy : b.at? p = some y) :
    SameShape x y := by
  intro q
  have := h (p ++ q)
  rw [at?_append, at?_append, hx, hy] at this
  exact this

theorem SameShape.kid {a b c : Element} (h : SameShape a b) (hk : schemaKids a = [c]) :
    ∃ (i : Nat) (c' : Element), a.at? [i] = some c ∧ b.at? [i] = some c' ∧ schemaKids b = [c'] := by
  obtain ⟨i, c', h1, h2, h3⟩ := (filter_one_same Element.name (fun n : XName => decide (n.space = w3cSchemaNS ∧ n.loc ≠ b!"annotation")) _ _ h.names).2 c hk
  have e : ∀ x : Element, x.at? [i] = x.children[i]? := by
    intro x
    simp only [Element.at?]
    split <;> simp_all
  exact ⟨i, c', by rw [e]; exact h1, by rw [e]; exact h2, h3⟩

theorem SameShape.at_some {a b : Element} (h : SameShape a b) {p : List Nat} {y : Element} (hy : b.at? p = some y) :
    ∃ x, a.at? p = some x ∧ x.name = y.name := by
  rcases h p with ⟨_, h2⟩ | ⟨x, y', h1, h2, h3, _⟩
  · rw [hy] at h2; cases h2
  · rw [hy] at h2; cases h2
    exact ⟨x, h1, h3⟩

/-! ### The name of a parsed element -/

theorem parseElement_loc {env : ParseEnv} {ns : Str} {d : Element} {e : XElem} (h : parseElement env ns d = some e)
    (hc : 58 ∉ attrNamed d b!"name") : e.name.loc = attrNamed d b!"name" := by
  unfold parseElement at h
  rw [Wsdl.resolveDefault_eq] at h
  have hd : (Wsdl.defines ns d).loc = attrNamed d b!"name" := by
    unfold defines denoted
    simp only [hc]
    split
    · rfl
    · simp
  split at h
  · cases h
    simp only
    split
    · exact hd
    · exact hd
  · cases h

/-! ### Ancestors -/

theorem nodup_map_inj {α β : Type} {f : α → β} : ∀ {l : List α}, (l.map f).Nodup → ∀ a ∈ l, ∀ b ∈ l, f a = f b → a = b := by
  intro l
  induction l with
  | nil => intro _ a ha; cases ha
  | cons x l ih =>
    intro h a ha b hb e
    rw [List.map_cons, List.nodup_cons] at h
    rcases List.mem_cons.mp ha with e1 | ha' <;> rcases List.mem_cons.mp hb with e2 | hb'
    · rw [e1, e2]
    · exact absurd (List.mem_map.mpr ⟨b, hb', by rw [← e, e1]⟩) h.1
    · exact absurd (List.mem_map.mpr ⟨a, ha', by rw [e, e2]⟩) h.1
    · exact ih h.2 a ha' b hb' e

theorem at?_child {el x : Element} {a : List Nat} {i : Nat} (hx : el.at? a = some x) {b : List Nat} {v : Element} (hv : el.at? (a ++ i :: b) = some v) :
    ∃ y, el.at? (a ++ [i]) = some y ∧ y ∈ x.children := by
  have : a ++ i :: b = (a ++ [i]) ++ b := by simp
  rw [this, at?_append] at hv
  cases hy : el.at? (a ++ [i]) with
  | none => rw [hy] at hv; cases hv
  | some y =>
    refine ⟨y, rfl, ?_⟩
    rw [at?_snoc, hx] at hy
    exact List.mem_of_getElem? hy

/-- What leads to a declaration is made of particles. -/
theorem ancestors {el v : Element} (ho : Ordinary el) (hv : IsXs b!"element" v) : ∀ (b a : List Nat) (x : Element), a ≠ [] → el.at? (a ++ b) = some v →
    el.at? a = some x → IsParticle x ∧ (b ≠ [] → IsGroup x) := by
  intro b
  induction b with
  | nil =>
    intro a x _ h1 h2
    rw [List.append_nil, h2] at h1
    cases h1
    exact ⟨Or.inl hv, fun h => absurd rfl h⟩
  | cons i b ih =>
    intro a x ha h1 h2
    obtain ⟨y, hy, hm⟩ := at?_child h2 h1
    have h3 : el.at? ((a ++ [i]) ++ b) = some v := by simpa using h1
    have hp := (ih (a ++ [i]) y (by simp) h3 hy).1
    have hg := ho.grouped x ((mem_below_iff _ _).mpr ⟨a, ha, h2⟩) ⟨y, hm, hp⟩
    exact ⟨Or.inr hg, fun _ => hg⟩

theorem isXs_ne {l m : Str} {e : Element} (h : IsXs l e) (hlm : l ≠ m) : ¬ IsXs m e := by
  intro h'
  unfold IsXs at h h'
  rw [h] at h'
  exact hlm (by simpa using congrArg XName.loc h')

/-- A declaration below a choice is an alternative or a member of one. -/
theorem below_choice {root el v : Element} {r : List Nat} (hr : root.at? r = some el) (ho : Ordinary el) (hv : IsXs b!"element" v) :
    ∀ (n : Nat) (b a : List Nat) (x : Element), b.length ≤ n → a ≠ [] → el.at? (a ++ b) = some v → el.at? a = some x → IsXs b!"choice" x →
      InChoice root (r ++ (a ++ b)) := by
  have lift : ∀ q y, el.at? q = some y → root.at? (r ++ q) = some y := by
    intro q y h
    rw [at?_append, hr]
    exact h
  intro n
  induction n with
  | zero =>
    intro b a x hb ha h1 h2 hx
    have : b = [] := List.eq_nil_of_length_eq_zero (by omega)
    subst this
    rw [List.append_nil, h2] at h1
    cases h1
    exact absurd hx (isXs_ne hv (by decide))
  | succ n ih =>
    intro b a x hb ha h1 h2 hx
    rcases b with _ | ⟨i, b⟩
    · rw [List.append_nil, h2] at h1
      cases h1
      exact absurd hx (isXs_ne hv (by decide))
    obtain ⟨y, hy, hym⟩ := at?_child h2 h1
    have h3 : el.at? ((a ++ [i]) ++ b) = some v := by simpa using h1
    have hap : a ++ i :: b = (a ++ [i]) ++ b := by simp
    rcases b with _ | ⟨j, b⟩
    · rw [hap, List.append_nil] at h1 ⊢
      rw [← List.append_assoc]
      exact Or.inl ⟨r ++ a, i, x, v, by simp [ha], rfl, lift _ _ h2, hx, by rw [List.append_assoc]; exact lift _ _ h1, isXs_ne hv (by decide)⟩
    have hg := (ancestors ho hv _ _ y (by simp) h3 hy).2 (by simp)
    obtain ⟨hs1, hs2⟩ := ho.shallow x ((mem_below_iff _ _).mpr ⟨a, ha, h2⟩) hx y hym
    rcases hg with hg | hg | hg
    · obtain ⟨z, hz, hzm⟩ := at?_child hy h3
      have h4 : el.at? ((a ++ [i] ++ [j]) ++ b) = some v := by simpa using h1
      have hap2 : a ++ i :: j :: b = (a ++ [i] ++ [j]) ++ b := by simp
      rcases b with _ | ⟨k, b⟩
      · rw [List.append_nil] at h4
        have e : r ++ (a ++ [i, j]) = r ++ a ++ [i, j] := by simp
        rw [e]
        refine Or.inr ⟨r ++ a, i, j, x, y, v, by simp [ha], rfl, lift _ _ h2, hx, ?_, hg, ?_⟩
        · rw [List.append_assoc]; exact lift _ _ hy
        · rw [List.append_assoc]; exact lift _ _ (by simpa using h4)
      · have hzg := (ancestors ho hv _ _ z (by simp) h4 hz).2 (by simp)
        obtain ⟨n1, n2⟩ := hs2 hg z hzm
        have hzc : IsXs b!"choice" z := by
          rcases hzg with h | h | h
          · exact absurd h n1
          · exact absurd h n2
          · exact h
        rw [hap2]
        exact ih _ _ z (by simp at hb ⊢; omega) (by simp) h4 hz hzc
    · exact absurd hg hs1
    · rw [hap]
      exact ih _ _ y (by simp at hb ⊢; omega) (by simp) h3 hy hg

end GoXml.Xsd
