import Verif.Proofs.XsdNormal
import Verif.Spec.XsdAnon
set_option autoImplicit false

/-! Lemmas: what moving types leaves stands for what there was. -/

namespace GoXml.Xsd
open Wsdl

theorem SameBut.anon {free : Str → Prop} {x x' : Element} (h : SameBut free x x') (hf : ¬ free b!"name") : AnonType x' ↔ AnonType x := by
  rw [anonType_iff, anonType_iff, h.1, h.2.2 _ hf]

theorem referrer_name (loc : Str) : referrer loc ≠ b!"name" ∧ referrer loc ≠ b!"_isAnonymous" := by
  unfold referrer
  split
  · decide
  · split
    · decide
    · split <;> decide

theorem Stands.anon {tns : Str} {types : List Element} {free : Str → Prop} {x x' : Element} (h : Stands tns types free x x') (hf : ¬ free b!"name") :
    AnonType x' ↔ AnonType x := by
  cases h with
  | same h _ _ _ => exact h.anon hf
  | moved h _ _ _ _ _ _ _ _ => exact h.anon fun hh => hh.elim hf fun he => (referrer_name _).1 he.symm

/-- What a pass says about the types it moves. -/
structure Refers {σ : Type} (tns : Str) (P : Plan σ) (Q : Element → Prop) : Prop where
  move : ∀ {st x m}, Q x → HasAnon x → P.cand x = true → (P.move st x).2 = some m →
    m.attr = referrer x.name.loc ∧ ∃ nm q, resolve x.scope q = ⟨tns, nm⟩ ∧
      m.value = (if x.name.loc = b!"union" then attrNamed x b!"memberTypes" ++ b!" " else []) ++ q ∧
      (∀ a, attrGet [] b!"name" (m.rename a) = nm) ∧ ∀ a loc, loc ≠ b!"name" → loc ≠ b!"_isAnonymous" → attrGet [] loc (m.rename a) = attrGet [] loc a
  one : ∀ {x}, Q x → HasAnon x → (x.children.filter AnonType).length = 1

theorem Stands.rename {tns : Str} {types : List Element} {k k1 : Element} {f : List Attr → List Attr} (h : Stands tns types (fun _ => False) k k1)
    (hf : ∀ a loc, loc ≠ b!"name" → loc ≠ b!"_isAnonymous" → attrGet [] loc (f a) = attrGet [] loc a) :
    Stands tns types (fun loc => loc = b!"name" ∨ loc = b!"_isAnonymous") k (withAttrs f k1) := by
  have e : ∀ loc, ¬ (loc = b!"name" ∨ loc = b!"_isAnonymous") → attrNamed (withAttrs f k1) loc = attrNamed k1 loc := by
    intro loc hl
    cases k1
    rw [← Wsdl.attr_eq, ← Wsdl.attr_eq]
    exact hf _ loc (fun h => hl (.inl h)) fun h => hl (.inr h)
  have en : (withAttrs f k1).name = k1.name := by cases k1; rfl
  have es : (withAttrs f k1).scope = k1.scope := by cases k1; rfl
  have ec : (withAttrs f k1).content = k1.content := by cases k1; rfl
  have ek : (withAttrs f k1).children = k1.children := by cases k1; rfl
  cases h with
  | same h hc hl hk =>
    refine .same ⟨en.trans h.1, es.trans h.2.1, fun loc hl => (e loc hl).trans (h.2.2 loc (by simp))⟩ (ec.trans hc) (by rw [ek, hl]) ?_
    rw [ek]
    exact hk
  | moved h hi ha hd hr hs hn hl hk =>
    refine .moved (i := _) ⟨en.trans h.1, es.trans h.2.1, fun loc hl => ?_⟩ hi ha hd ?_ hs (by rw [ek]; exact hn) (by rw [ek, hl]) (by rw [ek]; exact hk)
    · exact (e loc fun hh => hl (.inl hh)).trans (h.2.2 loc fun hh => hl (.inr (hh.resolve_left id)))
    · obtain ⟨q, r1, r2⟩ := hr
      refine ⟨q, by rw [es]; exact r1, ?_⟩
      rw [← r2]
      exact e _ fun hh => hh.elim (referrer_name _).1 (referrer_name _).2

theorem getElem?_eraseIdx_pair {ks ks' : List Element} (i j : Nat) {y y' : Element}
    (h1 : (ks.eraseIdx i)[j]? = some y) (h2 : (ks'.eraseIdx i)[j]? = some y') : ∃ j' : Nat, ks[j']? = some y ∧ ks'[j']? = some y' := by
  rw [List.getElem?_eraseIdx] at h1 h2
  by_cases h : j < i
  · rw [if_pos h] at h1 h2; exact ⟨j, h1, h2⟩
  · rw [if_neg h] at h1 h2; exact ⟨j + 1, h1, h2⟩

theorem stands_hoist {σ : Type} {tns : Str} {P : Plan σ} {Q : Element → Prop} (R : Refers tns P Q) {types : List Element} (t : Element) :
    ∀ st, Every Q t → (∀ y ∈ (hoist P t st).2.1, y ∈ types) → Stands tns types (fun _ => False) t (hoist P t st).1 := by
  induction t using Element.ind with
  | hP n a s c ks ih =>
    intro st ht
    obtain ⟨hq, hks⟩ := every_iff.mp ht
    have hall : ∀ (js : List Element), (∀ k ∈ js, k ∈ ks) → ∀ st, (∀ y ∈ (hoistAll P js st).2.1, y ∈ types) →
        (hoistAll P js st).1.length = js.length ∧
        ∀ (i : Nat) k k', js[i]? = some k → (hoistAll P js st).1[i]? = some k' → Stands tns types (fun _ => False) k k' := by
      intro js
      induction js with
      | nil => intro _ st _; rw [hoistAll]; exact ⟨rfl, by simp⟩
      | cons j js ih2 =>
        intro hjs st hy
        rw [hoistAll] at hy ⊢
        have i1 := ih j (hjs j (by simp)) st (hks j (hjs j (by simp))) fun y h => hy y (List.mem_append_left _ h)
        obtain ⟨j1, j2⟩ := ih2 (fun k hk => hjs k (by simp [hk])) (hoist P j st).2.2 fun y h => hy y (List.mem_append_right _ h)
        refine ⟨by simp [j1], fun i k k' h1 h2 => ?_⟩
        cases i with
        | zero =>
          simp only [List.getElem?_cons_zero, Option.some.injEq] at h1 h2
          subst h1; subst h2; exact i1
        | succ i => exact j2 i k k' (by simpa using h1) (by simpa using h2)
    have hkeep : ∀ st, (∀ y ∈ (hoistAll P ks st).2.1, y ∈ types) → Stands tns types (fun _ => False) (.mk n a s c ks) (.mk n a s c (hoistAll P ks st).1) := by
      intro st hy
      obtain ⟨j1, j2⟩ := hall ks (fun _ h => h) st hy
      exact .same ⟨rfl, rfl, fun loc _ => rfl⟩ rfl j1 j2
    rw [hoist]
    cases hp : P.pick (.mk n a s c ks) with
    | none => exact hkeep st
    | some i =>
      dsimp only
      rcases hm : P.move st (.mk n a s c ks) with ⟨st', _ | m⟩
      · exact hkeep st'
      · dsimp only
        intro hy
        obtain ⟨j1, j2⟩ := hall ks (fun _ h => h) st' fun y h => hy y (List.mem_append_right _ h)
        obtain ⟨hc, hh⟩ := pick_anon (P := P) (t := .mk n a s c ks) (by rw [hp]; simp)
        obtain ⟨k, hk, ha⟩ := pick_at hp
        simp only [Element.children] at hk
        obtain ⟨m1, nm, q, m2, m3, m4, m5⟩ := R.move (st := st) hq hh hc (by rw [hm])
        have hone := R.one hq hh
        simp only [Element.children] at hone
        have hlt : i < ks.length := (List.getElem?_eq_some_iff.mp hk).1
        have hk1 : (hoistAll P ks st').1[i]? = some ((hoistAll P ks st').1[i]'(by omega)) := List.getElem?_eq_getElem _
        generalize (hoistAll P ks st').1[i]'(by omega) = k1 at hk1
        have hs := j2 i k k1 hk hk1
        have hd : withAttrs m.rename k1 ∈ types := hy _ (List.mem_append_left _ (by rw [hk1]; simp))
        have hnm : attrNamed (withAttrs m.rename k1) b!"name" = nm := by
          cases k1
          rw [← Wsdl.attr_eq]
          exact m4 _
        refine .moved (i := i) (k := k) (k' := withAttrs m.rename k1) ⟨rfl, rfl, fun loc hl => ?_⟩ hk ha hd ⟨q, ?_, ?_⟩ (hs.rename m5) ?_ ?_ ?_
        · rw [m1]
          exact attrNamed_other fun he => hl (.inr he)
        · rw [hnm]; exact m2
        · rw [m1, ← m3]
          exact attrNamed_setSame
        · intro y' hy' hay'
          obtain ⟨j, hj⟩ := List.getElem?_of_mem hy'
          have hjl : j < (ks.eraseIdx i).length := by
            have := (List.getElem?_eq_some_iff.mp hj).1
            simp only [Element.children] at this
            rw [List.length_eraseIdx] at this ⊢
            rw [j1] at this
            exact this
          have hj0 : (ks.eraseIdx i)[j]? = some ((ks.eraseIdx i)[j]'hjl) := List.getElem?_eq_getElem _
          generalize (ks.eraseIdx i)[j]'hjl = y at hj0
          obtain ⟨j', e1, e2⟩ := getElem?_eraseIdx_pair i j hj0 hj
          have hay := ((j2 j' y y' e1 e2).anon id).mp hay'
          have hmem : y ∈ (ks.eraseIdx i).filter AnonType := List.mem_filter.mpr ⟨List.mem_of_getElem? hj0, by simpa using hay⟩
          have := filter_eraseIdx hk ha
          rw [hone] at this
          have h0 : (ks.eraseIdx i).filter AnonType = [] := List.length_eq_zero_iff.mp (by omega)
          rw [h0] at hmem
          cases hmem
        · simp only [Element.children]
          rw [List.length_eraseIdx, List.length_eraseIdx, j1]
        · intro j y y' h1 h2
          obtain ⟨j', e1, e2⟩ := getElem?_eraseIdx_pair i j h1 h2
          exact j2 j' y y' e1 e2

theorem SameBut.mono {free free' : Str → Prop} {x x' : Element} (h : SameBut free x x') (hf : ∀ loc, free loc → free' loc) : SameBut free' x x' :=
  ⟨h.1, h.2.1, fun loc hl => h.2.2 loc fun hh => hl (hf loc hh)⟩

theorem SameBut.trans {free free' : Str → Prop} {x x' x'' : Element} (h : SameBut free x x') (h' : SameBut free' x' x'') :
    SameBut (fun loc => free loc ∨ free' loc) x x'' :=
  ⟨h'.1.trans h.1, h'.2.1.trans h.2.1, fun loc hl => (h'.2.2 loc fun hh => hl (.inr hh)).trans (h.2.2 loc fun hh => hl (.inl hh))⟩

theorem Stands.mono {tns : Str} {types : List Element} {free free' : Str → Prop} {x x' : Element} (h : Stands tns types free x x')
    (hf : ∀ loc, free loc → free' loc) : Stands tns types free' x x' := by
  cases h with
  | same h hc hl hk => exact .same (h.mono hf) hc hl hk
  | moved h hi ha hd hr hs hn hl hk => exact .moved (h.mono fun loc hh => hh.imp_left (hf loc)) hi ha hd hr hs hn hl hk

theorem Stands.attr {tns : Str} {types : List Element} {x x' : Element} (h : Stands tns types (fun _ => False) x x') : attrNamed x' b!"name" = attrNamed x b!"name" := by
  cases h with
  | same h _ _ _ => exact h.2.2 _ id
  | moved h _ _ _ _ _ _ _ _ => exact h.2.2 _ fun hh => hh.elim id fun he => (referrer_name _).1 he.symm

/-- The attributes that moving may change in the type that is moved. -/
def Minor (free : Str → Prop) : Prop := ∀ loc, free loc → loc = b!"name" ∨ loc = b!"_isAnonymous"

theorem Minor.referrer {free : Str → Prop} (h : Minor free) (loc : Str) : ¬ free (referrer loc) := fun hh => (h _ hh).elim (referrer_name _).1 (referrer_name _).2

theorem exists_same_index {ks ks' : List Element} (hl : ks'.length = ks.length) {i : Nat} {k' : Element} (h : ks'[i]? = some k') : ∃ k, ks[i]? = some k := by
  have := (List.getElem?_eq_some_iff.mp h).1
  exact ⟨_, List.getElem?_eq_getElem (by omega)⟩

/-- One pass after another. -/
theorem Stands.trans {tns : Str} {types types' : List Element} (hT : ∀ k1 ∈ types, ∃ k2 ∈ types', Stands tns types' (fun _ => False) k1 k2)
    {free : Str → Prop} {x x1 : Element} (h : Stands tns types free x x1) : ∀ {free' : Str → Prop} {x2 : Element}, Stands tns types' free' x1 x2 →
      Minor free → Minor free' → Stands tns types' (fun loc => free loc ∨ free' loc) x x2 := by
  have hF : Minor fun _ => False := fun _ h => h.elim
  have hA : Minor fun loc => loc = b!"name" ∨ loc = b!"_isAnonymous" := fun _ h => h
  induction h with
  | @same free x x1 h hc hl hk ih =>
    intro free' x2 h2 hm hm'
    cases h2 with
    | same g gc gl gk =>
      refine .same (h.trans g) (gc.trans hc) (gl.trans hl) fun i k k2 e1 e2 => ?_
      obtain ⟨k1, e3⟩ := exists_same_index gl e2
      exact (ih i k k1 e1 e3 (gk i k1 k2 e3 e2) hF hF).mono fun _ hh => hh.elim id id
    | @moved _ _ _ k1 k2 i g gi ga gd gr gs gn gl gk =>
      obtain ⟨k, e1⟩ := exists_same_index hl gi
      refine .moved (i := i) ((h.trans g).mono fun loc hh => ?_) e1 ((((hk i k k1 e1 gi).anon id)).mp ga) gd ?_
        ((ih i k k1 e1 gi gs hF hA).mono fun _ hh => hh.elim False.elim id) gn (by rw [gl, List.length_eraseIdx, List.length_eraseIdx, hl]) ?_
      · rw [h.1] at hh
        rcases hh with hh | hh | hh
        · exact .inl (.inl hh)
        · exact .inl (.inr hh)
        · exact .inr hh
      · obtain ⟨q, q1, q2⟩ := gr
        refine ⟨q, q1, ?_⟩
        rw [h.1] at q2
        rw [q2]
        by_cases hu : x.name.loc = b!"union"
        · rw [if_pos hu, if_pos hu, h.2.2 _ fun hh => (hm _ hh).elim (by decide) (by decide)]
        · rw [if_neg hu, if_neg hu]
      · intro j y y2 e3 e4
        obtain ⟨y1, e5⟩ := exists_same_index gl e4
        obtain ⟨j', f1, f2⟩ := getElem?_eraseIdx_pair i j e3 e5
        exact (ih j' y y1 f1 f2 (gk j y1 y2 e5 e4) hF hF).mono fun _ hh => hh.elim id id
  | @moved free x x1 k k1 i h hi ha hd hr hs hn hl hk ihs ih =>
    intro free' x2 h2 hm hm'
    cases h2 with
    | same g gc gl gk =>
      obtain ⟨k2, d1, d2⟩ := hT k1 hd
      refine .moved (i := i) ((h.trans g).mono fun loc hh => ?_) hi ha d1 ?_ ((ihs d2 hA hF).mono fun _ hh => hh.elim id False.elim) ?_ (gl.trans hl) ?_
      · rcases hh with (hh | hh) | hh
        · exact .inl (.inl hh)
        · exact .inr hh
        · exact .inl (.inr hh)
      · obtain ⟨q, q1, q2⟩ := hr
        refine ⟨q, by rw [g.2.1, q1, d2.attr], ?_⟩
        rw [g.2.2 _ (hm'.referrer _), q2]
      · intro y2 hy2 hay
        obtain ⟨j, hj⟩ := List.getElem?_of_mem hy2
        obtain ⟨y1, e5⟩ := exists_same_index gl hj
        exact hn y1 (List.mem_of_getElem? e5) (((gk j y1 y2 e5 hj).anon id).mp hay)
      · intro j y y2 e3 e4
        obtain ⟨y1, e5⟩ := exists_same_index gl e4
        exact (ih j y y1 e3 e5 (gk j y1 y2 e5 e4) hF hF).mono fun _ hh => hh.elim id id
    | moved g gi ga gd gr gs gn gl gk => exact absurd ga (hn _ (List.mem_of_getElem? gi))

/-! ### The two passes -/

/-- What is asked of an element. -/
def Told (tns : Str) (x : Element) : Prop := NeatAt tns x ∧ Clear x.scope tns

theorem one_of_neat {tns : Str} {x : Element} (h : Told tns x) (hh : HasAnon x) : (x.children.filter AnonType).length = 1 := (h.1.one hh).1

theorem byElement_refers (tns : Str) : Refers tns (byElement tns) (Told tns) where
  one := one_of_neat
  move := by
    intro st x m hx hh hc hm
    simp only [byElement, decide_eq_true_eq] at hc hm
    split at hm
    · cases hm
    · cases hm
      dsimp only
      have hpl := hx.1.plain hh
      rw [← Wsdl.attr_eq] at hpl
      have hnu : x.name.loc ≠ b!"union" := by rcases hc.1 with h | h <;> rw [h] <;> decide
      refine ⟨?_, x.attr [] b!"name", prefixOf x.scope ⟨tns, x.attr [] b!"name"⟩, ?_, ?_, fun a => attr_attrSet_same _ _ _ _, fun a loc hl _ => attr_attrSet_other _ _ _ _ _ _ hl⟩
      · rcases hc.1 with h | h <;> rw [h] <;> decide
      · exact C06_prefix_inverse_unique_partial x.scope tns _ hx.2.ns ⟨hc.2, hpl⟩ hx.2.pre hx.2.one hx.2.decl
      · rw [if_neg hnu, List.nil_append]
        unfold resolveDefault
        rw [if_neg (by rintro (h | h); exact hx.2.ns.1 h; exact hpl h)]

theorem numbered_refers (tns : Str) : Refers tns (numbered tns) (Told tns) where
  one := one_of_neat
  move := by
    intro st x m hx hh hc hm
    unfold numbered at hm
    dsimp only at hm
    split at hm
    · cases hm
      dsimp only
      refine ⟨rfl, b!"_anon" ++ natStr (st + 1), prefixOf x.scope ⟨tns, b!"_anon" ++ natStr (st + 1)⟩, ?_, by rw [← Wsdl.attr_eq], ?_, ?_⟩
      · refine C06_prefix_inverse_unique_partial x.scope tns _ hx.2.ns ⟨by simp, ?_⟩ hx.2.pre hx.2.one hx.2.decl
        rw [List.mem_append, not_or]
        refine ⟨by decide, fun h58 => ?_⟩
        have := natStr_digits (st + 1) 58 h58
        revert this
        unfold IsDigit
        decide
      · intro a
        rw [attr_attrSet_other _ _ _ _ _ _ (by decide), attr_attrSet_same]
      · intro a loc h1 h2
        rw [attr_attrSet_other _ _ _ _ _ _ h2, attr_attrSet_other _ _ _ _ _ _ h1]
    · cases hm

theorem stands_hoistAll {σ : Type} {tns : Str} {P : Plan σ} {Q : Element → Prop} (R : Refers tns P Q) {types : List Element} (js : List Element) : ∀ st,
    (∀ k ∈ js, Every Q k) → (∀ y ∈ (hoistAll P js st).2.1, y ∈ types) →
      ∀ (i : Nat) k, js[i]? = some k → ∃ k', (hoistAll P js st).1[i]? = some k' ∧ k'.name = k.name ∧ Stands tns types (fun _ => False) k k' := by
  induction js with
  | nil => intro st _ _ i k h; simp at h
  | cons j js ih =>
    intro st hjs hy i k hi
    rw [hoistAll] at hy ⊢
    cases i with
    | zero =>
      simp only [List.getElem?_cons_zero, Option.some.injEq] at hi
      subst hi
      exact ⟨_, rfl, (hoist_types (P := P) j st).1, stands_hoist R j st (hjs j (by simp)) fun y h => hy y (List.mem_append_left _ h)⟩
    | succ i =>
      exact ih _ (fun k hk => hjs k (by simp [hk])) (fun y h => hy y (List.mem_append_right _ h)) i k (by simpa using hi)

theorem mem_typesOf {t k : Element} : k ∈ typesOf t ↔ k ∈ t.children ∧ (IsXs b!"complexType" k ∨ IsXs b!"simpleType" k) := by
  unfold typesOf
  rw [List.mem_filter, decide_eq_true_eq]

theorem stands_root {σ : Type} {tns : Str} {P : Plan σ} {Q : Element → Prop} (R : Refers tns P Q) {t : Element} (st : σ) (hE : ∀ k ∈ t.children, Every Q k)
    (i : Nat) (k : Element) (hi : t.children[i]? = some k) :
    ∃ k', (hoistRoot P t st).1.children[i]? = some k' ∧ k'.name = k.name ∧ Stands tns (typesOf (hoistRoot P t st).1) (fun _ => False) k k' := by
  have key : ∀ y ∈ (hoistAll P t.children st).2.1, y ∈ typesOf (hoistRoot P t st).1 := by
    intro y hy
    refine mem_typesOf.mpr ⟨?_, (hoistAll_types t.children (fun k _ => hoist_types k) st).2 y hy⟩
    cases t
    rw [hoistRoot]
    exact List.mem_append_right _ hy
  obtain ⟨k', h1, h2⟩ := stands_hoistAll R (types := typesOf (hoistRoot P t st).1) t.children st hE key i k hi
  refine ⟨k', ?_, h2⟩
  cases t
  rw [hoistRoot]
  exact List.getElem?_append_left (List.getElem?_eq_some_iff.mp h1).1 ▸ h1

/-- Scopes are kept too. -/
theorem clear_kept {σ : Type} {tns : Str} {P : Plan σ} (N : Namer tns P) (t : Element) (st : σ) (h : Every (fun x => Kept tns x ∧ Clear x.scope tns) t) :
    Every (fun x => Kept tns x ∧ Clear x.scope tns) (hoist P t st).1 ∧ ∀ y ∈ (hoist P t st).2.1, Every (fun x => Kept tns x ∧ Clear x.scope tns) y := by
  obtain ⟨h1, _, h3⟩ := hoist_every (P := P) (Q := fun x => Kept tns x ∧ Clear x.scope tns)
    (fun n a s c ks ks' hq hl => ⟨keep_kept n a s c ks ks' hq.1 hl, hq.2⟩)
    (fun n a s c ks ks' st i m hq hl hp hm => by
      obtain ⟨m1, m2, m3⟩ := N.mv n a s c ks ks' st i m hq.1 hl hp hm
      refine ⟨m1, ⟨m2, hq.2⟩, fun k hk hqk => ⟨⟨(m3 k hk hqk.1).1, ?_⟩, (m3 k hk hqk.1).2⟩⟩
      cases k
      exact hqk.2) t st h
  exact ⟨h1, fun y hy => (h3 y hy).1⟩

theorem clear_all {σ : Type} {tns : Str} {P : Plan σ} (N : Namer tns P) (js : List Element) : ∀ st, (∀ k ∈ js, Every (fun x => Kept tns x ∧ Clear x.scope tns) k) →
    ∀ k ∈ (hoistAll P js st).1 ++ (hoistAll P js st).2.1, Every (fun x => Kept tns x ∧ Clear x.scope tns) k := by
  induction js with
  | nil => intro st _; rw [hoistAll]; simp
  | cons j js ih =>
    intro st hjs k hk
    obtain ⟨h1, h2⟩ := clear_kept N j st (hjs j (by simp))
    have h3 := ih (hoist P j st).2.2 fun k hk => hjs k (by simp [hk])
    rw [hoistAll] at hk
    simp only [List.cons_append, List.mem_cons, List.mem_append] at hk
    rcases hk with rfl | hk | hk | hk
    · exact h1
    · exact h3 k (List.mem_append_left _ hk)
    · exact h2 k hk
    · exact h3 k (List.mem_append_right _ hk)

/-- Both passes. -/
theorem stands_both {t : Element} (hr : Ready t) (hc : ∀ x ∈ below t, Clear x.scope (attrNamed t b!"targetNamespace")) (used : List XName) (n : Nat)
    (i : Nat) (k : Element) (hi : t.children[i]? = some k) :
    ∃ k', (hoistRoot (numbered (attrNamed t b!"targetNamespace")) (hoistRoot (byElement (attrNamed t b!"targetNamespace")) t used).1 n).1.children[i]? = some k' ∧
      Stands (attrNamed t b!"targetNamespace")
        (typesOf (hoistRoot (numbered (attrNamed t b!"targetNamespace")) (hoistRoot (byElement (attrNamed t b!"targetNamespace")) t used).1 n).1) (fun _ => False) k k' := by
  generalize htns : attrNamed t b!"targetNamespace" = tns at *
  have hE : ∀ k ∈ t.children, Every (fun x => Kept tns x ∧ Clear x.scope tns) k :=
    every_below.mp fun x hx => ⟨⟨by rw [← htns]; exact hr.neat.each x hx, hr.typed x hx⟩, hc x hx⟩
  have hE1 : ∀ k ∈ (hoistRoot (byElement tns) t used).1.children, Every (fun x => Kept tns x ∧ Clear x.scope tns) k := by
    have := clear_all (byElement_namer tns) t.children used hE
    cases t
    exact this
  have hw : ∀ k, Every (fun x => Kept tns x ∧ Clear x.scope tns) k → Every (Told tns) k := fun k h => h.imp fun x hx => ⟨hx.1.1, hx.2⟩
  obtain ⟨k1, a1, _, a3⟩ := stands_root (byElement_refers tns) used (fun k hk => hw k (hE k hk)) i k hi
  have second := stands_root (numbered_refers tns) (t := (hoistRoot (byElement tns) t used).1) n fun k hk => hw k (hE1 k hk)
  obtain ⟨k2, b1, _, b3⟩ := second i k1 a1
  refine ⟨k2, b1, (a3.trans ?_ b3 (fun _ h => h.elim) fun _ h => h.elim).mono fun _ h => h.elim id id⟩
  intro j hj
  obtain ⟨hj1, hj2⟩ := mem_typesOf.mp hj
  obtain ⟨p, hp⟩ := List.getElem?_of_mem hj1
  obtain ⟨j2, c1, c2, c3⟩ := second p j hp
  refine ⟨j2, mem_typesOf.mpr ⟨List.mem_of_getElem? c1, ?_⟩, c3⟩
  rw [isXs_name c2, isXs_name c2]
  exact hj2

/-! ### Names -/

theorem moved_named (tns : Str) (t : Element) : ∀ used, ∀ y ∈ (hoist (byElement tns) t used).2.1, ∃ p x, t.at? p = some x ∧ HasAnon x ∧
    attrNamed y b!"name" = attrNamed x b!"name" := by
  induction t using Element.ind with
  | hP n a s c ks ih =>
    intro used
    have hall : ∀ (js : List Element), (∀ k ∈ js, k ∈ ks) → ∀ used, ∀ y ∈ (hoistAll (byElement tns) js used).2.1, ∃ p x, (Element.mk n a s c ks).at? p = some x ∧ HasAnon x ∧
        attrNamed y b!"name" = attrNamed x b!"name" := by
      intro js
      induction js with
      | nil => intro _ used y hy; rw [hoistAll] at hy; cases hy
      | cons j js ih2 =>
        intro hjs used y hy
        rw [hoistAll] at hy
        rcases List.mem_append.mp hy with hy | hy
        · obtain ⟨p, x, h1, h2⟩ := ih j (hjs j (by simp)) used y hy
          obtain ⟨i, hi⟩ := List.getElem?_of_mem (hjs j (by simp))
          exact ⟨i :: p, x, by rw [Element.at?]; simp only [Element.children, hi]; exact h1, h2⟩
        · exact ih2 (fun k hk => hjs k (by simp [hk])) _ y hy
    rw [hoist]
    cases hp : (byElement tns).pick (.mk n a s c ks) with
    | none => exact hall ks (fun _ h => h) used
    | some i =>
      dsimp only
      rcases hm : (byElement tns).move used (.mk n a s c ks) with ⟨st', _ | m⟩
      · exact hall ks (fun _ h => h) st'
      · dsimp only
        intro y hy
        rcases List.mem_append.mp hy with hy | hy
        · obtain ⟨_, hh⟩ := pick_anon (P := byElement tns) (t := .mk n a s c ks) (by rw [hp]; simp)
          refine ⟨[], _, at_nil _, hh, ?_⟩
          cases hk : (hoistAll (byElement tns) ks st').1[i]? with
          | none => rw [hk] at hy; simp at hy
          | some k =>
            rw [hk] at hy
            simp only [Option.map_some, Option.toList_some, List.mem_singleton] at hy
            subst hy
            cases k
            simp only [byElement] at hm
            split at hm
            · cases hm
            · cases hm
              rw [← Wsdl.attr_eq, ← Wsdl.attr_eq]
              exact attr_attrSet_same _ _ _ _
        · exact hall ks (fun _ h => h) st' y hy

theorem moved_named_all (tns : Str) (t : Element) (js : List Element) : ∀ used, (∀ k ∈ js, k ∈ t.children) →
    ∀ y ∈ (hoistAll (byElement tns) js used).2.1, ∃ x ∈ below t, HasAnon x ∧ attrNamed y b!"name" = attrNamed x b!"name" := by
  induction js with
  | nil => intro used _ y hy; rw [hoistAll] at hy; cases hy
  | cons j js ih =>
    intro used hjs y hy
    rw [hoistAll] at hy
    rcases List.mem_append.mp hy with hy | hy
    · obtain ⟨p, x, h1, h2⟩ := moved_named tns j used y hy
      obtain ⟨i, hi⟩ := List.getElem?_of_mem (hjs j (by simp))
      exact ⟨x, (mem_below_iff t x).mpr ⟨i :: p, by simp, by rw [Element.at?, hi]; exact h1⟩, h2⟩
    · exact ih _ (fun k hk => hjs k (by simp [hk])) y hy

theorem types_kin {ks ks' : List Element} (h : List.Forall₂ Kin ks ks') :
    ((ks'.filter fun k => decide (IsXs b!"complexType" k ∨ IsXs b!"simpleType" k)).map (attrNamed · b!"name")) =
      (ks.filter fun k => decide (IsXs b!"complexType" k ∨ IsXs b!"simpleType" k)).map (attrNamed · b!"name") := by
  induction h with
  | nil => rfl
  | @cons k k' ks ks' h1 _ ih =>
    rw [List.filter_cons, List.filter_cons]
    by_cases hc : IsXs b!"complexType" k ∨ IsXs b!"simpleType" k
    · have hc' : IsXs b!"complexType" k' ∨ IsXs b!"simpleType" k' := by rw [isXs_name h1.1, isXs_name h1.1]; exact hc
      rw [if_pos (by simpa using hc'), if_pos (by simpa using hc), List.map_cons, List.map_cons, ih, h1.2]
    · have hc' : ¬ (IsXs b!"complexType" k' ∨ IsXs b!"simpleType" k') := by rw [isXs_name h1.1, isXs_name h1.1]; exact hc
      rw [if_neg (by simpa using hc'), if_neg (by simpa using hc), ih]

/-- The names of the types after a pass: those there were, and those of the types that were moved. -/
theorem types_names {σ : Type} {P : Plan σ} {t : Element} (htop : ∀ k ∈ t.children, ¬ HasAnon k) (st : σ) :
    (typesOf (hoistRoot P t st).1).map (attrNamed · b!"name") =
      (typesOf t).map (attrNamed · b!"name") ++ (hoistAll P t.children st).2.1.map (attrNamed · b!"name") := by
  cases t with
  | mk n a s c ks =>
    have hall : ∀ (js : List Element) st, (∀ k ∈ js, ¬ HasAnon k) → List.Forall₂ Kin js (hoistAll P js st).1 := by
      intro js
      induction js with
      | nil => intro st _; rw [hoistAll]; exact .nil
      | cons k js ih =>
        intro st hj
        rw [hoistAll]
        refine .cons ?_ (ih _ fun j hj' => hj j (by simp [hj']))
        have hp : P.pick k = none := by
          by_contra hc
          exact hj k (by simp) (pick_anon hc).2
        cases k
        rw [hoist, hp]
        exact ⟨rfl, rfl⟩
    have hmv := (hoistAll_types (P := P) ks (fun k _ => hoist_types k) st).2
    unfold typesOf
    rw [hoistRoot]
    simp only [Element.children]
    have he : (hoistAll P ks st).2.1.filter (fun k => decide (IsXs b!"complexType" k ∨ IsXs b!"simpleType" k)) = (hoistAll P ks st).2.1 :=
      List.filter_eq_self.mpr fun y hy => by simpa using hmv y hy
    rw [List.filter_append, List.map_append, types_kin (hall ks st htop), he]

theorem distinct_both {t : Element} (hr : Ready t) (hns : attrNamed t b!"targetNamespace" ≠ []) (hw : WellNamed t) (used : List XName)
    (hu : ∀ name, name ∈ used ↔ Taken t (attrNamed t b!"targetNamespace") name) (n : Nat) :
    ((typesOf (hoistRoot (numbered (attrNamed t b!"targetNamespace")) (hoistRoot (byElement (attrNamed t b!"targetNamespace")) t used).1 n).1).map
      (attrNamed · b!"name")).Nodup := by
  have hr1 : Ready (hoistRoot (byElement (attrNamed t b!"targetNamespace")) t used).1 := hoistRoot_ready (byElement_namer _) hr used
  rw [types_names hr1.neat.top, types_names hr.neat.top]
  generalize htns : attrNamed t b!"targetNamespace" = tns at *
  have hmoved := moved_named_all tns t t.children used fun _ h => h
  have hres : ∀ (sc : Scope) (q : Str), (58 : UInt8) ∉ q → resolveDefault sc q tns = ⟨tns, q⟩ := by
    intro sc q hq
    unfold resolveDefault
    rw [if_neg (by rintro (h | h); exact hns h; exact hq h)]
  have hplain : ∀ y ∈ (hoistAll (byElement tns) t.children used).2.1, (58 : UInt8) ∉ attrNamed y b!"name" := by
    intro y hy
    obtain ⟨x, h1, h2, h3⟩ := hmoved y hy
    rw [h3]
    exact (hr.neat.each x h1).plain h2
  obtain ⟨names, c1, c2, c3⟩ := C32_elements_distinct tns t.children used
  have hnames : names = (hoistAll (byElement tns) t.children used).2.1.map fun y => ⟨tns, attrNamed y b!"name"⟩ := by
    clear c2 c3 hmoved
    unfold NamedLike at c1
    generalize (hoistAll (byElement tns) t.children used).2.1 = L at c1 hplain
    induction c1 with
    | nil => rfl
    | @cons y nm L names h1 _ ih =>
      obtain ⟨sc, h1⟩ := h1
      rw [Wsdl.attr_eq, hres sc _ (hplain y (by simp))] at h1
      rw [List.map_cons, ← h1, ih fun y hy => hplain y (by simp [hy])]
  obtain ⟨m, _, e2⟩ := numbered_all_names tns (hoistRoot (byElement tns) t used).1.children n
  simp only [Wsdl.attr_eq] at e2
  rw [e2]
  refine List.nodup_append.mpr ⟨List.nodup_append.mpr ⟨hw.distinct, ?_, ?_⟩, ?_, ?_⟩
  · have : (names.map (·.loc)) = (hoistAll (byElement tns) t.children used).2.1.map (attrNamed · b!"name") := by rw [hnames, List.map_map]; rfl
    rw [← this]
    refine List.Nodup.map_on ?_ c2
    intro x hx y hy hxy
    rw [hnames] at hx hy
    obtain ⟨_, _, rfl⟩ := List.mem_map.mp hx
    obtain ⟨_, _, rfl⟩ := List.mem_map.mp hy
    dsimp only at hxy
    rw [hxy]
  · rintro x hx y hy rfl
    obtain ⟨k, k1, k2⟩ := List.mem_map.mp hx
    obtain ⟨j, j1, j2⟩ := List.mem_map.mp hy
    refine c3 ⟨tns, x⟩ (by rw [hnames, ← j2]; exact List.mem_map.mpr ⟨j, j1, rfl⟩) ((hu _).mpr ?_)
    obtain ⟨q1, q2⟩ := mem_typesOf.mp k1
    obtain ⟨i, hi⟩ := List.getElem?_of_mem q1
    refine ⟨i, [], k, by rw [Element.at?, hi]; exact at_nil k, ?_, ?_, ?_⟩
    · have hw : w3cSchemaNS = schemaNS := by decide
      unfold IsXs at q2
      rw [hw] at q2
      exact q2
    · rw [Wsdl.attr_eq]; exact (hw.plain k k1).1
    · rw [Wsdl.attr_eq, hres _ _ (hw.plain k k1).2, k2]
  · refine List.Nodup.map_on ?_ List.nodup_range'
    intro a _ b _ hab
    exact natStr_inj (List.append_cancel_left hab)
  · rintro x hx y hy rfl
    obtain ⟨j, _, rfl⟩ := List.mem_map.mp hy
    rcases List.mem_append.mp hx with hx | hx
    · obtain ⟨k, k1, k2⟩ := List.mem_map.mp hx
      obtain ⟨q1, _⟩ := mem_typesOf.mp k1
      obtain ⟨i, hi⟩ := List.getElem?_of_mem q1
      exact hw.others k ((mem_below_iff t k).mpr ⟨[i], by simp, by rw [Element.at?, hi]; exact at_nil k⟩) ⟨j, k2⟩
    · obtain ⟨k, k1, k2⟩ := List.mem_map.mp hx
      obtain ⟨z, h1, _, h3⟩ := hmoved k k1
      exact hw.others z h1 ⟨j, by rw [← h3, k2]⟩

end GoXml.Xsd
