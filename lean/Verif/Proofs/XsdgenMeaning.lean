import Verif.Spec.XsdgenMeaning
import Verif.Proofs.XsdgenName
set_option autoImplicit false

/-! What the passes of xsdgen keep of the types of a schema. -/

namespace GoXml.Xsdgen
open Xsd GoMap

variable {W : Nat → Prop}

/-! ### Stands -/

theorem Stands.self (H : THeap) (t : Ty) : Stands H t t := Or.inl (.self t)

theorem Stands.of_builtin {H : THeap} {b : Builtin} {a : Ty} (h : Stands H (.builtin b) a) : a = .builtin b := by
  rcases h with h | ⟨-, d, hd, -, hn⟩
  · exact builtin_ancestor h
  · exact absurd (builtin_ancestor hd) (hn b)

theorem Stands.trans {H : THeap} {x y z : Ty} (h1 : Stands H x y) (h2 : Stands H y z) : Stands H x z := by
  rcases h1 with h1 | ⟨rfl, d, hd⟩
  · rcases h2 with h2 | ⟨e, d, hd, hdead⟩
    · exact Or.inl (h1.trans h2)
    · exact Or.inr ⟨e, d, h1.trans hd, hdead⟩
  · exact Or.inr ⟨h2.of_builtin, d, hd⟩

theorem Stands.base {H : THeap} {x b z : Ty} (hb : baseOf H x = some b) (h : Stands H b z) : Stands H x z :=
  Stands.trans (Or.inl (.base hb (.self _))) h

theorem Stands.obj {H : THeap} {x : Ty} {k : Nat} (h : Stands H x (.obj k)) : Ancestor H x (.obj k) := by
  rcases h with h | ⟨h, -⟩
  · exact h
  · cases h

theorem Below.stands {H : THeap} {j : Nat} {t : Ty} (h : Below H j t) : Stands H (.obj j) t := by
  rcases h with ⟨b, hb, h⟩ | ⟨hb, rfl⟩
  · exact .base hb h
  · exact Or.inr ⟨rfl, _, .self _, hb, fun _ => (by intro h; cases h)⟩

theorem Below.trans {H : THeap} {j : Nat} {t u : Ty} (h : Below H j t) (h2 : Stands H t u) : Below H j u := by
  rcases h with ⟨b, hb, h⟩ | ⟨hb, rfl⟩
  · exact Or.inl ⟨b, hb, h.trans h2⟩
  · exact Or.inr ⟨hb, h2.of_builtin⟩

/-- The bases of the types of a later heap. -/
structure Bases (H G : THeap) : Prop where
  some_ : ∀ (j : Nat) t, baseOf G (.obj j) = some t → Below H j t
  none_ : ∀ (j : Nat), baseOf G (.obj j) = none → baseOf H (.obj j) = none

theorem Bases.anc {H G : THeap} (h : Bases H G) {x a : Ty} (ha : Ancestor G x a) : Stands H x a := by
  induction ha with
  | self t => exact .self _ _
  | @base t b a hb _ ih =>
    cases t with
    | builtin _ => cases hb
    | link _ => cases hb
    | obj j => exact (h.some_ j b hb).stands.trans ih

theorem Bases.dead {H G : THeap} (h : Bases H G) {d : Ty} (hd : DeadEnd G d) : DeadEnd H d := by
  refine ⟨?_, hd.2⟩
  cases d with
  | builtin b => rfl
  | link _ => rfl
  | obj j => exact h.none_ j hd.1

theorem Bases.stands {H G : THeap} (h : Bases H G) {x a : Ty} (ha : Stands G x a) : Stands H x a := by
  rcases ha with ha | ⟨rfl, d, hd, hdead⟩
  · exact h.anc ha
  · rcases h.anc hd with h' | ⟨rfl, -⟩
    · exact Or.inr ⟨rfl, d, h', h.dead hdead⟩
    · exact absurd rfl (hdead.2 _)

theorem Bases.below {H G : THeap} (h : Bases H G) {j : Nat} {t : Ty} (hb : Below G j t) : Below H j t := by
  rcases hb with ⟨b, hb, hs⟩ | ⟨hb, rfl⟩
  · exact (h.some_ j b hb).trans (h.stands hs)
  · exact Or.inr ⟨h.none_ j hb, rfl⟩

theorem Bases.refl (H : THeap) : Bases H H := ⟨fun _ t h => Or.inl ⟨t, h, .self _ _⟩, fun _ h => h⟩

theorem Bases.trans {H G K : THeap} (h1 : Bases H G) (h2 : Bases G K) : Bases H K :=
  ⟨fun j t h => h1.below (h2.some_ j t h), fun j h => h1.none_ j (h2.none_ j h)⟩

theorem Replaces.self (W : Nat → Prop) (H : THeap) (t : Ty) : Replaces W H t t := ⟨.self _ _, fun _ _ _ => rfl⟩

theorem Replaces.trans {H : THeap} {x y z : Ty} (h1 : Replaces W H x y) (h2 : Replaces W H y z) : Replaces W H x z :=
  ⟨h1.1.trans h2.1, fun k hk e => by rw [h2.2 k hk ((h1.2 k hk e).trans e), h1.2 k hk e]⟩

theorem LikeElem.trans {H G : THeap} (h : Bases H G) {a b c : XElem} (h1 : LikeElem W H a b) (h2 : LikeElem W G b c) : LikeElem W H a c := by
  obtain ⟨e1, s1⟩ := h1
  obtain ⟨e2, s2⟩ := h2
  refine ⟨?_, s1.trans ⟨h.stands s2.1, s2.2⟩⟩
  rw [← e1, ← e2]

theorem LikeAttr.trans {H G : THeap} (h : Bases H G) {a b c : XAttr} (h1 : LikeAttr W H a b) (h2 : LikeAttr W G b c) : LikeAttr W H a c := by
  obtain ⟨e1, s1⟩ := h1
  obtain ⟨e2, s2⟩ := h2
  refine ⟨?_, s1.trans ⟨h.stands s2.1, s2.2⟩⟩
  rw [← e1, ← e2]

/-! ### flatten1 -/

/-- Two lists agree item by item. -/
structure Pos {α : Type} (R : α → α → Prop) (xs ys : List α) : Prop where
  len : ys.length = xs.length
  at_ : ∀ (i : Nat) y, ys[i]? = some y → ∃ x, xs[i]? = some x ∧ R x y

theorem Pos.refl {α : Type} {R : α → α → Prop} (h : ∀ a, R a a) (xs : List α) : Pos R xs xs := ⟨rfl, fun _ y hy => ⟨y, hy, h y⟩⟩

theorem Pos.set {α : Type} {R : α → α → Prop} {xs ys : List α} (h : Pos R xs ys) {i : Nat} {x y : α} (hx : xs[i]? = some x) (hr : R x y) :
    Pos R xs (ys.set i y) := by
  refine ⟨by rw [List.length_set, h.len], ?_⟩
  intro k z hz
  by_cases e : i = k
  · subst e
    have hlt : i < ys.length := by rw [h.len]; exact (List.getElem?_eq_some_iff.mp hx).1
    rw [List.getElem?_set_self hlt] at hz
    cases hz
    exact ⟨x, hx, hr⟩
  · rw [List.getElem?_set_ne e] at hz
    exact h.at_ k z hz

theorem Pos.get {α : Type} {R : α → α → Prop} {xs ys : List α} (h : Pos R xs ys) {i : Nat} {x : α} (hx : xs[i]? = some x) :
    ∃ y, ys[i]? = some y ∧ R x y := by
  have hlt : i < ys.length := by rw [h.len]; exact (List.getElem?_eq_some_iff.mp hx).1
  obtain ⟨x', hx', hr⟩ := h.at_ i _ (List.getElem?_eq_getElem hlt)
  rw [hx] at hx'
  cases hx'
  exact ⟨_, List.getElem?_eq_getElem hlt, hr⟩

/-- What `flatten1` keeps of a type. -/
def FlatObj (W : Nat → Prop) (H : THeap) : TObj → TObj → Prop
  | .simple s, .simple s' => s'.name = s.name ∧ s'.list = s.list ∧ s'.union = s.union ∧ s'.restriction = s.restriction
  | .complex c, .complex c' => c'.name = c.name ∧ c'.mixed = c.mixed ∧
      Pos (LikeElem W H) c.elements c'.elements ∧ Pos (LikeAttr W H) c.attributes c'.attributes
  | _, _ => False

structure FlatHeap (W : Nat → Prop) (H G : THeap) : Prop where
  objs : Pos (FlatObj W H) H G
  bases : Bases H G

theorem LikeElem.refl (W : Nat → Prop) (H : THeap) (e : XElem) : LikeElem W H e e := ⟨rfl, .self _ _ _⟩
theorem LikeAttr.refl (W : Nat → Prop) (H : THeap) (a : XAttr) : LikeAttr W H a a := ⟨rfl, .self _ _ _⟩

theorem FlatObj.refl (W : Nat → Prop) (H : THeap) (o : TObj) : FlatObj W H o o := by
  cases o with
  | simple s => exact ⟨rfl, rfl, rfl, rfl⟩
  | complex c => exact ⟨rfl, rfl, .refl (LikeElem.refl W H) _, .refl (LikeAttr.refl W H) _⟩

theorem FlatHeap.refl (W : Nat → Prop) (H : THeap) : FlatHeap W H H := ⟨.refl (FlatObj.refl W H) _, .refl H⟩

/-- Replacing one object keeps this if the new object does. -/
theorem FlatHeap.set {H G : THeap} (h : FlatHeap W H G) {id : Nat} {o o' : TObj} (ho : H[id]? = some o) (hf : FlatObj W H o o')
    (hb : ∀ t, o'.base = some t → Below H id t) (hn : o'.base = none → baseOf H (.obj id) = none) : FlatHeap W H (G.set id o') := by
  have hlt : id < G.length := by rw [h.objs.len]; exact (List.getElem?_eq_some_iff.mp ho).1
  refine ⟨h.objs.set ho hf, ?_, ?_⟩
  · intro j t ht
    by_cases e : id = j
    · subst e
      simp only [baseOf, List.getElem?_set_self hlt] at ht
      exact hb t ht
    · simp only [baseOf, List.getElem?_set_ne e] at ht
      exact h.bases.some_ j t ht
  · intro j hj
    by_cases e : id = j
    · subst e
      simp only [baseOf, List.getElem?_set_self hlt] at hj
      exact hn hj
    · simp only [baseOf, List.getElem?_set_ne e] at hj
      exact h.bases.none_ j hj

theorem FlatHeap.setSimple {H G : THeap} (h : FlatHeap W H G) {id : Nat} {s s' : SimpleT} (hs : G[id]? = some (.simple s))
    (hn : s'.name = s.name) (hl : s'.list = s.list) (hu : s'.union = s.union) (hr : s'.restriction = s.restriction)
    (hb : ∀ t, s'.base = some t → Below H id t) (hn' : s'.base = none → baseOf H (.obj id) = none) : FlatHeap W H (G.set id (.simple s')) := by
  obtain ⟨o, ho, hf⟩ := h.objs.at_ id _ hs
  refine h.set ho ?_ hb hn'
  cases o with
  | complex c => cases hf
  | simple s0 =>
    obtain ⟨f1, f2, f3, f4⟩ := hf
    exact ⟨hn.trans f1, hl.trans f2, hu.trans f3, hr.trans f4⟩

theorem setSimpleBase_flat {H G : THeap} (h : FlatHeap W H G) {b : Option Ty} {v : Ty}
    (hb : ∀ j, v = .obj j → ∀ t, b = some t → Below H j t) (hn : ∀ j, v = .obj j → b = none → baseOf H (.obj j) = none) :
    FlatHeap W H (setSimpleBase b G v) := by
  cases v with
  | builtin _ => exact h
  | link _ => exact h
  | obj j =>
    simp only [setSimpleBase]
    split
    · rename_i s hs
      exact h.setSimple hs rfl rfl rfl rfl (hb j rfl) (hn j rfl)
    · exact h

theorem foldBase_flat {H : THeap} {b : Option Ty} : ∀ (vs : List Ty) (G : THeap), FlatHeap W H G →
    (∀ j, Ty.obj j ∈ vs → ∀ t, b = some t → Below H j t) → (∀ j, Ty.obj j ∈ vs → b = none → baseOf H (.obj j) = none) →
    FlatHeap W H (vs.foldl (setSimpleBase b) G) := by
  intro vs
  induction vs with
  | nil => exact fun G h _ _ => h
  | cons v vs ih =>
    intro G h hb hn
    exact ih _ (setSimpleBase_flat h (fun j e => hb j (by rw [e]; exact List.mem_cons_self ..)) (fun j e => hn j (by rw [e]; exact List.mem_cons_self ..)))
      (fun j hj => hb j (List.mem_cons_of_mem _ hj)) (fun j hj => hn j (List.mem_cons_of_mem _ hj))

theorem baseChain_stands {G : THeap} : ∀ (n : Nat) (o : Option Builtin) (t : Ty) (r : List Ty × Option Builtin),
    baseChain G n o (some t) = .ok r → ∃ x, r.2 = some x ∧ Stands G t (.builtin x) ∧ ∀ j, Ty.obj j ∈ r.1 → Below G j (.builtin x) := by
  intro n
  induction n with
  | zero => intro o t r h; cases h
  | succ n ih =>
    intro o t r h
    have step : (∀ b, t ≠ .builtin b) → (baseChain G n (some AnyType) (baseOf G t)).bind (fun r => .ok (t :: r.1, r.2)) = .ok r →
        ∃ x, r.2 = some x ∧ Stands G t (.builtin x) ∧ ∀ j, Ty.obj j ∈ r.1 → Below G j (.builtin x) := by
      intro hnb h
      obtain ⟨q, hq, h⟩ := bind_ok h
      cases h
      cases hb : baseOf G t with
      | none =>
        rw [hb] at hq
        cases n with
        | zero => cases hq
        | succ n =>
          cases hq
          refine ⟨AnyType, rfl, Or.inr ⟨rfl, t, .self _, hb, hnb⟩, ?_⟩
          intro j hj
          rw [List.mem_singleton] at hj
          exact Or.inr ⟨by rw [hj]; exact hb, rfl⟩
      | some u =>
        rw [hb] at hq
        obtain ⟨x, hx, hs, hj⟩ := ih _ _ _ hq
        refine ⟨x, hx, .base hb hs, ?_⟩
        intro j hm
        rcases List.mem_cons.mp hm with e | hm
        · exact Or.inl ⟨u, by rw [e]; exact hb, hs⟩
        · exact hj j hm
    cases t with
    | builtin b => cases h; exact ⟨b, rfl, .self _ _, fun j hj => (by cases hj)⟩
    | obj k => exact step (fun b h => by cases h) h
    | link k => exact step (fun b h => by cases h) h

theorem flattenSimple_flat {H G : THeap} (h : FlatHeap W H G) {n id : Nat} {s : SimpleT} {r : Flat} (hs : G[id]? = some (.simple s))
    (hr : flattenSimple n G id s = .ok r) : FlatHeap W H r.1 ∧ ∀ v, r.2.2 = some v → Stands H (.obj id) v := by
  unfold flattenSimple at hr
  obtain ⟨q, hq, hr⟩ := bind_ok hr
  dsimp only at hr
  have hbase : baseOf G (.obj id) = s.base := by simp only [baseOf, hs, TObj.base]
  have key : (∀ t, q.2.map Ty.builtin = some t → Below H id t) ∧ (q.2.map Ty.builtin = none → baseOf H (.obj id) = none) ∧
      (∀ j, Ty.obj j ∈ q.1.filter (isSimple G) → ∀ t, q.2.map Ty.builtin = some t → Below H j t) ∧
      (∀ j, Ty.obj j ∈ q.1.filter (isSimple G) → q.2.map Ty.builtin = none → baseOf H (.obj j) = none) := by
    cases hb : s.base with
    | none =>
      rw [hb] at hq
      cases n with
      | zero => cases hq
      | succ n =>
        cases hq
        exact ⟨fun t ht => (by cases ht), fun _ => h.bases.none_ id (by rw [hbase, hb]), fun j hj => (by cases hj), fun j hj => (by cases hj)⟩
    | some t =>
      rw [hb] at hq
      obtain ⟨x, hx, hst, hj⟩ := baseChain_stands _ _ _ _ hq
      rw [hx]
      refine ⟨?_, fun h => (by cases h), ?_, fun _ _ h => (by cases h)⟩
      · intro u hu
        cases hu
        exact h.bases.below (Or.inl ⟨t, by rw [hbase, hb], hst⟩)
      · intro j hjm u hu
        cases hu
        exact h.bases.below (hj j (List.mem_filter.mp hjm).1)
  obtain ⟨k1, k2, k3, k4⟩ := key
  have h1 := foldBase_flat _ _ h k3 k4
  have h2 : FlatHeap W H (setSimpleBase (q.2.map Ty.builtin) ((q.1.filter (isSimple G)).foldl (setSimpleBase (q.2.map Ty.builtin)) G) (.obj id)) :=
    setSimpleBase_flat h1 (fun j e => by cases e; exact k1) (fun j e => by cases e; exact k2)
  split at hr
  · cases hr
    exact ⟨h2, fun v hv => by cases hv; exact .self _ _⟩
  · split at hr
    · cases hr
      refine ⟨?_, fun v hv => by cases hv; exact .self _ _⟩
      obtain ⟨o, ho, hf⟩ := h.objs.at_ id _ hs
      refine h2.set ho ?_ k1 k2
      cases o with
      | complex c => cases hf
      | simple s0 => exact hf
    · cases hr
      exact ⟨h2, fun v hv => (k1 v hv).stands⟩

theorem Bases.special {H G : THeap} (h : Bases H G) {x t : Ty} (ha : Ancestor H x t) {b : Builtin} (ht : t = .builtin b) :
    ∀ a, Stands H x a → Ancestor G a (.builtin b) := by
  induction ha with
  | self x =>
    intro a hs
    subst ht
    rw [hs.of_builtin]
    exact .self _
  | @base x y t hb _ ih =>
    have up : ∀ a, Stands H x a → a = x ∨ Stands H y a := by
      intro a hs
      rcases hs with hs | ⟨rfl, d, hd, hdead⟩
      · cases hs with
        | self => exact Or.inl rfl
        | base hb' hs =>
          rw [hb] at hb'
          cases hb'
          exact Or.inr (Or.inl hs)
      · cases hd with
        | self => rw [hdead.1] at hb; cases hb
        | base hb' hd =>
          rw [hb] at hb'
          cases hb'
          exact Or.inr (Or.inr ⟨rfl, d, hd, hdead⟩)
    intro a hs
    rcases up a hs with rfl | hs
    · cases a with
      | builtin _ => cases hb
      | link _ => cases hb
      | obj j =>
        cases hg : baseOf G (.obj j) with
        | none => rw [h.none_ j hg] at hb; cases hb
        | some u =>
          rcases h.some_ j u hg with ⟨y', hy', hs'⟩ | ⟨hn, -⟩
          · rw [hb] at hy'
            cases hy'
            exact .base hg (ih ht u hs')
          · rw [hn] at hb; cases hb
    · exact ih ht a hs

theorem Bases.fromAny {H G : THeap} (h : Bases H G) (hk : ∀ (j : Nat) c, H[j]? = some (.complex c) → ∃ c', G[j]? = some (.complex c')) {id : Nat}
    (ha : FromAny H id) : ∀ a, Stands H (.obj id) a → a = .builtin AnyType ∨ ∃ j, a = .obj j ∧ FromAny G j := by
  have step : ∀ {id : Nat} {c : ComplexT} {b : Ty}, H[id]? = some (.complex c) → c.base = some b →
      (∀ a, Stands H b a → a = .builtin AnyType ∨ ∃ j, a = .obj j ∧ FromAny G j) →
      ∀ a, Stands H (.obj id) a → a = .builtin AnyType ∨ ∃ j, a = .obj j ∧ FromAny G j := by
    intro id c b hid hb ih a hs
    have hbase : baseOf H (.obj id) = some b := by simp only [baseOf, hid]; exact hb
    rcases hs with hs | ⟨rfl, -⟩
    · cases hs with
      | self =>
        right
        refine ⟨id, rfl, ?_⟩
        obtain ⟨c', hc'⟩ := hk id c hid
        have hg' : baseOf G (.obj id) = c'.base := by simp only [baseOf, hc']; rfl
        cases hg : c'.base with
        | none => rw [hg] at hg'; rw [h.none_ id hg'] at hbase; cases hbase
        | some u =>
          rw [hg] at hg'
          rcases h.some_ id u hg' with ⟨y', hy', hs'⟩ | ⟨hn, -⟩
          · rw [hbase] at hy'
            cases hy'
            rcases ih u hs' with rfl | ⟨j, rfl, hj⟩
            · exact .base hc' hg
            · exact .step hc' hg hj
          · rw [hn] at hbase; cases hbase
      | base hb' hs =>
        rw [hbase] at hb'
        cases hb'
        exact ih a (Or.inl hs)
    · exact Or.inl rfl
  induction ha with
  | base h1 h2 => exact step h1 h2 fun a hs => Or.inl hs.of_builtin
  | step h1 h2 _ ih => exact step h1 h2 ih

/-- A type stays worth a declaration. -/
theorem Worth.later {cfg : Config} {H G : THeap} (h : Bases H G) (hk : ∀ (j : Nat) c, H[j]? = some (.complex c) → ∃ c', G[j]? = some (.complex c')) {id : Nat}
    {o o' : TObj} (hs : (∃ s, o = .simple s) → ∃ s, o' = .simple s) (hc : HasContent cfg o → HasContent cfg o') (hw : Worth cfg H id o) : Worth cfg G id o' := by
  rcases hw with hw | ⟨h1, t, ⟨b, rfl, hb⟩, h2⟩ | hw
  · exact Or.inl (hc hw)
  · exact Or.inr (Or.inl ⟨hs h1, _, ⟨b, rfl, hb⟩, h.special h2 rfl _ (.self _ _)⟩)
  · rcases h.fromAny hk hw _ (.self _ _) with e | ⟨j, e, hj⟩
    · cases e
    · cases e
      exact Or.inr (Or.inr hj)

/-- The types to be kept are worth a declaration. -/
def Firm (cfg : Config) (W : Nat → Prop) (H : THeap) : Prop := ∀ k, W k → Deserving cfg H k

theorem LikeAttr.kept {cfg : Config} {H : THeap} {a a' : XAttr} (h : LikeAttr W H a a')
    (hk : ∀ p, cfg.filterAttributes = some p → ∀ t, p { a with type := t } = false) : ∀ p, cfg.filterAttributes = some p → ∀ t, p { a' with type := t } = false := by
  intro p hp t
  have : ({ a' with type := t } : XAttr) = { a with type := t } := by
    have := congrArg (fun x : XAttr => ({ x with type := t } : XAttr)) h.1
    exact this
  rw [this]
  exact hk p hp t

theorem Bases.anyBase {H G : THeap} (h : Bases H G) {id : Nat} {c c' : ComplexT} (hc : H[id]? = some (.complex c)) (hc' : G[id]? = some (.complex c'))
    (hb : c.base = some (.builtin AnyType)) : c'.base = some (.builtin AnyType) := by
  have hbase : baseOf H (.obj id) = some (.builtin AnyType) := by simp only [baseOf, hc]; exact hb
  have hg' : baseOf G (.obj id) = c'.base := by simp only [baseOf, hc']; rfl
  cases hg : c'.base with
  | none => rw [hg] at hg'; rw [h.none_ id hg'] at hbase; cases hbase
  | some u =>
    rw [hg] at hg'
    rcases h.some_ id u hg' with ⟨y', hy', hs'⟩ | ⟨hn, -⟩
    · rw [hbase] at hy'
      cases hy'
      rw [hs'.of_builtin]
    · rw [hn] at hbase; cases hbase

theorem FlatHeap.firm {cfg : Config} {H G : THeap} (h : FlatHeap W H G) (hf : Firm cfg W H) : Firm cfg W G := by
  intro k hk
  obtain ⟨o, ho, hw⟩ := hf k hk
  obtain ⟨o', ho', hfo⟩ := h.objs.get ho
  refine ⟨o', ho', hw.later h.bases ?_ ?_ ?_⟩
  · intro j c hj
    obtain ⟨x, hx, hfx⟩ := h.objs.get hj
    cases x with
    | simple s => cases hfx
    | complex c' => exact ⟨c', hx⟩
  · rintro ⟨s, rfl⟩
    cases o' with
    | complex c => cases hfo
    | simple s' => exact ⟨s', rfl⟩
  · intro hc
    cases o with
    | simple s =>
      cases o' with
      | complex _ => cases hfo
      | simple s' =>
        obtain ⟨-, h2, h3, h4⟩ := hfo
        simp only [HasContent] at hc ⊢
        rw [h2, h3, h4]
        exact hc
    | complex c =>
      cases o' with
      | simple _ => cases hfo
      | complex c' =>
        rcases hc with hc | ⟨a, ha, hk⟩
        · exact Or.inl (h.bases.anyBase ho ho' hc)
        · obtain ⟨i, hi⟩ := List.mem_iff_getElem?.mp ha
          obtain ⟨a', ha', hl⟩ := hfo.2.2.2.get hi
          exact Or.inr ⟨a', List.mem_of_getElem? ha', hl.kept hk⟩

/-- What calls of `flatten1` keep. -/
def Flats (cfg : Config) (W : Nat → Prop) (recur : THeap → Option Ty → Run Flat) : Prop := ∀ (H G : THeap) (t : Option Ty) (r : Flat), Firm cfg W H → FlatHeap W H G → recur G t = .ok r →
  FlatHeap W H r.1 ∧ ∀ v, r.2.2 = some v → ∃ u, t = some u ∧ Replaces W H u v

theorem fieldLoop_flat {recur : THeap → Option Ty → Run Flat} {cfg : Config} (hrec : Flats cfg W recur) {get : THeap → Nat → Option Ty} {set : THeap → Nat → Ty → THeap} {H : THeap}
    (hset : ∀ G G' i u t, FlatHeap W H G → get G i = some u → FlatHeap W H G' → Replaces W H u t → FlatHeap W H (set G' i t)) :
    ∀ (is : List Nat) (G : THeap) (r : THeap × List Ty), Firm cfg W H → FlatHeap W H G → fieldLoop recur get set is G = .ok r → FlatHeap W H r.1 := by
  intro is
  induction is with
  | nil => intro G r hfirm h hr; cases hr; exact h
  | cons i is ih =>
    intro G r hfirm h hr
    simp only [fieldLoop] at hr
    obtain ⟨q, hq, hr⟩ := bind_ok hr
    obtain ⟨h1, h2⟩ := hrec _ _ _ _ hfirm h hq
    split at hr
    · cases hr
    · rename_i t ht
      obtain ⟨p, hp, hr⟩ := bind_ok hr
      cases hr
      obtain ⟨u, hu, hs⟩ := h2 t ht
      exact ih _ p hfirm (hset _ _ _ _ _ h hu h1 hs) hp

theorem setElemType_flat {H G G' : THeap} {id i : Nat} {u t : Ty} (h : FlatHeap W H G) (hu : elemType G id i = some u) (h' : FlatHeap W H G')
    (hs : Replaces W H u t) : FlatHeap W H (setElemType G' id i t) := by
  simp only [elemType] at hu
  split at hu
  · rename_i c hc
    obtain ⟨e, he, rfl⟩ := Option.map_eq_some_iff.mp hu
    obtain ⟨o, ho, hf⟩ := h.objs.at_ id _ hc
    cases o with
    | simple s => cases hf
    | complex c0 =>
      obtain ⟨e0, he0, hl⟩ := hf.2.2.1.at_ i e he
      simp only [setElemType]
      split
      · rename_i c' hc'
        obtain ⟨o', ho', hf'⟩ := h'.objs.at_ id _ hc'
        rw [ho] at ho'
        cases ho'
        obtain ⟨f1, f2, f3, f4⟩ := hf'
        refine h'.set ho ⟨f1, f2, ?_, f4⟩ (fun t ht => h'.bases.some_ id t (by simp only [baseOf, hc']; exact ht))
          (fun hn => h'.bases.none_ id (by simp only [baseOf, hc']; exact hn))
        obtain ⟨e1, he1, hl1⟩ := f3.get he0
        have : c'.elements.modify i (fun e => { e with type := t }) = c'.elements.set i { e1 with type := t } := by
          rw [List.modify_eq_set_getElem?, he1]; rfl
        rw [this]
        refine f3.set he0 ⟨?_, hl.2.trans hs⟩
        have := hl1.1
        rw [← this]
      · exact h'
  · cases hu

theorem setAttrType_flat {H G G' : THeap} {id i : Nat} {u t : Ty} (h : FlatHeap W H G) (hu : attrType G id i = some u) (h' : FlatHeap W H G')
    (hs : Replaces W H u t) : FlatHeap W H (setAttrType G' id i t) := by
  simp only [attrType] at hu
  split at hu
  · rename_i c hc
    obtain ⟨e, he, rfl⟩ := Option.map_eq_some_iff.mp hu
    obtain ⟨o, ho, hf⟩ := h.objs.at_ id _ hc
    cases o with
    | simple s => cases hf
    | complex c0 =>
      obtain ⟨e0, he0, hl⟩ := hf.2.2.2.at_ i e he
      simp only [setAttrType]
      split
      · rename_i c' hc'
        obtain ⟨o', ho', hf'⟩ := h'.objs.at_ id _ hc'
        rw [ho] at ho'
        cases ho'
        obtain ⟨f1, f2, f3, f4⟩ := hf'
        refine h'.set ho ⟨f1, f2, f3, ?_⟩ (fun t ht => h'.bases.some_ id t (by simp only [baseOf, hc']; exact ht))
          (fun hn => h'.bases.none_ id (by simp only [baseOf, hc']; exact hn))
        obtain ⟨e1, he1, hl1⟩ := f4.get he0
        have : c'.attributes.modify i (fun e => { e with type := t }) = c'.attributes.set i { e1 with type := t } := by
          rw [List.modify_eq_set_getElem?, he1]; rfl
        rw [this]
        refine f4.set he0 ⟨?_, hl.2.trans hs⟩
        have := hl1.1
        rw [← this]
      · exact h'
  · cases hu

theorem flattenComplex_flat {recur : THeap → Option Ty → Run Flat} {cfg : Config} (hrec : Flats cfg W recur) {H G : THeap} (hfirm : Firm cfg W H) (h : FlatHeap W H G) {id : Nat} {c : ComplexT} {r : Flat}
    (hr : flattenComplex recur G id c = .ok r) : FlatHeap W H r.1 ∧ ∀ v, r.2.2 = some v → Stands H (.obj id) v := by
  unfold flattenComplex at hr
  obtain ⟨e, he, hr⟩ := bind_ok hr
  obtain ⟨a, ha, hr⟩ := bind_ok hr
  obtain ⟨b, hb, hr⟩ := bind_ok hr
  have h1 := fieldLoop_flat hrec (get := fun H i => elemType H id i) (set := fun H i t => setElemType H id i t) (fun _ _ _ _ _ h1 h2 h3 h4 => setElemType_flat h1 h2 h3 h4) _ _ _ hfirm h he
  have h2 := fieldLoop_flat hrec (get := fun H i => attrType H id i) (set := fun H i t => setAttrType H id i t) (fun _ _ _ _ _ h1 h2 h3 h4 => setAttrType_flat h1 h2 h3 h4) _ _ _ hfirm h1 ha
  obtain ⟨h3, h4⟩ := hrec _ _ _ _ hfirm h2 hb
  split at hr
  · cases hr
  · rename_i t ht
    cases hr
    refine ⟨?_, fun v hv => by cases hv; exact .self _ _⟩
    obtain ⟨u, hu, hs⟩ := h4 t ht
    show FlatHeap W H (setComplexBase b.1 id t)
    simp only [setComplexBase]
    split
    · rename_i c' hc'
      obtain ⟨o, ho, hf⟩ := h3.objs.at_ id _ hc'
      refine h3.set ho ?_ (fun v hv => by cases hv; exact (h2.bases.some_ id u hu).trans hs.1) (fun hn => by cases hn)
      cases o with
      | simple s => cases hf
      | complex c0 => exact hf
    · exact h3

theorem flatten1_flat (cfg : Config) (n : Nat) : ∀ d, Flats cfg W (flatten1 cfg n d) := by
  intro d
  induction d with
  | zero => intro H G t r _ h hr; cases hr; exact ⟨h, fun v hv => ⟨v, hv, .self _ _ _⟩⟩
  | succ d ih =>
    intro H G t r hfirm h hr
    cases t with
    | none => cases hr
    | some t =>
      cases t with
      | link x => cases hr
      | builtin b => cases hr; exact ⟨h, fun v hv => ⟨v, hv, .self _ _ _⟩⟩
      | obj id =>
        have wrap : (FlatHeap W H r.1 ∧ ∀ v, r.2.2 = some v → Stands H (.obj id) v) →
            FlatHeap W H r.1 ∧ ∀ v, r.2.2 = some v → ∃ u, some (Ty.obj id) = some u ∧ Replaces W H u v := by
          intro h'
          refine ⟨h'.1, fun v hv => ⟨_, rfl, h'.2 v hv, ?_⟩⟩
          intro k hk e
          cases e
          obtain ⟨o, ho, hw⟩ := h.firm hfirm id hk
          rw [flatten1_stays (.refl G) ho hw.stays hr] at hv
          exact (Option.some.inj hv).symm
        simp only [flatten1] at hr
        split at hr
        · cases hr
        · rename_i s hs
          exact wrap (flattenSimple_flat h hs hr)
        · rename_i c hc
          have hbase : ∀ t, c.base = some t → Below H id t := fun t ht => h.bases.some_ id t (by simp only [baseOf, hc]; exact ht)
          split at hr
          · rename_i b hb
            split at hr
            · cases hr
              exact wrap ⟨h, fun v hv => by cases hv; exact (hbase _ hb).stands⟩
            · exact wrap (flattenComplex_flat ih hfirm h hr)
          · rename_i bid hb
            split at hr
            · obtain ⟨h1, h2⟩ := ih _ _ _ _ hfirm h hr
              refine wrap ⟨h1, fun v hv => ?_⟩
              obtain ⟨u, hu, hs⟩ := h2 v hv
              cases hu
              exact ((hbase _ hb).trans hs.1).stands
            · exact wrap (flattenComplex_flat ih hfirm h hr)
          · exact wrap (flattenComplex_flat ih hfirm h hr)

theorem flattenLoop_flat {cfg : Config} {n : Nat} {H : THeap} : ∀ (ts : List Ty) (G : THeap) (r : THeap × List Ty), Firm cfg W H → FlatHeap W H G →
    flattenLoop cfg n G ts = .ok r → FlatHeap W H r.1 := by
  intro ts
  induction ts with
  | nil => intro G r _ h hr; cases hr; exact h
  | cons t ts ih =>
    intro G r hfirm h hr
    simp only [flattenLoop] at hr
    split at hr
    · exact ih _ _ hfirm h hr
    · obtain ⟨q, hq, hr⟩ := bind_ok hr
      obtain ⟨p, hp, hr⟩ := bind_ok hr
      cases hr
      exact ih _ p hfirm (flatten1_flat _ _ _ _ _ _ _ hfirm h hq).1 hp

/-! ### All passes -/

/-- What all passes keep of a type. -/
def KeepObj (W : Nat → Prop) (H : THeap) (id : Nat) : TObj → TObj → Prop
  | .simple s, .simple s' => s'.name = s.name ∧ s'.list = s.list ∧ s'.union = s.union ∧ s'.restriction = s.restriction
  | .complex c, .complex c' => c'.name = c.name ∧ c'.mixed = c.mixed ∧
      (∀ e ∈ c.elements, ∃ e' ∈ c'.elements, LikeElem W H e e') ∧ (∀ a ∈ c.attributes, ∃ a' ∈ c'.attributes, LikeAttr W H a a') ∧
      (∀ e' ∈ c'.elements, ∃ k ck, Ancestor H (.obj id) (.obj k) ∧ H[k]? = some (.complex ck) ∧ ∃ e ∈ ck.elements, LikeElem W H e e') ∧
      (∀ a' ∈ c'.attributes, ∃ k ck, Ancestor H (.obj id) (.obj k) ∧ H[k]? = some (.complex ck) ∧ ∃ a ∈ ck.attributes, LikeAttr W H a a')
  | _, _ => False

structure KeepHeap (W : Nat → Prop) (H G : THeap) : Prop where
  len : G.length = H.length
  objs : ∀ (id : Nat) o', G[id]? = some o' → ∃ o, H[id]? = some o ∧ KeepObj W H id o o'
  bases : Bases H G

theorem KeepHeap.refl (W : Nat → Prop) (H : THeap) : KeepHeap W H H := by
  refine ⟨rfl, fun id o' h => ⟨o', h, ?_⟩, .refl H⟩
  cases o' with
  | simple s => exact ⟨rfl, rfl, rfl, rfl⟩
  | complex c =>
    exact ⟨rfl, rfl, fun e he => ⟨e, he, .refl ..⟩, fun e he => ⟨e, he, .refl ..⟩, fun e he => ⟨id, c, .self _, h, e, he, .refl ..⟩,
      fun e he => ⟨id, c, .self _, h, e, he, .refl ..⟩⟩

theorem KeepHeap.names {H G : THeap} (h : KeepHeap W H G) (t : Ty) : xmlName G t = xmlName H t := by
  cases t with
  | builtin _ => rfl
  | link _ => rfl
  | obj k =>
    simp only [xmlName]
    cases hk : G[k]? with
    | none =>
      have : H[k]? = none := by rw [List.getElem?_eq_none_iff] at hk ⊢; rw [← h.len]; exact hk
      rw [this]
    | some o' =>
      obtain ⟨o, ho, hf⟩ := h.objs k o' hk
      rw [ho]
      cases o <;> cases o' <;> first | exact hf.elim | exact hf.1

theorem KeepHeap.flat {H G K : THeap} (h : KeepHeap W H G) (hf : FlatHeap W G K) : KeepHeap W H K := by
  refine ⟨by rw [hf.objs.len, h.len], ?_, h.bases.trans hf.bases⟩
  intro id o'' ho''
  obtain ⟨o', ho', f⟩ := hf.objs.at_ id o'' ho''
  obtain ⟨o, ho, k⟩ := h.objs id o' ho'
  refine ⟨o, ho, ?_⟩
  cases o with
  | simple s =>
    cases o' with
    | complex c => cases k
    | simple s' =>
      cases o'' with
      | complex c => cases f
      | simple s'' =>
        exact ⟨f.1.trans k.1, f.2.1.trans k.2.1, f.2.2.1.trans k.2.2.1, f.2.2.2.trans k.2.2.2⟩
  | complex c =>
    cases o' with
    | simple c => cases k
    | complex c' =>
      cases o'' with
      | simple c => cases f
      | complex c'' =>
        obtain ⟨k1, k2, k3, k4, k5, k6⟩ := k
        obtain ⟨f1, f2, f3, f4⟩ := f
        refine ⟨f1.trans k1, f2.trans k2, ?_, ?_, ?_, ?_⟩
        · intro e he
          obtain ⟨e', he', hl⟩ := k3 e he
          obtain ⟨i, hi⟩ := List.mem_iff_getElem?.mp he'
          obtain ⟨e'', he'', hl'⟩ := f3.get hi
          exact ⟨e'', List.mem_of_getElem? he'', hl.trans h.bases hl'⟩
        · intro e he
          obtain ⟨e', he', hl⟩ := k4 e he
          obtain ⟨i, hi⟩ := List.mem_iff_getElem?.mp he'
          obtain ⟨e'', he'', hl'⟩ := f4.get hi
          exact ⟨e'', List.mem_of_getElem? he'', hl.trans h.bases hl'⟩
        · intro e'' he''
          obtain ⟨i, hi⟩ := List.mem_iff_getElem?.mp he''
          obtain ⟨e', he', hl'⟩ := f3.at_ i _ hi
          obtain ⟨k, ck, ha, hk, e, he, hl⟩ := k5 e' (List.mem_of_getElem? he')
          exact ⟨k, ck, ha, hk, e, he, hl.trans h.bases hl'⟩
        · intro e'' he''
          obtain ⟨i, hi⟩ := List.mem_iff_getElem?.mp he''
          obtain ⟨e', he', hl'⟩ := f4.at_ i _ hi
          obtain ⟨k, ck, ha, hk, e, he, hl⟩ := k6 e' (List.mem_of_getElem? he')
          exact ⟨k, ck, ha, hk, e, he, hl.trans h.bases hl'⟩

theorem KeepHeap.ext {H G K : THeap} (he : Ext G K) (h : KeepHeap W H G) : KeepHeap W H K := by
  refine ⟨by rw [he.length, h.len], ?_, h.bases.trans ⟨fun j t ht => Or.inl ⟨t, by rw [← he.base]; exact ht, .self _ _⟩, fun j hj => by rw [← he.base]; exact hj⟩⟩
  intro id o' ho'
  rcases he.get id with ⟨h1, h2⟩ | ⟨s, h1, h2⟩ | ⟨c, c', h1, h2, h3, h4, h5, h6, h7, h8, h9⟩
  · rw [h2] at ho'; cases ho'
  · rw [h2] at ho'; cases ho'; exact h.objs id _ h1
  · rw [h2] at ho'
    cases ho'
    obtain ⟨o, ho, k⟩ := h.objs id _ h1
    refine ⟨o, ho, ?_⟩
    cases o with
    | simple s => cases k
    | complex c0 =>
      obtain ⟨k1, k2, k3, k4, k5, k6⟩ := k
      have up : ∀ bid, c.base = some (.obj bid) → Ancestor H (.obj id) (.obj bid) := fun bid hb =>
        (h.bases.some_ id _ (by simp only [baseOf, h1]; exact hb)).stands.obj
      refine ⟨h3.trans k1, h4.trans k2, ?_, ?_, ?_, ?_⟩
      · intro e he
        obtain ⟨e', he', hl⟩ := k3 e he
        exact ⟨e', h8 e' he', hl⟩
      · intro e he
        obtain ⟨e', he', hl⟩ := k4 e he
        exact ⟨e', h9 e' he', hl⟩
      · intro e he
        rcases h6 e he with h' | ⟨bid, b, hb, hbb, h'⟩
        · exact k5 e h'
        · obtain ⟨o2, ho2, q⟩ := h.objs bid _ hbb
          cases o2 with
          | simple s => cases q
          | complex b0 =>
            obtain ⟨k, ck, ha, hk⟩ := q.2.2.2.2.1 e h'
            exact ⟨k, ck, (up bid hb).trans ha, hk⟩
      · intro e he
        rcases h7 e he with h' | ⟨bid, b, hb, hbb, h'⟩
        · exact k6 e h'
        · obtain ⟨o2, ho2, q⟩ := h.objs bid _ hbb
          cases o2 with
          | simple s => cases q
          | complex b0 =>
            obtain ⟨k, ck, ha, hk⟩ := q.2.2.2.2.2 e h'
            exact ⟨k, ck, (up bid hb).trans ha, hk⟩

theorem KeepHeap.firm {cfg : Config} {H G : THeap} (h : KeepHeap W H G) (hf : Firm cfg W H) : Firm cfg W G := by
  have get : ∀ (j : Nat) o, H[j]? = some o → ∃ o', G[j]? = some o' ∧ KeepObj W H j o o' := by
    intro j o ho
    have hlt : j < G.length := by rw [h.len]; exact (List.getElem?_eq_some_iff.mp ho).1
    obtain ⟨o1, ho1, hk⟩ := h.objs j _ (List.getElem?_eq_getElem hlt)
    rw [ho] at ho1
    cases ho1
    exact ⟨_, List.getElem?_eq_getElem hlt, hk⟩
  intro k hk
  obtain ⟨o, ho, hw⟩ := hf k hk
  obtain ⟨o', ho', hfo⟩ := get k o ho
  refine ⟨o', ho', hw.later h.bases ?_ ?_ ?_⟩
  · intro j c hj
    obtain ⟨x, hx, hfx⟩ := get j _ hj
    cases x with
    | simple s => cases hfx
    | complex c' => exact ⟨c', hx⟩
  · rintro ⟨s, rfl⟩
    cases o' with
    | complex c => cases hfo
    | simple s' => exact ⟨s', rfl⟩
  · intro hc
    cases o with
    | simple s =>
      cases o' with
      | complex _ => cases hfo
      | simple s' =>
        obtain ⟨-, h2, h3, h4⟩ := hfo
        simp only [HasContent] at hc ⊢
        rw [h2, h3, h4]
        exact hc
    | complex c =>
      cases o' with
      | simple _ => cases hfo
      | complex c' =>
        rcases hc with hc | ⟨a, ha, hk⟩
        · exact Or.inl (h.bases.anyBase ho ho' hc)
        · obtain ⟨a', ha', hl⟩ := hfo.2.2.2.1 a ha
          exact Or.inr ⟨a', ha', hl.kept hk⟩

/-- Every spec comes from one call of `genTypeSpec`, on a heap that keeps the types. -/
def Traced (W : Nat → Prop) (env : Env) (cfg : Config) (n : Nat) (H : THeap) (s : Spec) : Prop :=
  ∃ G id r, KeepHeap W H G ∧ genTypeSpec env cfg n G (.obj id) = .ok r ∧ s ∈ r.2

theorem genList_traced {env : Env} {cfg : Config} {n : Nat} {H : THeap} : ∀ (ts : List Ty) (G : THeap) (r : THeap × List Spec × Bool), KeepHeap W H G →
    genList env cfg n G ts = .ok r → KeepHeap W H r.1 ∧ ∀ s ∈ r.2.1, Traced W env cfg n H s := by
  intro ts
  induction ts with
  | nil => intro G r h hr; cases hr; exact ⟨h, fun s hs => by cases hs⟩
  | cons t ts ih =>
    intro G r h hr
    simp only [genList] at hr
    split at hr
    · rename_i q hq
      obtain ⟨p, hp, hr⟩ := bind_ok hr
      cases hr
      obtain ⟨k1, k2⟩ := ih _ _ (h.ext (genTypeSpec_named hq).1) hp
      refine ⟨k1, ?_⟩
      intro s hs
      rcases List.mem_append.mp hs with hs | hs
      · obtain ⟨-, -, id, o, rfl, -⟩ := genTypeSpec_type hq s hs
        exact ⟨G, id, q, h, hq, hs⟩
      · exact k2 s hs
    · obtain ⟨p, hp, hr⟩ := bind_ok hr
      cases hr
      exact ih _ p h hp
    · cases hr
    · cases hr

theorem genSchemas_traced {env : Env} {cfg : Config} {n : Nat} {H : THeap} : ∀ (schemas : List (List Ty)) (G : THeap) (r : THeap × List Spec × Bool),
    Firm cfg W H → KeepHeap W H G → genSchemas env cfg n G schemas = .ok r → ∀ s ∈ r.2.1, Traced W env cfg n H s := by
  intro schemas
  induction schemas with
  | nil => intro G r _ _ hr; cases hr; exact fun s hs => (by cases hs)
  | cons types rest ih =>
    intro G r hfirm h hr
    obtain ⟨f, hf, hr⟩ := bind_ok hr
    obtain ⟨L, hL, hf⟩ := bind_ok hf
    cases hf
    obtain ⟨H2, hH2, hr⟩ := bind_ok hr
    obtain ⟨g, hg, hr⟩ := bind_ok hr
    obtain ⟨q, hq, hr⟩ := bind_ok hr
    cases hr
    have k1 : KeepHeap W H L.1 := h.flat (flattenLoop_flat _ _ _ (h.firm hfirm) (.refl W G) hL)
    have k2 : KeepHeap W H H2 := (expand_ext hH2).keep _ (fun _ _ he hk => hk.ext he) k1
    obtain ⟨k3, k4⟩ := genList_traced _ _ _ k2 hg
    intro s hs
    rcases List.mem_append.mp hs with hs | hs
    · exact k4 s hs
    · exact ih _ _ hfirm k3 hq s hs

end GoXml.Xsdgen
