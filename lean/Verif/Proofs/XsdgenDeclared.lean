import Verif.Proofs.XsdgenUntouched
import Verif.Proofs.XsdgenKeep
import Verif.Model.XsdgenCli
set_option autoImplicit false

/-! Selected types are declared. -/

namespace GoXml.Xsdgen
open Xsd GoMap

theorem Flow.content {cfg : Config} {H H' : THeap} {Q : Nat → Prop} (h : Flow H H' Q) {id : Nat} {o : TObj} (ho : H[id]? = some o)
    (hc : HasContent cfg o) : ∃ o', H'[id]? = some o' ∧ HasContent cfg o' ∧ o'.name = o.name := by
  obtain ⟨o', ho', ch⟩ := h.get ho
  refine ⟨o', ho', ?_⟩
  cases o with
  | simple s =>
    cases o' with
    | complex _ => cases ch
    | simple s' =>
      obtain ⟨h1, -, h2, h3, h4⟩ := ch
      refine ⟨?_, h1⟩
      simp only [HasContent] at hc ⊢
      rw [h2, h3, h4]
      exact hc
  | complex c =>
    cases o' with
    | simple _ => cases ch
    | complex c' =>
      obtain ⟨h1, -, -, -, h2, h3⟩ := ch
      refine ⟨?_, h1⟩
      rcases hc with hc | ⟨a, ha, hk⟩
      · left
        rcases h3 with h3 | ⟨t, h3, -⟩
        · rw [h3, hc]
        · rcases h.bases id t (by simp only [baseOf, ho', TObj.base]; exact h3) with h | ⟨b, hb, hanc⟩
          · rw [h3, h]
          · simp only [baseOf, ho, TObj.base, hc] at hb
            cases hb
            rw [h3, builtin_ancestor hanc]
      · right
        have hm : untyped a ∈ c'.attributes.map untyped := by
          rw [h2]
          exact List.mem_map.mpr ⟨a, ha, rfl⟩
        obtain ⟨a', ha', he⟩ := List.mem_map.mp hm
        refine ⟨a', ha', fun p hp t => ?_⟩
        have : ({ a' with type := t } : XAttr) = { a with type := t } := by
          have := congrArg (fun x : XAttr => ({ x with type := t } : XAttr)) he
          exact this
        rw [this]
        exact hk p hp t

theorem Ext.content {cfg : Config} {H H' : THeap} (h : Ext H H') {id : Nat} {o : TObj} (ho : H[id]? = some o)
    (hc : HasContent cfg o) : ∃ o', H'[id]? = some o' ∧ HasContent cfg o' ∧ o'.name = o.name := by
  rcases h.get id with ⟨h1, h2⟩ | ⟨s, h1, h2⟩ | ⟨c, c', h1, h2, h3, h4, h5, h6, h7, h8, h9⟩
  · rw [h1] at ho; cases ho
  · rw [h1] at ho; cases ho; exact ⟨_, h2, hc, rfl⟩
  · rw [h1] at ho
    cases ho
    refine ⟨_, h2, ?_, h3⟩
    rcases hc with hc | ⟨a, ha, hk⟩
    · exact Or.inl (h5.trans hc)
    · exact Or.inr ⟨a, h9 a ha, hk⟩

theorem Exts.content {cfg : Config} {H H' : THeap} (h : Exts H H') {id : Nat} {o : TObj} (ho : H[id]? = some o)
    (hc : HasContent cfg o) : ∃ o', H'[id]? = some o' ∧ HasContent cfg o' ∧ o'.name = o.name := by
  induction h with
  | refl => exact ⟨o, ho, hc, rfl⟩
  | tail _ h ih =>
    obtain ⟨o1, h1, h2, h3⟩ := ih
    obtain ⟨o2, k1, k2, k3⟩ := h.content h1 h2
    exact ⟨o2, k1, k2, k3.trans h3⟩

/-- Such a type is not replaced. -/
theorem flatten1_content {cfg : Config} {n d : Nat} {H : THeap} {id : Nat} {o : TObj} {r : Flat} (ho : H[id]? = some o) (hc : HasContent cfg o)
    (h : flatten1 cfg n d H (some (.obj id)) = .ok r) : r.2.2 = some (.obj id) := by
  cases d with
  | zero => cases h; rfl
  | succ d =>
    cases o with
    | simple s =>
      simp only [flatten1, ho] at h
      obtain ⟨q, -, h⟩ := bind_ok h
      dsimp only at h
      split at h
      · cases h; rfl
      · rename_i hn
        split at h
        · cases h; rfl
        · rename_i hk
          have hk := (keptDoc_none _).mp hk
          exfalso
          rcases hc with h1 | h1 | h1 | h1 | h1 | h1
          · exact hn (Or.inl h1)
          · exact hn (Or.inr (Or.inl h1))
          · exact h1 hk.1
          · exact h1 hk.2.1
          · exact h1 hk.2.2.2
          · exact h1 hk.2.2.1
    | complex c =>
      simp only [flatten1, ho] at h
      have hne : c.base = some (.builtin AnyType) ∨ (filterFields cfg c).1 ≠ [] := by
        rcases hc with h | ⟨a, ha, hk⟩
        · exact Or.inl h
        · refine Or.inr fun h0 => ?_
          have : a ∈ (filterFields cfg c).1 := (keptAttr_iff ..).mpr ⟨ha, fun p hp => hk p hp a.type⟩
          rw [h0] at this
          cases this
      split at h
      · rename_i b hb
        split at h
        · rename_i hcond
          rcases hne with h1 | h1
          · rw [hb] at h1
            cases h1
            exact absurd rfl hcond.1
          · exact absurd hcond.2 h1
        · exact flattenComplex_result h
      · rename_i b hb
        split at h
        · rename_i hcond
          rcases hne with h1 | h1
          · rw [hb] at h1; cases h1
          · exact absurd hcond.2 h1
        · exact flattenComplex_result h
      · exact flattenComplex_result h

/-- A type that is not replaced, where the first heap is the one at the start. -/
def Stays (cfg : Config) (H0 : THeap) (id : Nat) (o : TObj) : Prop :=
  HasContent cfg o ∨ ((∃ s, o = .simple s) ∧ ∃ b k, nonTrivialBuiltin (some (.builtin b)) = true ∧ EndsIn H0 (.obj id) b k) ∨ FromAny H0 id

theorem Worth.stays {cfg : Config} {H : THeap} {id : Nat} {o : TObj} (h : Worth cfg H id o) : Stays cfg H id o := by
  rcases h with h | ⟨h, t, ⟨b, rfl, hb⟩, ht⟩ | h
  · exact Or.inl h
  · obtain ⟨k, hk⟩ := EndsIn.of ht rfl
    exact Or.inr (Or.inl ⟨h, b, k, (nonTrivial_iff b).mpr hb, hk⟩)
  · exact Or.inr (Or.inr h)

theorem Flow.stays {cfg : Config} {H0 H H' : THeap} {Q : Nat → Prop} (h : Flow H H' Q) {id : Nat} {o : TObj} (ho : H[id]? = some o)
    (hc : Stays cfg H0 id o) : ∃ o', H'[id]? = some o' ∧ Stays cfg H0 id o' ∧ o'.name = o.name := by
  rcases hc with hc | ⟨⟨s, rfl⟩, hc⟩ | hc
  · obtain ⟨o', h1, h2, h3⟩ := h.content ho hc
    exact ⟨o', h1, Or.inl h2, h3⟩
  · obtain ⟨o', ho', ch⟩ := h.get ho
    cases o' with
    | complex _ => cases ch
    | simple s' => exact ⟨_, ho', Or.inr (Or.inl ⟨⟨_, rfl⟩, hc⟩), ch.1⟩
  · obtain ⟨o', ho', ch⟩ := h.get ho
    refine ⟨o', ho', Or.inr (Or.inr hc), ?_⟩
    have := h.names (.obj id)
    simp only [xmlName, ho, ho'] at this
    exact this

theorem Exts.stays {cfg : Config} {H0 H H' : THeap} (h : Exts H H') {id : Nat} {o : TObj} (ho : H[id]? = some o)
    (hc : Stays cfg H0 id o) : ∃ o', H'[id]? = some o' ∧ Stays cfg H0 id o' ∧ o'.name = o.name := by
  induction h with
  | refl => exact ⟨o, ho, hc, rfl⟩
  | tail _ h ih =>
    obtain ⟨o1, h1, h2, h3⟩ := ih
    rcases h2 with h2 | h2
    · obtain ⟨o2, k1, k2, k3⟩ := h.content h1 h2
      exact ⟨o2, k1, Or.inl k2, k3.trans h3⟩
    · rcases h.get id with ⟨k1, k2⟩ | ⟨s, k1, k2⟩ | ⟨c, c', k1, k2, k3, k4⟩
      · rw [k1] at h1; cases h1
      · rw [k1] at h1; cases h1; exact ⟨_, k2, Or.inr h2, h3⟩
      · rw [k1] at h1
        cases h1
        rcases h2 with ⟨⟨s, e⟩, -⟩ | h2
        · cases e
        · exact ⟨_, k2, Or.inr (Or.inr h2), k3.trans h3⟩

theorem flatten1_stays {cfg : Config} {n d : Nat} {H0 H : THeap} {id : Nat} {o : TObj} {r : Flat} (hk : Keep H0 H) (ho : H[id]? = some o)
    (hc : Stays cfg H0 id o) (h : flatten1 cfg n d H (some (.obj id)) = .ok r) : r.2.2 = some (.obj id) := by
  rcases hc with hc | ⟨⟨s, rfl⟩, b, k, hb, he⟩ | hc
  · exact flatten1_content ho hc h
  · cases d with
    | zero => cases h; rfl
    | succ d =>
      simp only [flatten1, ho] at h
      exact ((flattenSimple_keep hk ho h).2 b k he).2.1 hb
  · exact (flatten1_keep cfg n H0 d _ _ _ hk h).2.2 id rfl hc

theorem flattenLoop_flow {cfg : Config} {n : Nat} {H0 : THeap} : ∀ (ts : List Ty) (H : THeap) (r : THeap × List Ty),
    Linked H → Keep H0 H → (∀ t ∈ ts, NotLink t) → flattenLoop cfg n H ts = .ok r →
    Flow H r.1 (Pushed r.2) ∧ Keep H0 r.1 ∧ (∀ t ∈ r.2, NotLink t) ∧
    ∀ id o, Ty.obj id ∈ ts → H[id]? = some o → Stays cfg H0 id o → skipped cfg o.name = false → Ty.obj id ∈ r.2 := by
  intro ts
  induction ts with
  | nil =>
    intro H r hH hk0 _ h
    cases h
    exact ⟨.refl .., hk0, fun t ht => (by cases ht), fun _ _ h => (by cases h)⟩
  | cons t ts ih =>
    intro H r hl hk0 hts h
    simp only [flattenLoop] at h
    split at h
    · rename_i hsk
      obtain ⟨k1, k0, k2, k3⟩ := ih H r hl hk0 (fun u hu => hts u (List.mem_cons_of_mem _ hu)) h
      refine ⟨k1, k0, k2, ?_⟩
      intro id o hid ho hc hs
      rcases List.mem_cons.mp hid with e | e
      · rw [← e] at hsk
        simp only [xmlName, ho, hs] at hsk
        cases hsk
      · exact k3 id o e ho hc hs
    · obtain ⟨q, hq, h⟩ := bind_ok h
      obtain ⟨p, hp, h⟩ := bind_ok h
      cases h
      have htn := hts t (List.mem_cons_self ..)
      have hv : ∀ v, some t = some v → NotLink v := by intro v hv; cases hv; exact htn
      obtain ⟨f1, r1⟩ := flatten1_flow cfg n 1001 H _ q hl hv hq
      have n1 := flatten1_nolinks cfg n 1001 H _ q hl hv hq
      obtain ⟨f2, k0, n2, g2⟩ := ih q.1 p (f1.linked hl) (flatten1_keep cfg n H0 _ _ _ _ hk0 hq).1 (fun u hu => hts u (List.mem_cons_of_mem _ hu)) hp
      have f1' : Flow H q.1 (Pushed (q.2.1 ++ q.2.2.toList)) := f1.mono pushed_left
      refine ⟨f1'.trans pushed_left pushed_right f2, k0, ?_, ?_⟩
      · intro u hu
        rcases List.mem_append.mp hu with hu | hu
        · rcases List.mem_append.mp hu with hu | hu
          · exact n1 u hu
          · exact (r1 u (by simpa using hu)).1
        · exact n2 u hu
      · intro id o hid ho hc hs
        rcases List.mem_cons.mp hid with e | e
        · subst e
          have := flatten1_stays hk0 ho hc hq
          refine List.mem_append_left _ (List.mem_append_right _ ?_)
          rw [this]
          simp
        · obtain ⟨o', ho', hc', hn'⟩ := f1.stays ho hc
          exact List.mem_append_right _ (g2 id o' e ho' hc' (by rw [hn']; exact hs))

theorem genTypeSpec_named {env : Env} {cfg : Config} {n : Nat} {H : THeap} {t : Ty} {r : THeap × List Spec}
    (h : genTypeSpec env cfg n H t = .ok r) : Ext H r.1 ∧ ∀ id o, t = .obj id → H[id]? = some o → ∃ s ∈ r.2, s.name = publicName env cfg o.name := by
  cases t with
  | builtin b => cases h; exact ⟨.same, fun _ _ h => (by cases h)⟩
  | link b => cases h; exact ⟨.same, fun _ _ h => (by cases h)⟩
  | obj id =>
    simp only [genTypeSpec] at h
    cases ho : H[id]? with
    | none =>
      rw [ho] at h
      cases h
      exact ⟨.same, fun _ _ h ho' => (by cases h; rw [ho] at ho'; cases ho')⟩
    | some o =>
      rw [ho] at h
      have fin : ∀ {l : List Spec}, (∃ s ∈ l, s.name = publicName env cfg o.name) →
          ∀ id' o', Ty.obj id = .obj id' → H[id']? = some o' → ∃ s ∈ l, s.name = publicName env cfg o'.name := by
        intro l hl id' o' e ho'
        cases e
        rw [ho] at ho'
        cases ho'
        exact hl
      cases o with
      | simple s =>
        obtain ⟨q, hq, h⟩ := bind_ok h
        cases h
        refine ⟨.same, fin ?_⟩
        unfold genSimpleType at hq
        split at hq
        · unfold genSimpleListSpec at hq
          split at hq
          · cases hq
          · obtain ⟨e, he, hq⟩ := bind_ok hq
            obtain ⟨y, hy, hq⟩ := bind_ok hq
            split at hq
            · split at hq
              · cases hq
              · cases hq
              · cases hq; exact ⟨_, List.mem_singleton.mpr rfl, rfl⟩
            · cases hq
        · split at hq
          · cases hq; exact ⟨_, List.mem_singleton.mpr rfl, rfl⟩
          · split at hq
            · cases hq
            · obtain ⟨e, he, hq⟩ := bind_ok hq
              dsimp only at hq
              split at hq
              · split at hq
                · cases hq
                · cases hq; exact ⟨_, List.mem_singleton.mpr rfl, rfl⟩
              · cases hq; exact ⟨_, List.mem_singleton.mpr rfl, rfl⟩
      | complex c =>
        obtain ⟨acc, hacc, h⟩ := bind_ok h
        cases h
        refine ⟨takeOver_ext ho, fin ⟨_, List.mem_singleton.mpr rfl, ?_⟩⟩
        have := (takeOver_ext ho).names (.obj id)
        simp only [xmlName, ho, List.getElem?_set_self (List.getElem?_eq_some_iff.mp ho).1, TObj.name] at this
        show publicName env cfg (takeOver H c).name = _
        rw [this]
        rfl

theorem genList_named {env : Env} {cfg : Config} {n : Nat} : ∀ (ts : List Ty) (H : THeap) (r : THeap × List Spec × Bool),
    genList env cfg n H ts = .ok r → r.2.2 = false → Exts H r.1 ∧
    ∀ id o, Ty.obj id ∈ ts → H[id]? = some o → ∃ s ∈ r.2.1, s.name = publicName env cfg o.name := by
  intro ts
  induction ts with
  | nil =>
    intro H r h _
    cases h
    exact ⟨.refl, fun _ _ h => (by cases h)⟩
  | cons t ts ih =>
    intro H r h hr
    simp only [genList] at h
    split at h
    · rename_i q hq
      obtain ⟨p, hp, h⟩ := bind_ok h
      cases h
      obtain ⟨k1, k2⟩ := genTypeSpec_named hq
      obtain ⟨j1, j2⟩ := ih q.1 p hp hr
      refine ⟨(Exts.tail .refl k1).trans j1, ?_⟩
      intro id o hid ho
      rcases List.mem_cons.mp hid with h | h
      · obtain ⟨s, hs, hn⟩ := k2 id o h.symm ho
        exact ⟨s, List.mem_append_left _ hs, hn⟩
      · have : ∃ o', q.1[id]? = some o' ∧ o'.name = o.name := by
          have hnm := k1.names (.obj id)
          have hlt : id < q.1.length := by rw [k1.length]; exact (List.getElem?_eq_some_iff.mp ho).1
          simp only [xmlName, ho, List.getElem?_eq_getElem hlt] at hnm
          exact ⟨_, List.getElem?_eq_getElem hlt, hnm⟩
        obtain ⟨o', ho', hn'⟩ := this
        obtain ⟨s, hs, hn⟩ := j2 id o' h ho'
        exact ⟨s, List.mem_append_right _ hs, by rw [hn, hn']⟩
    · obtain ⟨p, hp, h⟩ := bind_ok h
      cases h
      cases hr
    · cases h
    · cases h

theorem genSchemas_named {env : Env} {cfg : Config} {n : Nat} {H0 : THeap} : ∀ (schemas : List (List Ty)) (H : THeap) (r : THeap × List Spec × Bool),
    Linked H → Keep H0 H → OwnNames H → (∀ types ∈ schemas, ∀ t ∈ types, NotLink t) → genSchemas env cfg n H schemas = .ok r → r.2.2 = false →
    ∀ types ∈ schemas, ∀ id o, Ty.obj id ∈ types → H[id]? = some o → Stays cfg H0 id o → skipped cfg o.name = false → o.name ≠ ⟨[], []⟩ →
      ∃ s ∈ r.2.1, s.name = publicName env cfg o.name := by
  intro schemas
  induction schemas with
  | nil => intro H r _ _ _ _ h _ types ht; cases ht
  | cons types rest ih =>
    intro H r hH hk0 hown hnl h hr
    obtain ⟨f, hf, h⟩ := bind_ok h
    obtain ⟨L, hL, hf⟩ := bind_ok hf
    cases hf
    obtain ⟨H2, hH2, h⟩ := bind_ok h
    obtain ⟨g, hg, h⟩ := bind_ok h
    obtain ⟨q, hq, h⟩ := bind_ok h
    cases h
    simp only [Bool.or_eq_false_iff] at hr
    obtain ⟨f1, k1, n1, g1⟩ := flattenLoop_flow types H L hH hk0 (hnl types (List.mem_cons_self ..)) hL
    have e1 := expand_ext hH2
    obtain ⟨e2, d2⟩ := genList_named _ H2 g hg hr.1
    have hl1 := f1.linked hH
    have hown1 : OwnNames L.1 := ownNames_names f1.names f1.len hown
    have hl3 : Linked g.1 := (e1.trans e2).keep _ (fun _ _ h => h.linked) hl1
    have hown3 : OwnNames g.1 := (e1.trans e2).keep _ (fun _ _ h => ownNames_names h.names h.length) hown1
    intro ts hts id o hid ho hc hs hn0
    rcases List.mem_cons.mp hts with rfl | hts
    · have hin := g1 id o hid ho hc hs
      have hname : xmlName L.1 (.obj id) = o.name := by rw [f1.names]; simp only [xmlName, ho]
      have hk : o.name ∈ (firsts (xmlName L.1) L.2).map (xmlName L.1) :=
        (firsts_keys _ _ _).mpr (List.mem_map.mpr ⟨_, hin, hname⟩)
      obtain ⟨u, hu, hun⟩ := List.mem_map.mp hk
      have hmem := firsts_mem _ hu
      rw [← dedup_eq] at hu
      cases u with
      | builtin b => exact absurd hun.symm (hown id o ho b)
      | link b => exact (n1 _ hmem).elim
      | obj k =>
        have hex : ∃ o', H2[k]? = some o' ∧ o'.name = o.name := by
          rw [← e1.names] at hun
          simp only [xmlName] at hun
          split at hun
          · rename_i o' ho'
            exact ⟨o', ho', hun⟩
          · exact absurd hun.symm hn0
        obtain ⟨o', ho', hn'⟩ := hex
        obtain ⟨s, hs', hsn⟩ := d2 k o' hu ho'
        exact ⟨s, List.mem_append_left _ hs', by rw [hsn, hn']⟩
    · obtain ⟨o1, ho1, hc1, hn1⟩ := f1.stays ho hc
      obtain ⟨o2, ho2, hc2, hn2⟩ := (e1.trans e2).stays ho1 hc1
      obtain ⟨s, hs', hsn⟩ := ih g.1 q hl3 (k1.exts (e1.trans e2)) hown3 (fun ts hts => hnl ts (List.mem_cons_of_mem _ hts)) hq hr.2 ts hts id o2 hid ho2 hc2
        (by rw [hn2, hn1]; exact hs) (by rw [hn2, hn1]; exact hn0)
      exact ⟨s, List.mem_append_right _ hs', by rw [hsn, hn2, hn1]⟩

theorem finish_key {srt : Sorter strLt} {cfg : Config} {ss : List Spec} {k : Str} (h : ∃ s ∈ ss, s.name = k) :
    ∃ v, get (finish srt cfg ss).1 k = some v := by
  have key : ∀ (D : GoMap Str Spec), (∃ v, get D k = some v) → ∀ deps,
      ∃ v, get (addAllFuncs (srt.sort ((addHelpers deps D cfg.helperTypes).1.map (·.1))) (addHelpers deps D cfg.helperTypes).1 cfg.helperFuncs).1 k = some v := by
    intro D hD deps
    obtain ⟨v, hv⟩ := addHelpers_key deps D cfg.helperTypes k hD
    have := addAllFuncs_expr (srt.sort ((addHelpers deps D cfg.helperTypes).1.map (·.1))) (addHelpers deps D cfg.helperTypes).1 cfg.helperFuncs k
    rw [hv] at this
    obtain ⟨w, hw, _⟩ := Option.map_eq_some_iff.mp this
    exact ⟨w, hw⟩
  have h0 := declare_key ss [] k (Or.inl h)
  simp only [finish]
  split
  · rename_i f hf
    refine key _ ?_ _
    obtain ⟨v, hv⟩ := h0
    refine ⟨f v, ?_⟩
    have := get_map (declare ss []) f k
    rw [hv] at this
    exact this
  · exact key _ h0 _

theorem gen_named {env : Env} {srt : Sorter strLt} {cfg : Config} {n : Nat} {primaries deps : List Schema} {H : THeap} {r : THeap × Code × Config}
    (hpre : Untouched cfg H primaries) (hH : Linked H) (hown : OwnNames H) (htop : ∀ s ∈ primaries, ∀ e ∈ s.types, ∀ m, e.2 ≠ .link m)
    (h : gen env srt cfg n primaries deps H = .ok r) (srt' : Sorter strLt) {s : Schema} (hs : s ∈ primaries) {k : XName} {id : Nat} {o : TObj}
    (he : (k, Ty.obj id) ∈ s.types) (ho : H[id]? = some o) (hc : Worth cfg H id o) (hsk : skipped cfg o.name = false) (hn : o.name ≠ ⟨[], []⟩) :
    ∃ doc e, GoDecl.type doc (publicName env cfg o.name) e ∈ (genAST srt' r.2.1).2 := by
  rw [gen_untouched hpre] at h
  obtain ⟨q, hq, h⟩ := bind_ok h
  split at h
  · cases h
  · rename_i hflag
    cases h
    have := genSchemas_named _ H q hH (Keep.refl H) hown (by
      intro types ht t htt
      obtain ⟨s, hs, rfl⟩ := List.mem_map.mp ht
      obtain ⟨e, he, rfl⟩ := List.mem_map.mp htt
      have := htop s hs e he
      cases he2 : e.2 with
      | link m => exact absurd he2 (this m)
      | _ => trivial) hq (by simpa using hflag) _ (List.mem_map.mpr ⟨s, hs, rfl⟩) id o (List.mem_map.mpr ⟨_, he, rfl⟩) ho hc.stays hsk hn
    obtain ⟨v, hv⟩ := finish_key (srt := srt) (cfg := cfg) this
    exact ⟨v.doc, v.expr, genAST_type.mpr ⟨v, hv, rfl, rfl⟩⟩

/-- What `genCode` does when it succeeds. -/
theorem genCode_ok {env : Env} {srt : Sorter strLt} {n : Nat} {parse : List Doc → Outcome (List Schema × THeap)} {cfg cfg' : Config}
    {docs : List Doc} {schemas : List Schema} {H H' : THeap} {code : Code} (hp : parse docs = .ok (schemas, H))
    (h : genCode env srt n parse cfg docs = (cfg', .done (.ok (H', code)))) :
    ∃ ns primaries r, gen env srt (addStandardHelpers { cfg with namespaces := ns }) n primaries schemas H = .ok r ∧ r.2.1 = code ∧ r.1 = H' ∧ r.2.2 = cfg' ∧
      (cfg.namespaces ≠ [] → ns = cfg.namespaces) ∧ ∀ s, s ∈ primaries ↔ s ∈ schemas ∧ s.targetNS ∈ ns := by
  unfold genCode at h
  dsimp only at h
  rw [hp] at h
  have hc : ∃ ns, (if cfg.namespaces = [] then { cfg with namespaces := lookupTargetNS docs } else cfg) = { cfg with namespaces := ns } ∧
      (cfg.namespaces ≠ [] → ns = cfg.namespaces) := by
    split
    · rename_i e
      exact ⟨_, rfl, fun h => absurd e h⟩
    · exact ⟨cfg.namespaces, rfl, fun _ => rfl⟩
  obtain ⟨ns, hns, hne⟩ := hc
  rw [hns] at h
  dsimp only at h
  cases hs : selectSchemas ns schemas with
  | error ns => rw [hs] at h; cases h
  | ok primaries =>
    rw [hs] at h
    dsimp only at h
    cases hg : gen env srt (addStandardHelpers { cfg with namespaces := ns }) n primaries schemas H with
    | error => rw [hg] at h; cases h
    | panic => rw [hg] at h; cases h
    | running => rw [hg] at h; cases h
    | ok r =>
      rw [hg] at h
      cases h
      refine ⟨ns, primaries, r, hg, rfl, rfl, rfl, hne, ?_⟩
      intro s
      unfold selectSchemas at hs
      dsimp only at hs
      split at hs
      · cases hs
      · cases hs
        simp only [List.mem_filter, List.any_eq_true, decide_eq_true_eq, exists_eq_right']

end GoXml.Xsdgen
