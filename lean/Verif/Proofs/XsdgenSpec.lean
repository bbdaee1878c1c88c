import Verif.Spec.XsdgenSpec
import Verif.Proofs.Numbers
import Mathlib.Data.List.Perm.Subperm
import Mathlib.Data.List.Nodup
set_option autoImplicit false

/-! Lemmas about the names and fields of generated structs. -/

namespace GoXml.Xsdgen
open Xsd

theorem freeName_some {taken : List Str} {name u : Str} : ∀ {k i : Nat}, freeName taken name k i = some u → u ∉ taken := by
  intro k
  induction k with
  | zero => intro i h; cases h
  | succ k ih =>
    intro i h
    simp only [freeName] at h
    split at h
    · exact ih h
    · rename_i hn
      cases h
      exact hn

theorem freeName_none {taken : List Str} {name : Str} : ∀ {k i : Nat}, freeName taken name k i = none →
    ∀ j, i ≤ j → j < i + k → name ++ natStr j ∈ taken := by
  intro k
  induction k with
  | zero => intro i _ j h1 h2; omega
  | succ k ih =>
    intro i h j h1 h2
    simp only [freeName] at h
    split at h
    · rename_i hm
      by_cases e : j = i
      · rw [e]; exact hm
      · exact ih h j (by omega) (by omega)
    · cases h

/-- With fewer than 1000 names taken there is a free one. -/
theorem freeName_exists (taken : List Str) (name : Str) (h : taken.length < 1000) : ∃ u, freeName taken name 1000 0 = some u := by
  cases hf : freeName taken name 1000 0 with
  | some u => exact ⟨u, rfl⟩
  | none =>
    exfalso
    have hsub : (List.range 1000).map (fun i => name ++ natStr i) ⊆ taken := by
      intro s hs
      obtain ⟨i, hi, rfl⟩ := List.mem_map.mp hs
      exact freeName_none hf i (by omega) (by simpa using List.mem_range.mp hi)
    have hnd : ((List.range 1000).map (fun i => name ++ natStr i)).Nodup := by
      refine List.Nodup.map ?_ List.nodup_range
      intro a b hab
      exact natStr_inj (List.append_cancel_left hab)
    have := (List.subperm_of_subset hnd hsub).length_le
    simp at this
    omega

theorem uniqueName_spec (taken : List Str) (name : Str) (h : taken.length < 1000) :
    (uniqueName taken name).1 ∉ taken ∧ (uniqueName taken name).2 = (uniqueName taken name).1 :: taken := by
  unfold uniqueName
  split
  · obtain ⟨u, hu⟩ := freeName_exists taken name h
    rw [hu]
    exact ⟨freeName_some hu, rfl⟩
  · rename_i hn
    exact ⟨hn, rfl⟩

theorem elementName_spec (env : Env) (cfg : Config) (taken : List Str) (n : XName) (h : taken.length < 1000) :
    (elementName env cfg taken n).1 ∉ taken ∧ (elementName env cfg taken n).2 = (elementName env cfg taken n).1 :: taken := by
  unfold elementName
  simp only
  split
  · exact uniqueName_spec _ _ h
  · rename_i hn
    exact ⟨hn, rfl⟩

theorem attributeName_spec (env : Env) (cfg : Config) (taken : List Str) (n : XName) (h : taken.length < 1000) :
    (attributeName env cfg taken n).1 ∉ taken ∧ (attributeName env cfg taken n).2 = (attributeName env cfg taken n).1 :: taken := by
  unfold attributeName
  simp only
  split
  · exact uniqueName_spec _ _ h
  · rename_i hn
    exact ⟨hn, rfl⟩

theorem addOverride_ok {cfg : Config} {H : THeap} {acc acc' : Acc} {name dflt tag : Str} {type : Ty} {e : GoExpr} {hp : Spec → XName}
    (h : addOverride cfg H acc name dflt tag type e hp = .ok acc') :
    acc'.taken = acc.taken ∧ acc'.fields = acc.fields ∧
    (acc'.overrides = acc.overrides ∨ ∃ d, acc'.overrides = acc.overrides ++ [⟨name, exprText e, d, dflt, type, tag⟩]) := by
  unfold addOverride at h
  split at h
  · split at h
    · cases h
    · simp only [Run.ok.injEq] at h
      subst h
      exact ⟨rfl, rfl, Or.inr ⟨_, rfl⟩⟩
  · split at h <;> simp only [Run.ok.injEq] at h <;> subst h
    · exact ⟨rfl, rfl, Or.inr ⟨_, rfl⟩⟩
    · exact ⟨rfl, rfl, Or.inl rfl⟩

theorem bind_ok {α β : Type} {r : Run α} {f : α → Run β} {b : β} (h : r.bind f = .ok b) : ∃ a, r = .ok a ∧ f a = .ok b := by
  cases r with
  | ok a => exact ⟨a, rfl, h⟩
  | error => cases h
  | panic => cases h
  | running => cases h

theorem flattenComplex_result {recur : THeap → Option Ty → Run Flat} {H : THeap} {id : Nat} {c : ComplexT} {r : Flat}
    (h : flattenComplex recur H id c = .ok r) : r.2.2 = some (.obj id) := by
  obtain ⟨e, he, h⟩ := bind_ok h
  obtain ⟨a, ha, h⟩ := bind_ok h
  obtain ⟨b, hb, h⟩ := bind_ok h
  split at h
  · cases h
  · cases h; rfl

/-- One step of the loop over elements. -/
theorem elemStep_ok {env : Env} {cfg : Config} {H : THeap} {acc acc' : Acc} {el : XElem} (h : elemStep env cfg H acc el = .ok acc') :
    ∃ f e, acc'.fields = acc.fields ++ [f] ∧ acc'.taken = (elementName env cfg acc.taken el.name).2 ∧ ElemField env cfg H el f ∧
      (el.wildcard = false → f.name = (elementName env cfg acc.taken el.name).1) ∧
      exprOf env cfg H el.type = .ok e ∧
      (el.wildcard = false → el.plural = false → f.type = e) ∧
      (acc'.overrides = acc.overrides ∨ ∃ d, acc'.overrides = acc.overrides ++ [⟨f.name, exprText e, d, el.dflt, el.type, f.tag⟩]) := by
  unfold elemStep at h
  obtain ⟨e, he, h⟩ := bind_ok h
  obtain ⟨h1, h2, h3⟩ := addOverride_ok h
  refine ⟨_, e, h2, h1, ⟨e, he, ?_, ?_, ?_, ?_⟩, ?_, he, ?_, h3⟩
  · by_cases hw : el.wildcard = true ∧ el.type = .builtin AnyType <;> simp only [hw, if_true, if_false]
  · intro hw; simp [hw]
  · intro hw ho; simp [hw, or_comm.mp ho]
  · intro hw ho; simp [hw, ho]
  · intro hw; simp [hw]
  · intro hw hp; simp [hw, hp]

/-- One step of the loop over attributes. -/
theorem attrStep_ok {env : Env} {cfg : Config} {H : THeap} {acc acc' : Acc} {a : XAttr} (h : attrStep env cfg H acc a = .ok acc') :
    ∃ f e, acc'.fields = acc.fields ++ [f] ∧ acc'.taken = (attributeName env cfg acc.taken a.name).2 ∧ AttrField env cfg H a f ∧
      f.name = (attributeName env cfg acc.taken a.name).1 ∧
      exprOf env cfg H a.type = .ok e ∧ f.type = e ∧
      (acc'.overrides = acc.overrides ∨ ∃ d, acc'.overrides = acc.overrides ++ [⟨f.name, exprText e, d, a.dflt, a.type, f.tag⟩]) := by
  unfold attrStep at h
  simp only at h
  obtain ⟨e, he, h⟩ := bind_ok h
  obtain ⟨h1, h2, h3⟩ := addOverride_ok h
  refine ⟨_, e, h2, h1, ⟨he, ?_⟩, rfl, he, rfl, h3⟩
  by_cases hq : a.attr.any (fun x => decide (x.name = ⟨[], b!"form"⟩ ∧ x.value = b!"qualified")) = true
  · refine ⟨a.name.space ++ b!" ", fun _ => rfl, ?_, ?_⟩
    · intro h
      obtain ⟨x, hx, hh⟩ := List.any_eq_true.mp hq
      simp only [decide_eq_true_eq] at hh
      exact absurd hh.2 (h x hx hh.1)
    · simp only [hq, if_true]
      cases a.optional <;> simp
  · refine ⟨[], ?_, fun _ => rfl, ?_⟩
    · rintro ⟨x, hx, hh⟩
      exact absurd (List.any_eq_true.mpr ⟨x, hx, by simp [hh.1, hh.2]⟩) hq
    · simp only [hq]
      cases a.optional <;> simp

theorem runFold_cons {α β : Type} {f : β → α → Run β} {b : β} {a : α} {as : List α} {r : β} (h : runFold f b (a :: as) = .ok r) :
    ∃ b', f b a = .ok b' ∧ runFold f b' as = .ok r := bind_ok h

theorem elems_fields {env : Env} {cfg : Config} {H : THeap} : ∀ (els : List XElem) (acc acc' : Acc),
    runFold (elemStep env cfg H) acc els = .ok acc' →
    ∃ fs, acc'.fields = acc.fields ++ fs ∧ List.Forall₂ (ElemField env cfg H) els fs := by
  intro els
  induction els with
  | nil => intro acc acc' h; cases h; exact ⟨[], by simp, .nil⟩
  | cons el els ih =>
    intro acc acc' h
    obtain ⟨acc1, h1, h2⟩ := runFold_cons h
    obtain ⟨f, e, hf, -, hE, -⟩ := elemStep_ok h1
    obtain ⟨fs, hfs, hF⟩ := ih _ _ h2
    exact ⟨f :: fs, by rw [hfs, hf]; simp, .cons hE hF⟩

theorem attrs_fields {env : Env} {cfg : Config} {H : THeap} : ∀ (as : List XAttr) (acc acc' : Acc),
    runFold (attrStep env cfg H) acc as = .ok acc' →
    ∃ fs, acc'.fields = acc.fields ++ fs ∧ List.Forall₂ (AttrField env cfg H) as fs := by
  intro els
  induction els with
  | nil => intro acc acc' h; cases h; exact ⟨[], by simp, .nil⟩
  | cons el els ih =>
    intro acc acc' h
    obtain ⟨acc1, h1, h2⟩ := runFold_cons h
    obtain ⟨f, e, hf, -, hE, -⟩ := attrStep_ok h1
    obtain ⟨fs, hfs, hF⟩ := ih _ _ h2
    exact ⟨f :: fs, by rw [hfs, hf]; simp, .cons hE hF⟩

/-- What the loops keep: the names taken are those of the fields. -/
def NamesOk (acc : Acc) : Prop := acc.taken = (acc.fields.map (·.name)).reverse ∧ acc.taken.Nodup

theorem elems_names {env : Env} {cfg : Config} {H : THeap} : ∀ (els : List XElem) (acc acc' : Acc),
    runFold (elemStep env cfg H) acc els = .ok acc' → (∀ el ∈ els, el.wildcard = false) →
    acc.taken.length + els.length ≤ 1000 → NamesOk acc →
    NamesOk acc' ∧ acc'.taken.length = acc.taken.length + els.length := by
  intro els
  induction els with
  | nil => intro acc acc' h _ _ hN; cases h; exact ⟨hN, rfl⟩
  | cons el els ih =>
    intro acc acc' h hw hl hN
    obtain ⟨acc1, h1, h2⟩ := runFold_cons h
    obtain ⟨f, e, hf, ht, -, hn, -⟩ := elemStep_ok h1
    have hlen : acc.taken.length < 1000 := by simp only [List.length_cons] at hl; omega
    obtain ⟨hfresh, hcons⟩ := elementName_spec env cfg acc.taken el.name hlen
    rw [← hn (hw el (List.mem_cons_self ..))] at hfresh hcons
    rw [hcons] at ht
    have hN1 : NamesOk acc1 := by
      refine ⟨?_, ?_⟩
      · rw [ht, hf, hN.1]; simp
      · rw [ht]; exact List.nodup_cons.mpr ⟨hfresh, hN.2⟩
    have hl1 : acc1.taken.length = acc.taken.length + 1 := by rw [ht]; simp
    obtain ⟨hN', hl'⟩ := ih _ _ h2 (fun x hx => hw x (List.mem_cons_of_mem _ hx))
      (by simp only [List.length_cons] at hl; omega) hN1
    exact ⟨hN', by simp only [List.length_cons]; omega⟩

theorem attrs_names {env : Env} {cfg : Config} {H : THeap} : ∀ (as : List XAttr) (acc acc' : Acc),
    runFold (attrStep env cfg H) acc as = .ok acc' →
    acc.taken.length + as.length ≤ 1000 → NamesOk acc → NamesOk acc' := by
  intro as
  induction as with
  | nil => intro acc acc' h _ hN; cases h; exact hN
  | cons a as ih =>
    intro acc acc' h hl hN
    obtain ⟨acc1, h1, h2⟩ := runFold_cons h
    obtain ⟨f, e, hf, ht, -, hn, -⟩ := attrStep_ok h1
    have hlen : acc.taken.length < 1000 := by simp only [List.length_cons] at hl; omega
    obtain ⟨hfresh, hcons⟩ := attributeName_spec env cfg acc.taken a.name hlen
    rw [← hn] at hfresh hcons
    rw [hcons] at ht
    have hN1 : NamesOk acc1 := by
      refine ⟨?_, ?_⟩
      · rw [ht, hf, hN.1]; simp
      · rw [ht]; exact List.nodup_cons.mpr ⟨hfresh, hN.2⟩
    have hl1 : acc1.taken.length = acc.taken.length + 1 := by rw [ht]; simp
    exact ih _ _ h2 (by simp only [List.length_cons] at hl; omega) hN1

theorem freeName_number {taken : List Str} {name u : Str} : ∀ {k i : Nat}, freeName taken name k i = some u → ∃ j, u = name ++ natStr j := by
  intro k
  induction k with
  | zero => intro i h; cases h
  | succ k ih =>
    intro i h
    simp only [freeName] at h
    split at h
    · exact ih h
    · cases h; exact ⟨i, rfl⟩

theorem uniqueName_name (taken : List Str) (name : Str) (h : taken.length < 1000) :
    (name ∉ taken → (uniqueName taken name).1 = name) ∧ (name ∈ taken → ∃ j, (uniqueName taken name).1 = name ++ natStr j) := by
  refine ⟨fun hn => by simp [uniqueName, hn], fun hm => ?_⟩
  obtain ⟨u, hu⟩ := freeName_exists taken name h
  obtain ⟨j, hj⟩ := freeName_number hu
  exact ⟨j, by simp [uniqueName, hm, hu, hj]⟩

theorem elems_chosen {env : Env} {cfg : Config} {H : THeap} : ∀ (els : List XElem) (acc acc' : Acc),
    runFold (elemStep env cfg H) acc els = .ok acc' → (∀ el ∈ els, el.wildcard = false) →
    acc.taken.length + els.length ≤ 1000 → NamesOk acc →
    ∃ fs, acc'.fields = acc.fields ++ fs ∧ NamedInTurn env cfg (fun x => ∃ j, x = natStr j) (acc.fields.map (·.name)) (els.map (·.name)) (fs.map (·.name)) := by
  intro els
  induction els with
  | nil => intro acc acc' h _ _ _; cases h; exact ⟨[], by simp, trivial⟩
  | cons el els ih =>
    intro acc acc' h hw hl hN
    obtain ⟨acc1, h1, h2⟩ := runFold_cons h
    have hlen : acc.taken.length < 1000 := by simp only [List.length_cons] at hl; omega
    have hstep := elems_names [el] acc acc1 (by rw [runFold, h1]; rfl) (fun x hx => hw x (by simp_all)) (by simp; omega) hN
    obtain ⟨f, e, hf, ht, -, hn, -⟩ := elemStep_ok h1
    obtain ⟨fs, hfs, hrest⟩ := ih _ _ h2 (fun x hx => hw x (List.mem_cons_of_mem _ hx))
      (by rw [hstep.2]; simp only [List.length_cons, List.length_nil] at hl ⊢; omega) hstep.1
    refine ⟨f :: fs, by rw [hfs, hf]; simp, ?_⟩
    have hmem : ∀ x, x ∈ acc.fields.map (·.name) ↔ x ∈ acc.taken := by rw [hN.1]; simp
    have hn := hn (hw el (List.mem_cons_self ..))
    rw [hf, List.map_append] at hrest
    refine ⟨?_, ?_, hrest⟩
    · intro h
      rw [hmem] at h
      refine hn.trans ?_
      dsimp only at h
      simp [elementName, h]
    · intro h
      rw [hmem] at h
      dsimp only at h
      obtain ⟨j, hj⟩ := (uniqueName_name acc.taken _ hlen).2 h
      exact ⟨_, ⟨j, rfl⟩, by refine hn.trans ?_; simp only [elementName, h, if_true, hj]⟩

theorem attrs_chosen {env : Env} {cfg : Config} {H : THeap} : ∀ (as : List XAttr) (acc acc' : Acc),
    runFold (attrStep env cfg H) acc as = .ok acc' → acc.taken.length + as.length ≤ 1000 → NamesOk acc →
    ∃ fs, acc'.fields = acc.fields ++ fs ∧ NamedInTurn env cfg (fun x => x = b!"Attr" ∨ ∃ j, x = b!"Attr" ++ natStr j)
      (acc.fields.map (·.name)) (as.map (·.name)) (fs.map (·.name)) := by
  intro as
  induction as with
  | nil => intro acc acc' h _ _; cases h; exact ⟨[], by simp, trivial⟩
  | cons a as ih =>
    intro acc acc' h hl hN
    obtain ⟨acc1, h1, h2⟩ := runFold_cons h
    have hlen : acc.taken.length < 1000 := by simp only [List.length_cons] at hl; omega
    have hstep := attrs_names [a] acc acc1 (by rw [runFold, h1]; rfl) (by simp; omega) hN
    obtain ⟨f, e, hf, ht, -, hn, -⟩ := attrStep_ok h1
    have hl1 : acc1.taken.length = acc.taken.length + 1 := by rw [hstep.1, hf, hN.1]; simp
    obtain ⟨fs, hfs, hrest⟩ := ih _ _ h2 (by simp only [List.length_cons] at hl; omega) hstep
    refine ⟨f :: fs, by rw [hfs, hf]; simp, ?_⟩
    have hmem : ∀ x, x ∈ acc.fields.map (·.name) ↔ x ∈ acc.taken := by rw [hN.1]; simp
    rw [hf, List.map_append] at hrest
    refine ⟨?_, ?_, hrest⟩
    · intro h
      rw [hmem] at h
      refine hn.trans ?_
      dsimp only at h
      simp [attributeName, h]
    · intro h
      rw [hmem] at h
      dsimp only at h
      by_cases hA : publicName env cfg a.name ++ b!"Attr" ∈ acc.taken
      · obtain ⟨j, hj⟩ := (uniqueName_name acc.taken _ hlen).2 hA
        exact ⟨_, Or.inr ⟨j, rfl⟩, by refine hn.trans ?_; simp only [attributeName, h, if_true, hj, List.append_assoc]⟩
      · have := (uniqueName_name acc.taken _ hlen).1 hA
        exact ⟨_, Or.inl rfl, by refine hn.trans ?_; simp only [attributeName, h, if_true, this]⟩

theorem mixedBase_ancestor {H : THeap} : ∀ {n : Nat} {b r : Ty}, mixedBase H n b = .ok r → Ancestor H b r := by
  intro n
  induction n with
  | zero => intro b r h; cases h
  | succ n ih =>
    intro b r h
    simp only [mixedBase] at h
    split at h
    · cases h; exact .self _
    · rename_i c hc
      split at h
      · cases h; exact .self _
      · exact .base hc (ih h)

/-- The field for text. -/
theorem charData_ok {env : Env} {cfg : Config} {n : Nat} {H : THeap} {t : ComplexT} {acc : Acc} (h : charData env cfg n H t = .ok acc) :
    TextField acc.fields ∧
    ((t.mixed = true → ∀ b a, t.base = some b → Ancestor H b a → isSimple H a = false) → NamesOk acc ∧ acc.taken.length ≤ 1) ∧
    (∀ o ∈ acc.overrides, ∃ f ∈ acc.fields, f.name = o.fieldName ∧ exprText f.type = o.fromType ∧ f.tag = o.tag) := by
  unfold charData at h
  split at h
  · rename_i hm
    split at h
    · cases h
    · rename_i b0 hb0
      obtain ⟨base, hbase, h⟩ := bind_ok h
      obtain ⟨e, he, h⟩ := bind_ok h
      simp only at h
      split at h
      · split at h
        · cases h
          exact ⟨Or.inl rfl, fun _ => ⟨⟨rfl, List.nodup_nil⟩, Nat.zero_le _⟩, by simp⟩
        · split at h
          · split at h
            · cases h
            · cases h
              refine ⟨Or.inr ⟨_, rfl, rfl⟩, fun _ => ⟨⟨rfl, List.nodup_singleton _⟩, Nat.le_refl _⟩, ?_⟩
              intro o ho
              simp only [List.mem_singleton] at ho
              subst ho
              exact ⟨_, List.mem_singleton.mpr rfl, rfl, rfl, rfl⟩
          · cases h
            exact ⟨Or.inr ⟨_, rfl, rfl⟩, fun _ => ⟨⟨rfl, List.nodup_singleton _⟩, Nat.le_refl _⟩, by simp⟩
      · split at h
        · rename_i hs
          cases h
          refine ⟨Or.inr ⟨_, rfl, rfl⟩, fun hno => ?_, by simp⟩
          rw [hno hm b0 base hb0 (mixedBase_ancestor hbase)] at hs
          cases hs
        · cases h
  · cases h
    exact ⟨Or.inl rfl, fun _ => ⟨⟨rfl, List.nodup_nil⟩, Nat.zero_le _⟩, by simp⟩

/-- What an override says of the field that it is for. -/
def Matches (fs : List Field) (o : Override) : Prop :=
  ∃ f ∈ fs, f.name = o.fieldName ∧ exprText f.type = o.fromType ∧ f.tag = o.tag

theorem Matches.mono {fs gs : List Field} {o : Override} (h : Matches fs o) : Matches (fs ++ gs) o := by
  obtain ⟨f, hf, h⟩ := h
  exact ⟨f, List.mem_append_left _ hf, h⟩

/-- No override is made for an ordinary type without default. -/
theorem addOverride_none {cfg : Config} {H : THeap} {acc acc' : Acc} {name dflt tag : Str} {type : Ty} {e : GoExpr} {hp : Spec → XName}
    (h : addOverride cfg H acc name dflt tag type e hp = .ok acc') (h1 : nonTrivialBuiltin (some type) = false) (h2 : dflt = []) :
    acc'.overrides = acc.overrides := by
  simp only [addOverride, h1, h2] at h
  simp at h
  rw [← h]

theorem elems_overrides {env : Env} {cfg : Config} {H : THeap} : ∀ (els : List XElem) (acc acc' : Acc),
    runFold (elemStep env cfg H) acc els = .ok acc' →
    (∀ el ∈ els, el.plural = true ∨ el.wildcard = true → nonTrivialBuiltin (some el.type) = false ∧ el.dflt = []) →
    (∀ o ∈ acc.overrides, Matches acc.fields o) → ∀ o ∈ acc'.overrides, Matches acc'.fields o := by
  intro els
  induction els with
  | nil => intro acc acc' h _ hN; cases h; exact hN
  | cons el els ih =>
    intro acc acc' h hw hN
    obtain ⟨acc1, h1, h2⟩ := runFold_cons h
    refine ih _ _ h2 (fun x hx => hw x (List.mem_cons_of_mem _ hx)) ?_
    obtain ⟨f, e, hf, -, -, -, -, ht, ho⟩ := elemStep_ok h1
    by_cases hc : el.plural = true ∨ el.wildcard = true
    · obtain ⟨k1, k2⟩ := hw el (List.mem_cons_self ..) hc
      have : acc1.overrides = acc.overrides := by
        unfold elemStep at h1
        obtain ⟨e, he, h1⟩ := bind_ok h1
        have h := addOverride_none h1 k1 k2
        exact h
      rw [this, hf]
      exact fun o ho => (hN o ho).mono
    · simp only [not_or, Bool.not_eq_true] at hc
      have ht := ht hc.2 hc.1
      rcases ho with ho | ⟨d, ho⟩ <;> rw [ho, hf] <;> intro o hm
      · exact (hN o hm).mono
      · rcases List.mem_append.mp hm with hm | hm
        · exact (hN o hm).mono
        · rw [List.mem_singleton.mp hm]
          exact ⟨f, by simp, rfl, by rw [ht], rfl⟩

theorem attrs_overrides {env : Env} {cfg : Config} {H : THeap} : ∀ (as : List XAttr) (acc acc' : Acc),
    runFold (attrStep env cfg H) acc as = .ok acc' →
    (∀ o ∈ acc.overrides, Matches acc.fields o) → ∀ o ∈ acc'.overrides, Matches acc'.fields o := by
  intro as
  induction as with
  | nil => intro acc acc' h hN; cases h; exact hN
  | cons a as ih =>
    intro acc acc' h hN
    obtain ⟨acc1, h1, h2⟩ := runFold_cons h
    refine ih _ _ h2 ?_
    obtain ⟨f, e, hf, -, -, -, -, ht, ho⟩ := attrStep_ok h1
    rcases ho with ho | ⟨d, ho⟩ <;> rw [ho, hf] <;> intro o hm
    · exact (hN o hm).mono
    · rcases List.mem_append.mp hm with hm | hm
      · exact (hN o hm).mono
      · rw [List.mem_singleton.mp hm]
        exact ⟨f, by simp, rfl, by rw [ht], rfl⟩

theorem genFields_ok {env : Env} {cfg : Config} {n : Nat} {H : THeap} {t : ComplexT} {acc : Acc} (h : genFields env cfg n H t = .ok acc) :
    ∃ a1 a2, charData env cfg n H t = .ok a1 ∧ runFold (elemStep env cfg H) a1 (filterFields cfg t).2 = .ok a2 ∧
      runFold (attrStep env cfg H) a2 (filterFields cfg t).1 = .ok acc := by
  obtain ⟨a1, h1, h⟩ := bind_ok h
  obtain ⟨a2, h2, h⟩ := bind_ok h
  exact ⟨a1, a2, h1, h2, h⟩

end GoXml.Xsdgen
