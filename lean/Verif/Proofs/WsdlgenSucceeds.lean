import Verif.Proofs.XsdgenSucceeds
import Verif.Proofs.XsdgenName
import Verif.Spec.WsdlgenSucceeds
set_option autoImplicit false

/-! Lemmas for the theorem that wsdlgen generates functions: the questions that it asks about the code are answered. -/

namespace GoXml.Xsdgen
open Xsd GoMap

/-- A result or an error. -/
def Fair {α : Type} (r : Run α) : Prop := (∃ a, r = .ok a) ∨ r = .error

theorem Fair.bind {α β : Type} {r : Run α} {f : α → Run β} (h : Fair r) (hf : ∀ a, r = .ok a → Fair (f a)) : Fair (r.bind f) := by
  rcases h with ⟨a, rfl⟩ | rfl
  · exact hf a rfl
  · exact Or.inr rfl

theorem override_fair (cfg : Config) (H : THeap) (acc : Acc) (name dflt tag : Str) (type : Ty) (expr : GoExpr) (helper : Spec → XName) :
    Fair (addOverride cfg H acc name dflt tag type expr helper) := by
  unfold addOverride
  split
  · cases cfg.helperTypes.get (xmlName H type) with
    | none => exact Or.inr rfl
    | some h => exact Or.inl ⟨_, rfl⟩
  · split <;> exact Or.inl ⟨_, rfl⟩

theorem runFold_fair {α β : Type} {f : β → α → Run β} : ∀ (l : List α) (b : β), (∀ b, ∀ a ∈ l, Fair (f b a)) → Fair (runFold f b l) := by
  intro l
  induction l with
  | nil => exact fun b _ => Or.inl ⟨b, rfl⟩
  | cons a l ih =>
    intro b h
    exact (h b a (by simp)).bind fun c _ => ih c (fun b x hx => h b x (List.mem_cons_of_mem _ hx))

theorem charData_fair (env : Env) (cfg : Config) {P : GenPlan} {n : Nat} (hP : P.Fine n) {H : THeap} (h : Planned P H) {id : Nat}
    (hid : id < P.len) {t : ComplexT} (hp : PObj P id (.complex t)) : Fair (charData env cfg n H t) := by
  unfold charData
  split
  · have hb : PBase P id t.base := hp.base
    obtain ⟨b0, hb0⟩ := hb.some
    rw [hb0] at hb
    have hrank := hP.rank id hid
    obtain ⟨u, hu, hty, hk⟩ := mixedBase_ready hP h n b0 (hb.ty hP hid) (by omega) (by
      rintro i rfl
      have := hb.2.1
      omega)
    obtain ⟨e, he⟩ := expr_ready env cfg H hty
    simp only [hb0, hu, Run.bind, he]
    cases u with
    | link m => exact absurd hty (by simp [PTy])
    | builtin b =>
      simp only
      split
      · exact Or.inl ⟨_, rfl⟩
      · split
        · simp only [xmlName]
          cases hg : cfg.helperTypes.get (builtinName b) with
          | none => exact Or.inr rfl
          | some h => exact Or.inl ⟨_, rfl⟩
        · exact Or.inl ⟨_, rfl⟩
    | obj j =>
      rcases hk with ⟨b, hb⟩ | hk
      · cases hb
      · simp only [hk, if_true]
        exact Or.inl ⟨_, rfl⟩
  · exact Or.inl ⟨_, rfl⟩

theorem specHeap_ready (env : Env) (cfg : Config) (n : Nat) {P : GenPlan} {H : THeap} (h : Planned P H) (t : Ty) : Planned P (specHeap env cfg n H t) := by
  unfold specHeap
  split
  · split
    · rename_i c hc
      split
      · exact h.set (takeOver_ready h (h.obj _ _ hc))
      · exact h
    · exact h
  · exact h

theorem genTypeSpec_fair (env : Env) (cfg : Config) {P : GenPlan} {n : Nat} (hP : P.Fine n) {H : THeap} (h : Planned P H) {t : Ty} (ht : PTy P t) :
    Fair (genTypeSpec env cfg n H t) ∧ ∀ r, genTypeSpec env cfg n H t = .ok r → Planned P r.1 := by
  cases t with
  | builtin b => exact ⟨Or.inl ⟨_, rfl⟩, fun r e => by cases e; exact h⟩
  | link m => exact ⟨Or.inl ⟨_, rfl⟩, fun r e => by cases e; exact h⟩
  | obj id =>
    have hid : id < P.len := ht
    obtain ⟨o, ho, hp⟩ := h.get ht
    cases o with
    | complex c =>
      have hp2 := takeOver_ready h hp
      have h2 := h.set hp2
      have hf : Fair (genFields env cfg n (H.set id (.complex (takeOver H c))) (takeOver H c)) := by
        unfold genFields
        refine (charData_fair env cfg hP h2 hid hp2).bind fun a1 _ => (runFold_fair _ _ ?_).bind fun a2 _ => (runFold_fair _ _ ?_)
        · intro acc el hel
          obtain ⟨e, he⟩ := expr_ready env cfg (H.set id (.complex (takeOver H c))) ((hp2.fields _ rfl).1 el (keepElems_sub hel))
          simp only [elemStep, he, Run.bind]
          exact override_fair ..
        · intro acc el hel
          obtain ⟨e, he⟩ := expr_ready env cfg (H.set id (.complex (takeOver H c))) ((hp2.fields _ rfl).2 el (keepAttrs_sub hel))
          simp only [attrStep, he, Run.bind]
          exact override_fair ..
      simp only [genTypeSpec, ho, genComplexType]
      refine ⟨hf.bind fun a _ => Or.inl ⟨_, rfl⟩, ?_⟩
      intro r hr
      obtain ⟨a, -, hr⟩ := bind_ok hr
      cases hr
      exact h2
    | simple s =>
      have hb : PBase P id s.base := hp.base
      obtain ⟨b, hbs⟩ := hb.some
      rw [hbs] at hb
      obtain ⟨e, he⟩ := expr_ready env cfg H (hb.ty hP hid)
      have hrank := hP.rank id hid
      have hs : Fair (genSimpleType env cfg n H id s) := by
        unfold genSimpleType
        split
        · have hlast := lastBase_ready h (b := P.last id) n b (by
            cases b with
            | builtin b => cases hb; exact Or.inl ⟨rfl, by omega⟩
            | obj k => exact Or.inr ⟨k, rfl, hb.1, hb.2.2, by have := hb.2.1; omega⟩
            | link m => exact absurd hb (by simp [PBase]))
          unfold genSimpleListSpec
          simp only [hbs, he, Run.bind, hlast]
          cases hcd : listCodec (P.last id) with
          | none => exact Or.inr rfl
          | some c => cases c <;> first | exact Or.inl ⟨_, rfl⟩ | exact Or.inr rfl
        · split
          · exact Or.inl ⟨_, rfl⟩
          · simp only [hbs, he, Run.bind]
            split
            · cases hg : cfg.helperTypes.get (xmlName H b) with
              | none => exact Or.inr rfl
              | some h => exact Or.inl ⟨_, rfl⟩
            · exact Or.inl ⟨_, rfl⟩
      simp only [genTypeSpec, ho]
      refine ⟨hs.bind fun a _ => Or.inl ⟨_, rfl⟩, ?_⟩
      intro r hr
      obtain ⟨a, -, hr⟩ := bind_ok hr
      cases hr
      exact h

/-- Every built-in type has an expression. -/
theorem builtinExpr_ready {q : XName} {b : Builtin} (h : parseBuiltin q = some b) : ∃ e, builtinExpr b = .ok e := by
  have hb : 0 ≤ b ∧ b < 50 := by
    have key : ∀ (n : Nat) (i b : Builtin), parseBuiltinLoop q n i = some b → i ≤ b ∧ b < i + n := by
      intro n
      induction n with
      | zero => intro i b h; cases h
      | succ n ih =>
        intro i b h
        unfold parseBuiltinLoop at h
        split at h
        · cases h
          exact ⟨Int.le_refl _, Int.lt_add_of_pos_right _ (Int.natCast_pos.mpr (Nat.succ_pos n))⟩
        · obtain ⟨h1, h2⟩ := ih _ _ h
          exact ⟨Int.le_trans (Int.le_add_of_nonneg_right (by decide)) h1, by rw [Int.add_assoc, Int.add_comm 1] at h2; exact_mod_cast h2⟩
    obtain ⟨h1, h2⟩ := key _ _ _ h
    exact ⟨h1, h2⟩
  have key : ∀ i ∈ List.range 50, (builtinExpr (Int.ofNat i)).toOption.isSome = true := by decide +kernel
  obtain ⟨i, rfl⟩ := Int.eq_ofNat_of_zero_le hb.1
  have := key i (List.mem_range.mpr (Int.ofNat_lt.mp hb.2))
  cases he : builtinExpr (Int.ofNat i) with
  | ok e => exact ⟨e, rfl⟩
  | error => rw [he] at this; cases this
  | panic => rw [he] at this; cases this
  | running => rw [he] at this; cases this

theorem parseBuiltin_inSchema {b : Builtin} (h : InSchema b) : parseBuiltin (builtinName b) ≠ none := by
  have key : ∀ i ∈ List.range 50, parseBuiltin (builtinName (Int.ofNat i)) ≠ none := by decide +kernel
  obtain ⟨i, rfl⟩ := Int.eq_ofNat_of_zero_le h.1
  exact key i (List.mem_range.mpr (Int.ofNat_lt.mp h.2.1))

/-- `NameOf` always answers. -/
theorem nameOf_answers (env : Env) (cfg : Config) {P : GenPlan} {n : Nat} (hP : P.Fine n) {H : THeap} (h : Planned P H) {code : Code}
    (hc : ∀ q t, code.types.get q = some t → PTy P t) (k : Nat) (q : XName) :
    ∃ G code' s, nameOf env cfg n (k + 2) H code q = .ok (G, code', s) ∧ Planned P G ∧ code'.types = code.types := by
  have hbuilt : ∀ (k : Nat) (q : XName) (H : THeap), Planned P H → parseBuiltin q ≠ none →
      ∃ G code' s, nameOf env cfg n (k + 1) H code q = .ok (G, code', s) ∧ Planned P G ∧ code'.types = code.types := by
    intro k q H h hq
    unfold nameOf
    split
    · exact ⟨_, _, _, rfl, h, rfl⟩
    · split
      · rename_i b hb
        obtain ⟨e, he⟩ := builtinExpr_ready hb
        rw [he]
        cases e with
        | none => exact ⟨_, _, _, rfl, h, rfl⟩
        | some e => exact ⟨_, _, _, rfl, h, rfl⟩
      · rename_i hb
        exact absurd hb hq
  by_cases hq : parseBuiltin q = none
  · rw [nameOf]
    split
    · exact ⟨_, _, _, rfl, h, rfl⟩
    · rw [hq]
      dsimp only
      cases ht : code.types.get q with
      | none => exact ⟨_, _, _, rfl, h, rfl⟩
      | some t =>
        have hty := hc q t ht
        obtain ⟨G, l, u, e, hG, -, -, hn⟩ := flatten1_ready hP cfg 1001 H t h hty
        have hu := hn.ty hP hty
        simp only [e, Run.bind]
        obtain ⟨hfair, hok⟩ := genTypeSpec_fair env cfg hP hG hty
        cases u with
        | builtin b => exact hbuilt k _ G hG (parseBuiltin_inSchema hu)
        | link m => exact absurd hu (by simp [PTy])
        | obj j =>
          dsimp only
          rcases hfair with ⟨r, hr⟩ | hr
          · rw [hr]
            exact ⟨_, _, _, rfl, hok r hr, rfl⟩
          · rw [hr]
            exact ⟨_, _, _, rfl, specHeap_ready env cfg n hG t, rfl⟩
  · exact hbuilt (k + 1) q H h hq

end GoXml.Xsdgen

namespace GoXml.Wsdl
open Xsd Xsdgen GoMap

/-- The types are as planned, and those that there are names of are known. -/
structure Settled (P : GenPlan) (T : GoMap XName Ty) (st : XState) : Prop where
  heap : Planned P st.1
  types : st.2.types = T

section
variable {env : Env} {cfg : Xsdgen.Config} {P : GenPlan} {n : Nat} {T : GoMap XName Ty} (hP : P.Fine n) (hT : ∀ q t, T.get q = some t → PTy P t)
include hP hT

theorem nameIn_ready {st : XState} (h : Settled P T st) (k : Nat) (q : XName) : ∃ r, nameIn env cfg n (k + 2) st q = .ok r ∧ Settled P T r.1 := by
  obtain ⟨G, code', s, h1, h2, h3⟩ := nameOf_answers env cfg hP h.heap (code := st.2) (by rw [h.types]; exact hT) k q
  exact ⟨((G, code'), s), by simp only [nameIn, h1, Run.bind], h2, h3.trans h.types⟩

/-- What is needed of a part: a type, or an element that a document type had at the beginning. -/
def Asked (P : GenPlan) (T : GoMap XName Ty) (p : Part) : Prop :=
  p.type.loc ≠ [] ∨ p.element.loc ≠ [] ∧ ∃ id, T.get ⟨p.element.space, b!"_self"⟩ = some (.obj id) ∧ p.element ∈ P.elems id

theorem getPartTypeIn_ready {st : XState} (h : Settled P T st) (k : Nat) {p : Part} (hp : Asked P T p) :
    ∃ r, getPartTypeIn env cfg n (k + 2) st p = .ok r ∧ Settled P T r.1 := by
  unfold getPartTypeIn
  split
  · exact nameIn_ready hP hT h k _
  · rename_i ht
    rcases hp with hp | ⟨he, id, hid, hm⟩
    · exact absurd hp ht
    · rw [if_pos he]
      have hlt : id < P.len := hT _ _ hid
      obtain ⟨o, ho, hpo⟩ := h.heap.get hlt
      obtain ⟨c, rfl, hc⟩ := hpo.elems _ hm
      simp only [docType, h.types, hid, ho]
      cases hf : c.elements.find? fun el => decide (el.name = p.element) with
      | none =>
        obtain ⟨e, hec, hen⟩ := List.mem_map.mp hc
        have := List.find?_eq_none.mp hf e hec
        simp [hen] at this
      | some el => exact nameIn_ready hP hT h k _

theorem partTypesIn_ready (k : Nat) : ∀ (ps : List Part) {st : XState}, Settled P T st → (∀ p ∈ ps, Asked P T p) →
    ∃ r, partTypesIn env cfg n (k + 2) st ps = .ok r ∧ Settled P T r.1 := by
  intro ps
  induction ps with
  | nil => exact fun h _ => ⟨_, rfl, h⟩
  | cons p ps ih =>
    intro st h hp
    obtain ⟨r, h1, h2⟩ := getPartTypeIn_ready (env := env) (cfg := cfg) hP hT h k (hp p (by simp))
    obtain ⟨q, h3, h4⟩ := ih h2 (fun x hx => hp x (List.mem_cons_of_mem _ hx))
    exact ⟨(q.1, (p, r.2) :: q.2), by simp only [partTypesIn, h1, Run.bind, h3], h4⟩

theorem operationIn_ready (k : Nat) (gcfg : GenConfig) (d : Definition) (port : Port) {op : Operation} {st : XState} (h : Settled P T st)
    (ho : ∃ i o, d.message.get op.input = some i ∧ d.message.get op.output = some o ∧ ∀ p ∈ i.parts ++ o.parts, Asked P T p) :
    ∃ r, operationIn env cfg n (k + 2) gcfg d port op st = .ok r ∧ Settled P T r.1 ∧ r.2.1 = publicName env cfg op.name ∧ r.2.2.port = port ∧
      r.2.2.op = op := by
  obtain ⟨i, o, hi, ho, hp⟩ := ho
  obtain ⟨r1, e1, s1⟩ := partTypesIn_ready (env := env) (cfg := cfg) hP hT k i.parts h (fun p hm => hp p (List.mem_append_left _ hm))
  obtain ⟨r2, e2, s2⟩ := partTypesIn_ready (env := env) (cfg := cfg) hP hT k o.parts s1 (fun p hm => hp p (List.mem_append_right _ hm))
  simp only [operationIn, hi, ho, e1, Run.bind, e2]
  exact ⟨_, rfl, s2, rfl, rfl, rfl⟩

theorem portIn_ready (k : Nat) (gcfg : GenConfig) (d : Definition) (port : Port) : ∀ (ops : List Operation) {st : XState}, Settled P T st →
    (∀ op ∈ ops, ∃ i o, d.message.get op.input = some i ∧ d.message.get op.output = some o ∧ ∀ p ∈ i.parts ++ o.parts, Asked P T p) →
    ∃ r, portIn env cfg n (k + 2) gcfg d port st ops = .ok r ∧ Settled P T r.1 ∧
      r.2.map (fun g => (g.1, g.2.port, g.2.op)) = ops.map fun op => (publicName env cfg op.name, port, op) := by
  intro ops
  induction ops with
  | nil => exact fun h _ => ⟨_, rfl, h, rfl⟩
  | cons op ops ih =>
    intro st h ho
    obtain ⟨r, h1, h2, h3, h4, h5⟩ := operationIn_ready (env := env) (cfg := cfg) hP hT k gcfg d port h (ho op (by simp))
    obtain ⟨q, h6, h7, h8⟩ := ih h2 (fun x hx => ho x (List.mem_cons_of_mem _ hx))
    exact ⟨(q.1, r.2 :: q.2), by simp only [portIn, h1, Run.bind, h6], h7, by simp [h3, h4, h5, h8]⟩

theorem portsIn_ready (k : Nat) (gcfg : GenConfig) (d : Definition) : ∀ (ps : List Port) {st : XState}, Settled P T st →
    (∀ port ∈ ps, ∀ op ∈ port.operations, ∃ i o, d.message.get op.input = some i ∧ d.message.get op.output = some o ∧
      ∀ p ∈ i.parts ++ o.parts, Asked P T p) →
    ∃ r, portsIn env cfg n (k + 2) gcfg d st ps = .ok r ∧
      r.2.map (fun g => (g.1, g.2.port, g.2.op)) = ps.flatMap fun port => port.operations.map fun op => (publicName env cfg op.name, port, op) := by
  intro ps
  induction ps with
  | nil => exact fun h _ => ⟨_, rfl, rfl⟩
  | cons port ps ih =>
    intro st h ho
    obtain ⟨r, h1, h2, h3⟩ := portIn_ready (env := env) (cfg := cfg) hP hT k gcfg d port port.operations h (ho port (by simp))
    obtain ⟨q, h6, h8⟩ := ih h2 (fun x hx => ho x (List.mem_cons_of_mem _ hx))
    exact ⟨(q.1, r.2 ++ q.2), by simp only [portsIn, h1, Run.bind, h6], by simp [h3, h8]⟩

end

/-- Functions are generated. -/
theorem genFile_succeeds (env : Env) (srt : Sorter strLt) {n : Nat} (k : Nat) {parse : List Doc → Outcome (List Schema × THeap)}
    {cfg : Xsdgen.Config} (gcfg : GenConfig) {root : Element} {docs : List Doc} {ss : List Schema} {H : THeap}
    (hp : parse (some root :: docs) = .ok (ss, H)) (h : Coherent H) (hl : Listed H) (hn : H.length + 3 ≤ n)
    (ht : ∀ s ∈ ss, ∀ e ∈ s.types, Present H e.2) (hone : ∀ s ∈ ss, ∀ s' ∈ ss, ∀ k t t', (k, t) ∈ s.types → (k, t') ∈ s'.types → t = t')
    (hpre : Untouched cfg H ss) (hd : (wanted cfg (some root :: docs)).Nodup)
    (hf : ∀ x ∈ wanted cfg (some root :: docs), ∃ s ∈ ss, s.targetNS = x)
    (hops : ∀ port ∈ (Wsdl.parse root).ports, ∀ op ∈ port.operations, Answered (Wsdl.parse root) ss H op) :
    ∃ cfg' r file, genCode env srt n parse cfg (some root :: docs) = (cfg', .done (.ok r)) ∧
      genFile env srt n (k + 2) parse cfg gcfg (some root :: docs) = .ok file ∧
      file.funcs.map (fun g => (g.1, g.2.port, g.2.op)) =
        (Wsdl.parse root).ports.flatMap fun port => port.operations.map fun op => (publicName env cfg' op.name, port, op) := by
  obtain ⟨cfg', r, l, P, e, hlm, htypes, hP, hr, hty, hel⟩ := genCode_succeeds env srt hp h hl hn ht hpre hd hf
  have hone' : ∀ s ∈ l ++ ss, ∀ s' ∈ l ++ ss, ∀ k t t', (k, t) ∈ s.types → (k, t') ∈ s'.types → t = t' := by
    have : ∀ s ∈ l ++ ss, s ∈ ss := fun s hs => (List.mem_append.mp hs).elim (hlm s) id
    exact fun s hs s' hs' => hone s (this s hs) s' (this s' hs')
  have hT : ∀ q t, (allTypes (l ++ ss)).get q = some t → PTy P t := by
    intro q t hq
    obtain ⟨s, hs, hm⟩ | hm := allTypes_from (l ++ ss) [] q t hq
    · exact hty _ (ht s ((List.mem_append.mp hs).elim (hlm s) id) _ hm)
    · cases hm
  obtain ⟨q, hq, hfun⟩ := portsIn_ready (env := env) (cfg := cfg') (n := n) hP hT k gcfg (Wsdl.parse root) (Wsdl.parse root).ports (st := r) ⟨hr, htypes⟩ (by
    intro port hport op hop
    obtain ⟨i, o, hi, ho, hparts⟩ := hops port hport op hop
    refine ⟨i, o, hi, ho, fun p hpm => ?_⟩
    rcases hparts p hpm with hx | ⟨hx, t, s, hs, id, c, hm, hc, e, hec, hen, -⟩
    · exact Or.inl hx
    · refine Or.inr ⟨hx, id, allTypes_get hone' (List.mem_append_right _ hs) hm, ?_⟩
      rw [hel, elemNames, hc]
      exact List.mem_map.mpr ⟨e, hec, hen⟩)
  refine ⟨cfg', r, { types := (Xsdgen.genAST srt r.2).2, funcs := q.2 }, e, ?_, hfun⟩
  simp only [genFile, e, Run.bind, hq]

end GoXml.Wsdl
