import Verif.Proofs.WsdlgenFile
import Verif.Proofs.WsdlGen
set_option autoImplicit false

/-! Lemmas about the names of declared types in the functions that wsdlgen generates. -/

namespace GoXml.Xsdgen
open Xsd GoMap

/-- Everything that is generated has the name of its type, and something is generated for a type that stays. -/
theorem genSchemas_keyed {env : Env} {cfg : Config} {n : Nat} {H0 : THeap} : ∀ (schemas : List (List Ty)) (H : THeap) (r : THeap × List Spec × Bool),
    Linked H → Keep H0 H → OwnNames H → (∀ types ∈ schemas, ∀ t ∈ types, NotLink t) → genSchemas env cfg n H schemas = .ok r → r.2.2 = false →
    (∀ t, xmlName r.1 t = xmlName H t) ∧ Linked r.1 ∧ (∀ s ∈ r.2.1, s.name = publicName env cfg (xmlName H s.xsdType)) ∧
    ∀ types ∈ schemas, ∀ id o, Ty.obj id ∈ types → H[id]? = some o → Stays cfg H0 id o → skipped cfg o.name = false → o.name ≠ ⟨[], []⟩ →
      ∃ s ∈ r.2.1, xmlName H s.xsdType = o.name := by
  intro schemas
  induction schemas with
  | nil =>
    intro H r hl _ _ _ h _
    cases h
    exact ⟨fun _ => rfl, hl, fun _ h => (by cases h), fun _ h => (by cases h)⟩
  | cons types rest ih =>
    intro H r hH hk0 hown hnl h hr
    obtain ⟨f, hf, h⟩ := bind_ok h
    obtain ⟨L, hL, hf⟩ := bind_ok hf
    cases hf
    obtain ⟨H2, hH2, h⟩ := bind_ok h
    obtain ⟨g, hg, h⟩ := bind_ok h
    obtain ⟨q, hq, h⟩ := bind_ok h
    cases h
    simp only [Bool.or_eq_false_iff] at hr
    obtain ⟨f1, k1, n1, g1⟩ := flattenLoop_flow types H L hH hk0 (hnl types (List.mem_cons_self ..)) hL
    have e1 := expand_ext hH2
    obtain ⟨e2, d3, d2⟩ := genList_class _ H2 g hg hr.1
    have e12 := e1.trans e2
    have hl3 : Linked g.1 := e12.keep _ (fun _ _ h => h.linked) (f1.linked hH)
    have hown3 : OwnNames g.1 := e12.keep _ (fun _ _ h => ownNames_names h.names h.length) (ownNames_names f1.names f1.len hown)
    have nm : ∀ t, xmlName g.1 t = xmlName H t := fun t => by rw [e12.names, f1.names]
    obtain ⟨i1, i2, i3, i4⟩ := ih g.1 q hl3 (k1.exts e12) hown3 (fun ts hts => hnl ts (List.mem_cons_of_mem _ hts)) hq hr.2
    refine ⟨fun t => (i1 t).trans (nm t), i2, ?_, ?_⟩
    · intro s hs
      rcases List.mem_append.mp hs with hs | hs
      · rw [(d3 s hs).2.1, e1.names, f1.names]
      · rw [i3 s hs, nm]
    · intro ts hts id o hid ho hc hs hn0
      rcases List.mem_cons.mp hts with rfl | hts
      · have hin := g1 id o hid ho hc hs
        have hname : xmlName L.1 (.obj id) = o.name := by rw [f1.names]; simp only [xmlName, ho]
        have hk : o.name ∈ (firsts (xmlName L.1) L.2).map (xmlName L.1) :=
          (firsts_keys _ _ _).mpr (List.mem_map.mpr ⟨_, hin, hname⟩)
        obtain ⟨u, hu, hun⟩ := List.mem_map.mp hk
        have hmem := firsts_mem _ hu
        rw [← dedup_eq] at hu
        cases u with
        | builtin b => exact absurd hun.symm (hown id o ho b)
        | link b => exact (n1 _ hmem).elim
        | obj k =>
          have hun2 := hun
          rw [← e1.names] at hun
          simp only [xmlName] at hun
          split at hun
          · rename_i o' ho'
            obtain ⟨s, hs', hst⟩ := d2 k o' hu ho'
            refine ⟨s, List.mem_append_left _ hs', ?_⟩
            rw [hst, ← f1.names]
            exact hun2
          · exact absurd hun.symm hn0
      · obtain ⟨o1, ho1, hc1, hn1⟩ := f1.stays ho hc
        obtain ⟨o2, ho2, hc2, hn2⟩ := e12.stays ho1 hc1
        obtain ⟨s, hs', hsn⟩ := i4 ts hts id o2 hid ho2 hc2 (by rw [hn2, hn1]; exact hs) (by rw [hn2, hn1]; exact hn0)
        exact ⟨s, List.mem_append_right _ hs', by rw [← nm, hsn, hn2, hn1]⟩

/-- The code knows the Go name of a type that is declared. -/
theorem gen_knows {env : Env} {srt : Sorter strLt} {cfg : Config} {n : Nat} {primaries deps : List Schema} {H : THeap} {r : THeap × Code × Config}
    (hpre : Untouched cfg H primaries) (hH : Linked H) (hown : OwnNames H) (htop : ∀ s ∈ primaries, ∀ e ∈ s.types, ∀ m, e.2 ≠ .link m)
    (h : gen env srt cfg n primaries deps H = .ok r) {s : Schema} (hs : s ∈ primaries) {k : XName} {id : Nat} {o : TObj}
    (he : (k, Ty.obj id) ∈ s.types) (ho : H[id]? = some o) (hc : Worth cfg H id o) (hsk : skipped cfg o.name = false) (hn : o.name ≠ ⟨[], []⟩) :
    get r.2.1.names o.name = some (publicName env cfg o.name) ∧ (∀ name, publicName env r.2.2 name = publicName env cfg name) ∧ Linked r.1 ∧
    r.2.1.types = allTypes (primaries ++ deps) ∧ (∀ t, xmlName r.1 t = xmlName H t) ∧
    ∀ id o, o.name.loc = b!"_self" → Quiet id o H → Quiet id o r.1 := by
  rw [gen_untouched hpre] at h
  obtain ⟨q, hq, h⟩ := bind_ok h
  split at h
  · cases h
  · rename_i hflag
    cases h
    obtain ⟨c1, c2, c3, c4⟩ := genSchemas_keyed _ H q hH (Keep.refl H) hown (by
      intro types ht t htt
      obtain ⟨s, hs, rfl⟩ := List.mem_map.mp ht
      obtain ⟨e, he, rfl⟩ := List.mem_map.mp htt
      have := htop s hs e he
      cases he2 : e.2 with
      | link m => exact absurd he2 (this m)
      | _ => trivial) hq (by simpa using hflag)
    obtain ⟨x, hx, hxn⟩ := c4 _ (List.mem_map.mpr ⟨s, hs, rfl⟩) id o (List.mem_map.mpr ⟨_, he, rfl⟩) ho hc.stays hsk hn
    refine ⟨?_, fun _ => rfl, c2, rfl, c1, fun id o ho hk => genSchemas_quiet ho _ _ _ hk hq⟩
    cases hl : get (nameAll q.1 q.2.1 []) o.name with
    | none => exact absurd hl (nameAll_key _ _ _ _ (Or.inl ⟨x, hx, by rw [c1]; exact hxn⟩))
    | some v =>
      rcases nameAll_some _ _ _ _ _ hl with ⟨y, hy, hyn, hyv⟩ | h
      · rw [← hyv, c3 y hy, ← c1, hyn]
      · cases h

/-- What the code knows of a name is what it answers, and no question changes it. -/
theorem nameOf_knows {env : Env} {cfg : Config} {n : Nat} {T : GoMap XName Ty} {name : XName} :
    ∀ (k : Nat) (H : THeap) (code : Code) (q : XName) (r : THeap × Code × Str), code.types = T → (∀ x t, get T x = some t → NotLink t) → Linked H →
    get code.names name = some (publicName env cfg name) → nameOf env cfg n k H code q = .ok r →
    r.2.1.types = T ∧ Linked r.1 ∧ get r.2.1.names name = some (publicName env cfg name) ∧ (q = name → r.2.2 = publicName env cfg name) := by
  intro k
  induction k with
  | zero => intro H code q r _ _ _ _ hr; cases hr
  | succ k ih =>
    intro H code q r hT hkeys hl hknow hr
    simp only [nameOf] at hr
    split at hr
    · rename_i v hv
      cases hr
      exact ⟨hT, hl, hknow, fun e => by rw [e, hknow] at hv; cases hv; rfl⟩
    · rename_i hv
      have hne : q ≠ name := fun e => by rw [e, hknow] at hv; cases hv
      split at hr
      · obtain ⟨x, hx, hr⟩ := bind_ok hr
        split at hr
        · cases hr; exact ⟨hT, hl, hknow, fun e => absurd e hne⟩
        · cases hr
          refine ⟨hT, hl, ?_, fun e => absurd e hne⟩
          dsimp only
          rw [get_set, if_neg hne]
          exact hknow
      · split at hr
        · cases hr; exact ⟨hT, hl, hknow, fun e => absurd e hne⟩
        · rename_i t ht
          rw [hT] at ht
          have hnl := hkeys q t ht
          obtain ⟨f, hf, hr⟩ := bind_ok hr
          have flow := (flatten1_flow cfg n 1001 H _ f hl (by intro v hv; cases hv; exact hnl) hf).1
          split at hr
          · obtain ⟨i1, i2, i3, -⟩ := ih _ _ _ _ hT hkeys (flow.linked hl) hknow hr
            exact ⟨i1, i2, i3, fun e => absurd e hne⟩
          · split at hr
            · cases hr
              exact ⟨hT, specHeap_ext.linked (flow.linked hl), hknow, fun e => absurd e hne⟩
            · rename_i s hs
              cases hr
              have hx := (genTypeSpec_named hs).1
              refine ⟨hT, hx.linked (flow.linked hl), ?_, fun e => absurd e hne⟩
              dsimp only
              cases hl : get (nameAll s.1 s.2 code.names) name with
              | none => exact absurd hl (nameAll_key _ _ _ _ (Or.inr (by rw [hknow]; simp)))
              | some v =>
                rcases nameAll_some _ _ _ _ _ hl with ⟨y, hy, hyn, hyv⟩ | h
                · obtain ⟨y1, y2, -⟩ := genTypeSpec_type hs y hy
                  rw [← hyv, y2, ← y1, ← hx.names, hyn]
                · rw [← h, hknow]
            · cases hr
            · cases hr

end GoXml.Xsdgen

namespace GoXml.Wsdl
open Xsd Xsdgen GoMap

/-- The name is that of the type of the part, or of its element. -/
def RefersBy (T : GoMap XName Ty) (H : THeap) (name : XName) (p : Part) : Prop :=
  (p.type.loc ≠ [] ∧ p.type = name) ∨ (p.type.loc = [] ∧ ∃ id c, get T ⟨p.element.space, b!"_self"⟩ = some (.obj id) ∧ H[id]? = some (.complex c) ∧
    ∀ el ∈ c.elements, el.name = p.element → xmlName H el.type = name)

/-- What is known between the questions. -/
structure Knows (env : Env) (cfg : Xsdgen.Config) (T : GoMap XName Ty) (H : THeap) (name : XName) (st : XState) : Prop where
  types : st.2.types = T
  linked : Linked st.1
  knows : get st.2.names name = some (publicName env cfg name)
  names : ∀ t, xmlName st.1 t = xmlName H t
  docs : ∀ ns id, get T ⟨ns, b!"_self"⟩ = some (.obj id) → ∃ o, o.name.loc = b!"_self" ∧ Quiet id o st.1 ∧ H[id]? = some o

section
variable {env : Env} {cfg : Xsdgen.Config} {n k : Nat} {T : GoMap XName Ty} {H : THeap} {name : XName}
  (hkeys : ∀ x t, get T x = some t → ((xmlName H t).loc = b!"_self" → xmlName H t = x) ∧ NotLink t)
include hkeys

theorem nameIn_knows {st : XState} {q : XName} {r : XState × Str} (h : Knows env cfg T H name st) (hq : q.loc ≠ b!"_self")
    (hr : nameIn env cfg n k st q = .ok r) : Knows env cfg T H name r.1 ∧ (q = name → r.2 = publicName env cfg name) := by
  obtain ⟨x, hx, hr⟩ := bind_ok hr
  cases hr
  obtain ⟨h1, h2, h3, h4⟩ := nameOf_knows k st.1 st.2 q x h.types (fun x t ht => (hkeys x t ht).2) h.linked h.knows hx
  have hn := nameOf_names k st.1 st.2 q x h.types (fun x t ht => (hkeys x t ht).2) h.linked hx
  refine ⟨⟨h1, h2, h3, fun t => (hn t).trans (h.names t), ?_⟩, h4⟩
  intro ns id hid
  obtain ⟨o, o1, o2, o3⟩ := h.docs ns id hid
  exact ⟨o, o1, (nameOf_quiet o1 _ _ _ _ _ o2 h.types (fun x t ht => by rw [h.names]; exact hkeys x t ht) h.linked hq hx).1, o3⟩

variable (hels : ∀ ns id c, get T ⟨ns, b!"_self"⟩ = some (.obj id) → H[id]? = some (.complex c) → ∀ el ∈ c.elements, (xmlName H el.type).loc ≠ b!"_self")
include hels

theorem getPartTypeIn_knows {st : XState} {p : Part} {r : XState × Str} (h : Knows env cfg T H name st) (hp : p.type.loc ≠ b!"_self")
    (hr : getPartTypeIn env cfg n k st p = .ok r) :
    Knows env cfg T H name r.1 ∧ (RefersBy T H name p → r.2 = publicName env cfg name) := by
  unfold getPartTypeIn at hr
  split at hr
  · rename_i hl
    obtain ⟨h1, h2⟩ := nameIn_knows hkeys h hp hr
    refine ⟨h1, ?_⟩
    rintro (⟨-, e⟩ | ⟨e, -⟩)
    · exact h2 e
    · exact absurd e hl
  · rename_i hl
    split at hr
    · split at hr
      · cases hr
      · rename_i d hd
        split at hr
        · cases hr
        · rename_i el hel
          have hmem := List.mem_of_find?_eq_some hel
          have heln : el.name = p.element := by simpa using List.find?_some hel
          simp only [docType, h.types] at hd
          split at hd
          · rename_i id hid
            obtain ⟨o, o1, o2, o3⟩ := h.docs _ _ hid
            rw [o2.here] at hd
            split at hd
            · rename_i c hc
              cases hd
              cases hc
              rw [h.names] at hr
              obtain ⟨h1, h2⟩ := nameIn_knows hkeys h (hels _ _ _ hid o3 el hmem) hr
              refine ⟨h1, ?_⟩
              rintro (⟨e, -⟩ | ⟨-, id', c', e1, e2, e3⟩)
              · exact absurd e hl
              · rw [hid] at e1
                cases e1
                rw [o3] at e2
                cases e2
                exact h2 (e3 el hmem heln)
            · cases hd
          · cases hd
    · cases hr

theorem partTypesIn_knows : ∀ (ps : List Part) (st : XState) (r : XState × List (Part × Str)), Knows env cfg T H name st →
    (∀ p ∈ ps, p.type.loc ≠ b!"_self") → partTypesIn env cfg n k st ps = .ok r → Knows env cfg T H name r.1 ∧ r.2.map (·.1) = ps ∧
    ∀ x ∈ r.2, RefersBy T H name x.1 → x.2 = publicName env cfg name := by
  intro ps
  induction ps with
  | nil => intro st r h _ hr; cases hr; exact ⟨h, rfl, fun _ hx => (by cases hx)⟩
  | cons p ps ih =>
    intro st r h hps hr
    obtain ⟨x, hx, hr⟩ := bind_ok hr
    obtain ⟨y, hy, hr⟩ := bind_ok hr
    cases hr
    obtain ⟨h1, h2⟩ := getPartTypeIn_knows hkeys hels h (hps p (List.mem_cons_self ..)) hx
    obtain ⟨i1, i2, i3⟩ := ih _ _ h1 (fun q hq => hps q (List.mem_cons_of_mem _ hq)) hy
    refine ⟨i1, by simp [i2], ?_⟩
    intro z hz
    rcases List.mem_cons.mp hz with rfl | hz
    · exact h2
    · exact i3 z hz

omit hkeys hels in
/-- The function is made from the parts and their types. -/
def MadeOf (gcfg : GenConfig) (d : Definition) (is : Part → Prop) (N : Str) (f : FuncDecl) : Prop :=
  ∃ input output ins outs, d.message.get f.op.input = some input ∧ d.message.get f.op.output = some output ∧
    ins.map (·.1) = input.parts ∧ outs.map (·.1) = output.parts ∧
    (∀ x ∈ ins, is x.1 → x.2 = N) ∧ (∀ x ∈ outs, is x.1 → x.2 = N) ∧
    f = funcOf f.port f.op (argsOf gcfg.maxArgs gcfg.maxReturns d.targetNS input output ins outs)

theorem operationIn_knows {gcfg : GenConfig} {d : Definition} {port : Port} {op : Operation} {st : XState} {r : XState × Str × FuncDecl}
    (h : Knows env cfg T H name st)
    (hps : ∀ m, d.message.get op.input = some m ∨ d.message.get op.output = some m → ∀ p ∈ m.parts, p.type.loc ≠ b!"_self")
    (hr : operationIn env cfg n k gcfg d port op st = .ok r) :
    Knows env cfg T H name r.1 ∧ MadeOf gcfg d (RefersBy T H name) (publicName env cfg name) r.2.2 := by
  unfold operationIn at hr
  split at hr
  · rename_i input output hi ho
    obtain ⟨x, hx, hr⟩ := bind_ok hr
    obtain ⟨y, hy, hr⟩ := bind_ok hr
    cases hr
    obtain ⟨h1, h2, h3⟩ := partTypesIn_knows hkeys hels _ _ _ h (hps _ (Or.inl hi)) hx
    obtain ⟨i1, i2, i3⟩ := partTypesIn_knows hkeys hels _ _ _ h1 (hps _ (Or.inr ho)) hy
    exact ⟨i1, input, output, x.2, y.2, hi, ho, h2, i2, h3, i3, rfl⟩
  · cases hr

theorem portIn_knows {gcfg : GenConfig} {d : Definition} {port : Port} : ∀ (ops : List Operation) (st : XState) (r : XState × List (Str × FuncDecl)),
    Knows env cfg T H name st →
    (∀ op ∈ ops, ∀ m, d.message.get op.input = some m ∨ d.message.get op.output = some m → ∀ p ∈ m.parts, p.type.loc ≠ b!"_self") →
    portIn env cfg n k gcfg d port st ops = .ok r →
    Knows env cfg T H name r.1 ∧ ∀ g ∈ r.2, MadeOf gcfg d (RefersBy T H name) (publicName env cfg name) g.2 := by
  intro ops
  induction ops with
  | nil => intro st r h _ hr; cases hr; exact ⟨h, fun _ hx => (by cases hx)⟩
  | cons op ops ih =>
    intro st r h hps hr
    obtain ⟨x, hx, hr⟩ := bind_ok hr
    obtain ⟨y, hy, hr⟩ := bind_ok hr
    cases hr
    obtain ⟨h1, h2⟩ := operationIn_knows hkeys hels h (hps op (List.mem_cons_self ..)) hx
    obtain ⟨i1, i2⟩ := ih _ _ h1 (fun o ho => hps o (List.mem_cons_of_mem _ ho)) hy
    refine ⟨i1, ?_⟩
    intro g hg
    rcases List.mem_cons.mp hg with rfl | hg
    · exact h2
    · exact i2 g hg

theorem portsIn_knows {gcfg : GenConfig} {d : Definition} : ∀ (ps : List Port) (st : XState) (r : XState × List (Str × FuncDecl)),
    Knows env cfg T H name st →
    (∀ port ∈ ps, ∀ op ∈ port.operations, ∀ m, d.message.get op.input = some m ∨ d.message.get op.output = some m → ∀ p ∈ m.parts, p.type.loc ≠ b!"_self") →
    portsIn env cfg n k gcfg d st ps = .ok r → ∀ g ∈ r.2, MadeOf gcfg d (RefersBy T H name) (publicName env cfg name) g.2 := by
  intro ps
  induction ps with
  | nil => intro st r h _ hr; cases hr; exact fun _ hx => (by cases hx)
  | cons p ps ih =>
    intro st r h hps hr
    obtain ⟨x, hx, hr⟩ := bind_ok hr
    obtain ⟨y, hy, hr⟩ := bind_ok hr
    cases hr
    obtain ⟨h1, h2⟩ := portIn_knows hkeys hels _ _ _ h (hps p (List.mem_cons_self ..)) hx
    have := ih _ _ h1 (fun o ho => hps o (List.mem_cons_of_mem _ ho)) hy
    intro g hg
    rcases List.mem_append.mp hg with hg | hg
    · exact h2 g hg
    · exact this g hg

end

end GoXml.Wsdl
