import Verif.Proofs.XsdgenQuiet
import Verif.Proofs.XsdgenHelpers
set_option autoImplicit false

/-! Lemmas about the file that wsdlgen generates. -/

namespace GoXml.Wsdl
open Xsd Xsdgen GoMap

/-- What is known of the state between the questions: what `c` says of the names and the document types holds. -/
structure Steady (env : Env) (cfg : Xsdgen.Config) (n k : Nat) (off : XName → Prop) (H0 : THeap) (code0 : Xsdgen.Code) (c : Code) (st : XState) : Prop where
  after : AfterCalls env cfg n k H0 code0 st.1 st.2
  types : st.2.types = code0.types
  linked : Linked st.1
  keys : ∀ x t, get code0.types x = some t → ((xmlName st.1 t).loc = b!"_self" → xmlName st.1 t = x) ∧ NotLink t
  docs : ∀ ns id, get code0.types ⟨ns, b!"_self"⟩ = some (.obj id) → ∃ o, o.name.loc = b!"_self" ∧ Quiet id o st.1 ∧ H0[id]? = some o ∧
    ∀ t, xmlName st.1 t = xmlName H0 t

section
variable {env : Env} {cfg : Xsdgen.Config} {n k : Nat} {off : XName → Prop} {H0 : THeap} {code0 : Xsdgen.Code} {c : Code}
  (hself : ∀ q, off q → q.loc ≠ b!"_self")
  (hname : ∀ q, off q → ∀ H1 code1 r, AfterCalls env cfg n k H0 code0 H1 code1 → nameOf env cfg n k H1 code1 q = .ok r → r.2.2 = c.nameOf q)
  (hready : ∀ H1 code1, AfterCalls env cfg n k H0 code0 H1 code1 → Ready False env cfg code0.types code0.decls ⟨[], []⟩ 0 [] H1 code1)
  (hdoc : ∀ ns, c.docType ns = (docType H0 code0 ns).map fun d => d.elements.map fun el => (el.name, xmlName H0 el.type))
include hself hname hready

theorem nameIn_steady {st : XState} {q : XName} {r : XState × Str} (h : Steady env cfg n k off H0 code0 c st) (hq : off q)
    (hr : nameIn env cfg n k st q = .ok r) : Steady env cfg n k off H0 code0 c r.1 ∧ r.2 = c.nameOf q := by
  obtain ⟨x, hx, hr⟩ := bind_ok hr
  cases hr
  have ha := AfterCalls.call h.after hx
  have hR := hready _ _ ha
  have hn := nameOf_names _ _ _ _ _ h.types (fun x t ht => (h.keys x t ht).2) h.linked hx
  refine ⟨⟨ha, hR.types, hR.linked, fun y t ht => ?_, ?_⟩, hname q hq _ _ _ h.after hx⟩
  · dsimp only
    rw [hn]
    exact h.keys y t ht
  intro ns id hid
  obtain ⟨o, h1, h2, h3, h4⟩ := h.docs ns id hid
  obtain ⟨k1, -, k3⟩ := nameOf_quiet h1 _ _ _ _ _ h2 h.types h.keys h.linked (hself q hq) hx
  exact ⟨o, h1, k1, h3, fun t => by rw [k3, h4]⟩

omit hself hname hready in
theorem docType_steady {st : XState} (h : Steady env cfg n k off H0 code0 c st) (ns : Str) : docType st.1 st.2 ns = docType H0 code0 ns ∧
    ∀ d, docType H0 code0 ns = some d → ∀ t, xmlName st.1 t = xmlName H0 t := by
  simp only [docType, h.types]
  cases hg : get code0.types ⟨ns, b!"_self"⟩ with
  | none => exact ⟨rfl, fun d hd => (by cases hd)⟩
  | some t =>
    cases t with
    | builtin b => exact ⟨rfl, fun d hd => (by cases hd)⟩
    | link m => exact ⟨rfl, fun d hd => (by cases hd)⟩
    | obj id =>
      obtain ⟨o, -, h2, h3, h4⟩ := h.docs ns id hg
      simp only [h2.here, h3]
      exact ⟨trivial, fun _ _ => h4⟩

include hdoc

theorem getPartTypeIn_steady {st : XState} {p : Part} {r : XState × Str} (h : Steady env cfg n k off H0 code0 c st)
    (hp : (p.type.loc ≠ [] → off p.type) ∧ (p.type.loc = [] → p.element.loc ≠ [] → ∀ d ∈ docType H0 code0 p.element.space, ∀ el ∈ d.elements,
      el.name = p.element → off (xmlName H0 el.type))) (hr : getPartTypeIn env cfg n k st p = .ok r) :
    Steady env cfg n k off H0 code0 c r.1 ∧ getPartType c p = some r.2 := by
  unfold getPartTypeIn at hr
  unfold getPartType
  split at hr
  · rename_i ht
    rw [if_pos ht]
    obtain ⟨k1, k2⟩ := nameIn_steady hself hname hready h (hp.1 ht) hr
    exact ⟨k1, by rw [k2]⟩
  · rename_i ht
    rw [if_neg ht]
    split at hr
    · rename_i he
      rw [if_pos he]
      obtain ⟨e1, e2⟩ := docType_steady h p.element.space
      rw [e1] at hr
      split at hr
      · cases hr
      · rename_i d hd
        split at hr
        · cases hr
        · rename_i el hel
          rw [hdoc, hd]
          rw [e2 d hd] at hr
          have hoff := hp.2 (Classical.not_not.mp ht) he d hd el (List.mem_of_find?_eq_some hel) (by simpa using List.find?_some hel)
          obtain ⟨k1, k2⟩ := nameIn_steady hself hname hready h hoff hr
          refine ⟨k1, ?_⟩
          simp only [Option.map_some, List.find?_map, Function.comp_def, hel, k2]
    · cases hr

theorem partTypesIn_steady : ∀ (ps : List Part) (st : XState) (r : XState × List (Part × Str)), Steady env cfg n k off H0 code0 c st →
    (∀ p ∈ ps, (p.type.loc ≠ [] → off p.type) ∧ (p.type.loc = [] → p.element.loc ≠ [] → ∀ d ∈ docType H0 code0 p.element.space, ∀ el ∈ d.elements,
      el.name = p.element → off (xmlName H0 el.type))) → partTypesIn env cfg n k st ps = .ok r →
    Steady env cfg n k off H0 code0 c r.1 ∧ partTypes c ps = some r.2 := by
  intro ps
  induction ps with
  | nil => intro st r h _ hr; cases hr; exact ⟨h, rfl⟩
  | cons p ps ih =>
    intro st r h hp hr
    obtain ⟨x, hx, hr⟩ := bind_ok hr
    obtain ⟨y, hy, hr⟩ := bind_ok hr
    cases hr
    obtain ⟨k1, k2⟩ := getPartTypeIn_steady hself hname hready hdoc h (hp p List.mem_cons_self) hx
    obtain ⟨k3, k4⟩ := ih _ y k1 (fun p' hp' => hp p' (List.mem_cons_of_mem _ hp')) hy
    exact ⟨k3, by simp only [partTypes, k2, k4]⟩

theorem operationIn_steady {gcfg : GenConfig} {d : Definition} {port : Port} {op : Operation} {st : XState} {r : XState × Str × FuncDecl}
    (h : Steady env cfg n k off H0 code0 c st)
    (hp : ∀ m, (d.message.get op.input = some m ∨ d.message.get op.output = some m) → ∀ p ∈ m.parts,
      (p.type.loc ≠ [] → off p.type) ∧ (p.type.loc = [] → p.element.loc ≠ [] → ∀ d ∈ docType H0 code0 p.element.space, ∀ el ∈ d.elements,
      el.name = p.element → off (xmlName H0 el.type)))
    (hr : operationIn env cfg n k gcfg d port op st = .ok r) :
    Steady env cfg n k off H0 code0 c r.1 ∧ operation gcfg c d port op = some r.2.2 := by
  unfold operationIn at hr
  split at hr
  · rename_i input output hi ho
    obtain ⟨x, hx, hr⟩ := bind_ok hr
    obtain ⟨y, hy, hr⟩ := bind_ok hr
    cases hr
    obtain ⟨k1, k2⟩ := partTypesIn_steady hself hname hready hdoc _ _ x h (hp _ (Or.inl hi)) hx
    obtain ⟨k3, k4⟩ := partTypesIn_steady hself hname hready hdoc _ _ y k1 (hp _ (Or.inr ho)) hy
    refine ⟨k3, ?_⟩
    simp only [operation, hi, ho, opArgs, k2, k4]
  · cases hr

theorem portIn_steady {gcfg : GenConfig} {d : Definition} {port : Port} : ∀ (ops : List Operation) (st : XState) (r : XState × List (Str × FuncDecl)),
    Steady env cfg n k off H0 code0 c st →
    (∀ op ∈ ops, ∀ m, (d.message.get op.input = some m ∨ d.message.get op.output = some m) → ∀ p ∈ m.parts,
      (p.type.loc ≠ [] → off p.type) ∧ (p.type.loc = [] → p.element.loc ≠ [] → ∀ d ∈ docType H0 code0 p.element.space, ∀ el ∈ d.elements,
      el.name = p.element → off (xmlName H0 el.type))) →
    portIn env cfg n k gcfg d port st ops = .ok r →
    Steady env cfg n k off H0 code0 c r.1 ∧ portDecls gcfg c d port ops = some (r.2.map (·.2)) := by
  intro ops
  induction ops with
  | nil => intro st r h _ hr; cases hr; exact ⟨h, rfl⟩
  | cons op ops ih =>
    intro st r h hp hr
    obtain ⟨x, hx, hr⟩ := bind_ok hr
    obtain ⟨y, hy, hr⟩ := bind_ok hr
    cases hr
    obtain ⟨k1, k2⟩ := operationIn_steady hself hname hready hdoc h (hp op List.mem_cons_self) hx
    obtain ⟨k3, k4⟩ := ih _ y k1 (fun p' hp' => hp p' (List.mem_cons_of_mem _ hp')) hy
    exact ⟨k3, by simp only [portDecls, k2, k4, List.map_cons]⟩

theorem portsIn_steady {gcfg : GenConfig} {d : Definition} : ∀ (ps : List Port) (st : XState) (r : XState × List (Str × FuncDecl)),
    Steady env cfg n k off H0 code0 c st →
    (∀ port ∈ ps, ∀ op ∈ port.operations, ∀ m, (d.message.get op.input = some m ∨ d.message.get op.output = some m) → ∀ p ∈ m.parts,
      (p.type.loc ≠ [] → off p.type) ∧ (p.type.loc = [] → p.element.loc ≠ [] → ∀ d ∈ docType H0 code0 p.element.space, ∀ el ∈ d.elements,
      el.name = p.element → off (xmlName H0 el.type))) →
    portsIn env cfg n k gcfg d st ps = .ok r →
    Steady env cfg n k off H0 code0 c r.1 ∧ genLoop gcfg c d ps = some (r.2.map (·.2)) := by
  intro ps
  induction ps with
  | nil => intro st r h _ hr; cases hr; exact ⟨h, rfl⟩
  | cons p ps ih =>
    intro st r h hp hr
    obtain ⟨x, hx, hr⟩ := bind_ok hr
    obtain ⟨y, hy, hr⟩ := bind_ok hr
    cases hr
    obtain ⟨k1, k2⟩ := portIn_steady hself hname hready hdoc _ _ x h (hp p List.mem_cons_self) hx
    obtain ⟨k3, k4⟩ := ih _ y k1 (fun p' hp' => hp p' (List.mem_cons_of_mem _ hp')) hy
    exact ⟨k3, by simp only [genLoop, k2, k4, List.map_append]⟩

end

theorem builtinName_inj {a b : Builtin} (a0 : 0 ≤ a) (a1 : a < 50) (b0 : 0 ≤ b) (b1 : b < 50) (h : builtinName a = builtinName b) : a = b := by
  have key : ∀ i ∈ List.range 50, ∀ j ∈ List.range 50, builtinName (i : Int) = builtinName (j : Int) → i = j := by decide +kernel
  have := key a.toNat (by simp; omega) b.toNat (by simp; omega) (by rw [Int.toNat_of_nonneg a0, Int.toNat_of_nonneg b0]; exact h)
  exact (Int.toNat_of_nonneg a0).symm.trans ((congrArg Int.ofNat this).trans (Int.toNat_of_nonneg b0))

/-- What the code that xsdgen has made from the schemas answers, for all questions that wsdlgen asks. -/
theorem portsIn_code {env : Env} {srt srt' : Sorter strLt} {n k : Nat} {parse : List Doc → Outcome (List Schema × THeap)}
    {cfg cfg' : Xsdgen.Config} {docs : List Doc} {schemas : List Schema} {H H' : THeap} {code : Xsdgen.Code} (hp : parse docs = .ok (schemas, H))
    (hres : Resolved H) (hown : OwnNames H) (hbased : Based H) (hsb : SchemaBased H) (hattr : Attributed cfg H)
    (htop : ∀ s ∈ schemas, ∀ e ∈ s.types, ∀ m, e.2 ≠ .link m) (hkeys : Keyed schemas H) (hself : DocsKeyed schemas H)
    (hone : ∀ s ∈ schemas, ∀ s' ∈ schemas, ∀ k t t', (k, t) ∈ s.types → (k, t') ∈ s'.types → t = t')
    (hpre : Untouched cfg H schemas)
    (hquiet : ∀ s ∈ schemas, ∀ ns id, (⟨ns, b!"_self"⟩, Ty.obj id) ∈ s.types → ∀ (j : Nat) o, H[j]? = some o → ¬ Mentions o (.obj id))
    (h : genCode env srt n parse cfg docs = (cfg', .done (.ok (H', code))))
    (gcfg : GenConfig) (d : Definition) (hparts : ∀ p, InOperation d p → Refers cfg' schemas H p)
    {q : XState × List (Str × FuncDecl)} (hq : portsIn env cfg' n k gcfg d (H', code) d.ports = .ok q) :
    ∃ c : Code, genAST gcfg c d = some (q.2.map (·.2)) ∧
      (∀ p, InOperation d p → ∀ t, HasType c p t → Usable (Xsdgen.genAST srt' code).2 t) ∧
      ∀ b e, 0 ≤ b → b < 50 → (builtinName b).space = schemaNS → builtinExpr b = .ok (some e) → c.nameOf (builtinName b) = exprText e := by
  obtain ⟨ns, primaries, r, hg, rfl, rfl, rfl, -, hmem⟩ := genCode_ok hp h
  have hall : ∀ s ∈ primaries ++ schemas, s ∈ schemas := by
    intro s hs
    rcases List.mem_append.mp hs with h | h
    · exact ((hmem s).mp h).1
    · exact h
  obtain ⟨hR, hans⟩ := gen_ready (cfg := addStandardHelpers { cfg with namespaces := ns }) (hpre.some_of fun s hs => ((hmem s).mp hs).1) ⟨hres.linked, hown, hbased, hattr⟩ hsb
    (fun s hs => htop s (hall s hs)) (fun s hs s' hs' => hone s (hall s hs) s' (hall s' hs')) hg srt'
  -- what becomes of the types and the configuration
  rw [gen_untouched (cfg := addStandardHelpers { cfg with namespaces := ns }) (hpre.some_of fun s hs => ((hmem s).mp hs).1)] at hg
  obtain ⟨g, hg1, hg⟩ := bind_ok hg
  split at hg
  · cases hg
  rename_i hflag
  cases hg
  have hn : ∀ t, xmlName g.1 t = xmlName H t := by
    refine (genSchemas_class (cfg := addStandardHelpers { cfg with namespaces := ns }) _ H g ⟨hres.linked, hown, hbased, hattr⟩ ?_ hg1 (by simpa using hflag)).2.1
    intro types ht t htt
    obtain ⟨s, hs, rfl⟩ := List.mem_map.mp ht
    obtain ⟨e, he, rfl⟩ := List.mem_map.mp htt
    have := htop s (hall s (List.mem_append_left _ hs)) e he
    cases he2 : e.2 with
    | link m => exact absurd he2 (this m)
    | _ => trivial
  dsimp only at hR hans hq ⊢
  generalize hcode : ({ names := nameAll g.1 g.2.1 [], decls := (finish srt (addStandardHelpers { cfg with namespaces := ns }) g.2.1).1, types := allTypes (primaries ++ schemas), pkgname := (addStandardHelpers { cfg with namespaces := ns }).pkgname } : Xsdgen.Code) = code at *
  have hct : code.types = allTypes (primaries ++ schemas) := by rw [← hcode]
  generalize hcfg : (finish srt (addStandardHelpers { cfg with namespaces := ns }) g.2.1).2 = cfg' at *
  have hcns : cfg'.namespaces = ns := by rw [← hcfg]; rfl
  have hsel : ∀ x, Selected cfg' x → Selected (addStandardHelpers { cfg with namespaces := ns }) x := by
    intro x hx
    rw [← hcfg] at hx
    exact hx
  have hfrom : ∀ x t, get code.types x = some t → ∃ s ∈ schemas, (x, t) ∈ s.types := by
    intro x t ht
    rw [hct] at ht
    rcases allTypes_from _ [] x t ht with ⟨s, hs, he⟩ | h
    · exact ⟨s, hall s hs, he⟩
    · cases h
  have hR : Ready False env cfg' code.types code.decls ⟨[], []⟩ 0 [] g.1 code := by
    rw [hct, show code.decls = (finish srt (addStandardHelpers { cfg with namespaces := ns }) g.2.1).1 from by rw [← hcode]]
    exact hR
  -- the answers
  have hone' : ∀ x, Offered cfg' schemas H x → ∃ text, (Usable (Xsdgen.genAST srt' code).2 text ∧
      ∀ H1 code1 r, AfterCalls env cfg' n k g.1 code H1 code1 → nameOf env cfg' n k H1 code1 x = .ok r → r.2.2 = text) ∧
      ∀ b e, 0 ≤ b → b < 50 → x = builtinName b → builtinExpr b = .ok (some e) → text = exprText e := by
    rintro x (⟨b, b0, b1, b2, rfl⟩ | ⟨s, hs, hsn, id, o, he, ho, rfl, hx, hx1, hx2⟩)
    · obtain ⟨e, he, hk⟩ := builtinExpr_schema b b0 b1 b2
      refine ⟨exprText e, ⟨⟨e, rfl, Or.inl hk⟩, ?_⟩, ?_⟩
      · intro H1 code1 r1 ha h1
        exact (nameOf_ready _ _ _ _ _ (after_ready ha hR) h1).2.2 b e b0 b1 rfl he
      · intro b' e' b0' b1' hbb he'
        rw [builtinName_inj b0 b1 b0' b1' hbb, he'] at he
        cases he
        rfl
    · obtain ⟨text, hu, hR'⟩ := hans s ((hmem s).mpr ⟨hs, by rw [← hcns]; exact hsn⟩) id o he ho
        (fun s' hs' => keyed_one hown htop hkeys hone ho hs he s' (hall s' hs')) ((skipped_iff _ _).mpr ⟨hx2, hsel _ hx⟩)
        (fun e => hx1 (by rw [e]))
      refine ⟨text, ⟨hu, ?_⟩, ?_⟩
      · intro H1 code1 r1 ha h1
        exact (nameOf_ready _ _ _ _ _ (after_ready ha hR') h1).2.1 trivial rfl
      · intro b e _ _ hb
        exact absurd hb (hown id o ho b)
  classical
  let c : Code :=
    { nameOf := fun x => if hx : Offered cfg' schemas H x then Classical.choose (hone' x hx) else []
      docType := fun ns => (docType g.1 code ns).map fun d => d.elements.map fun el => (el.name, xmlName g.1 el.type) }
  have hcn : ∀ x, Offered cfg' schemas H x → Usable (Xsdgen.genAST srt' code).2 (c.nameOf x) ∧
      ∀ H1 code1 r, AfterCalls env cfg' n k g.1 code H1 code1 → nameOf env cfg' n k H1 code1 x = .ok r → r.2.2 = c.nameOf x := by
    intro x hx
    simp only [c, dif_pos hx]
    exact (Classical.choose_spec (hone' x hx)).1
  -- the document types
  have hdocs : ∀ ns id, get code.types ⟨ns, b!"_self"⟩ = some (.obj id) → ∃ o, o.name.loc = b!"_self" ∧ Quiet id o g.1 ∧ H[id]? = some o := by
    intro ns id hid
    obtain ⟨s, hs, he⟩ := hfrom _ _ hid
    have hk := hself s hs _ he (Or.inl rfl)
    simp only [xmlName] at hk
    split at hk
    · rename_i o ho
      have h1 : o.name.loc = b!"_self" := by rw [hk]
      exact ⟨o, h1, genSchemas_quiet h1 _ _ _ ⟨ho, fun j o' _ ho' => hquiet s hs ns id he j o' ho'⟩ hg1, ho⟩
    · exact absurd (congrArg XName.loc hk) (fun h => by cases h)
  have hdecl : ∀ el d, docType g.1 code el.space = some d → ∀ e ∈ d.elements, e.name = el → Declares schemas H el (xmlName g.1 e.type) := by
    intro el d hd e he hel
    simp only [docType] at hd
    split at hd
    · rename_i id hid
      obtain ⟨o, -, h2, h3⟩ := hdocs _ _ hid
      obtain ⟨s, hs, hse⟩ := hfrom _ _ hid
      rw [h2.here] at hd
      split at hd
      · rename_i c' hc'
        cases hd
        cases hc'
        exact ⟨s, hs, id, d, hse, h3, e, he, hel, (hn _).symm⟩
      · cases hd
    · cases hd
  have hoff : ∀ p, InOperation d p → (p.type.loc ≠ [] → Offered cfg' schemas H p.type) ∧ (p.type.loc = [] → p.element.loc ≠ [] →
      ∀ d ∈ docType g.1 code p.element.space, ∀ el ∈ d.elements, el.name = p.element → Offered cfg' schemas H (xmlName g.1 el.type)) := by
    intro p hin
    obtain ⟨r1, r2⟩ := hparts p hin
    exact ⟨r1, fun h1 h2 d' hd' e he hel => r2 h1 h2 _ (hdecl _ d' hd' e he hel)⟩
  have hst : Steady env cfg' n k (Offered cfg' schemas H) g.1 code c (g.1, code) := by
    refine ⟨.start, rfl, hR.linked, fun x t ht => ⟨fun hx => ?_, (hR.keys x t ht).1⟩, ?_⟩
    · obtain ⟨s, hs, he⟩ := hfrom x t ht
      dsimp only at hx ⊢
      rw [hn] at hx ⊢
      exact hself s hs _ he (Or.inr hx)
    intro ns id hid
    obtain ⟨o, h1, h2, -⟩ := hdocs ns id hid
    exact ⟨o, h1, h2, h2.here, fun _ => rfl⟩
  refine ⟨c, (portsIn_steady ?_ (fun x hx => (hcn x hx).2) (fun _ _ ha => after_ready ha hR) (fun _ => rfl) d.ports _ q hst ?_ hq).2, ?_, ?_⟩
  · rintro x (⟨b, -, -, -, rfl⟩ | ⟨s, hs, hsn, id, o, he, ho, rfl, hx, hx1, hx2⟩)
    · exact builtinName_self b
    · exact hx2
  · intro port hport op hop m hm p hpm
    exact hoff p ⟨port, hport, op, hop, m, hm, hpm⟩
  · intro p hin t ht
    cases ht with
    | type h1 => exact (hcn _ ((hoff p hin).1 h1)).1
    | element els t rest h1 h2 hd hnot =>
      simp only [c] at hd
      cases hd' : docType g.1 code p.element.space with
      | none => rw [hd'] at hd; cases hd
      | some d' =>
        rw [hd'] at hd
        simp only [Option.map_some, Option.some.injEq] at hd
        have : (p.element, t) ∈ d'.elements.map fun el => (el.name, xmlName g.1 el.type) := by rw [hd]; simp
        obtain ⟨e, he, heq⟩ := List.mem_map.mp this
        obtain ⟨e1, e2⟩ := Prod.mk.inj heq
        have := (hoff p hin).2 h1 h2 d' hd' e he e1
        rw [e2] at this
        exact (hcn _ this).1
  · intro b e b0 b1 b2 he
    have hx : Offered cfg' schemas H (builtinName b) := Or.inl ⟨b, b0, b1, b2, rfl⟩
    simp only [c, dif_pos hx]
    exact (Classical.choose_spec (hone' _ hx)).2 b e b0 b1 rfl he

/-! ### The names of what is declared -/

theorem operationIn_names {env : Env} {cfg : Xsdgen.Config} {n k : Nat} {gcfg : GenConfig} {d : Definition} {port : Port} {op : Operation} {st : XState}
    {r : XState × Str × FuncDecl} (hr : operationIn env cfg n k gcfg d port op st = .ok r) :
    r.2.1 = publicName env cfg op.name ∧ r.2.2.decls.map (·.1) = wrapperNames gcfg d op := by
  unfold operationIn at hr
  split at hr
  · rename_i input output hi ho
    obtain ⟨x, hx, hr⟩ := bind_ok hr
    obtain ⟨y, hy, hr⟩ := bind_ok hr
    cases hr
    have len : ∀ (ps : List Part) (st : XState) (r : XState × List (Part × Str)), partTypesIn env cfg n k st ps = .ok r → r.2.length = ps.length := by
      intro ps
      induction ps with
      | nil => intro st r hr; cases hr; rfl
      | cons p ps ih =>
        intro st r hr
        obtain ⟨x, hx, hr⟩ := bind_ok hr
        obtain ⟨y, hy, hr⟩ := bind_ok hr
        cases hr
        simp [ih _ y hy]
    refine ⟨rfl, ?_⟩
    simp only [funcOf, wrapperDecls, argsOf, wrapperNames, hi, ho, len _ _ _ hx, len _ _ _ hy, Option.toList_some, List.map_append, List.filter_append]
    congr 1
    · by_cases h1 : (input.parts.length : Int) > gcfg.maxArgs
      · simp only [h1, decide_true, if_true]
        by_cases h2 : title input.name.loc = []
        · simp [h1, h2]
        · simp [h1, h2]
      · simp [h1]
    · by_cases h1 : (output.parts.length : Int) > gcfg.maxReturns
      · simp only [h1, decide_true, if_true]
        by_cases h2 : title output.name.loc = []
        · simp [h1, h2]
        · simp [h1, h2]
      · simp [h1]
  · cases hr

theorem portIn_names {env : Env} {cfg : Xsdgen.Config} {n k : Nat} {gcfg : GenConfig} {d : Definition} {port : Port} :
    ∀ (ops : List Operation) (st : XState) (r : XState × List (Str × FuncDecl)), portIn env cfg n k gcfg d port st ops = .ok r →
    r.2.map (·.1) = ops.map (fun op => publicName env cfg op.name) ∧
    (r.2.flatMap fun g => g.2.decls.map (·.1)) = ops.flatMap (wrapperNames gcfg d) := by
  intro ops
  induction ops with
  | nil => intro st r hr; cases hr; exact ⟨rfl, rfl⟩
  | cons op ops ih =>
    intro st r hr
    obtain ⟨x, hx, hr⟩ := bind_ok hr
    obtain ⟨y, hy, hr⟩ := bind_ok hr
    cases hr
    obtain ⟨k1, k2⟩ := operationIn_names hx
    obtain ⟨k3, k4⟩ := ih _ y hy
    simp only [List.map_cons, List.flatMap_cons, k1, k2, k3, k4]
    exact ⟨trivial, trivial⟩

theorem portsIn_names {env : Env} {cfg : Xsdgen.Config} {n k : Nat} {gcfg : GenConfig} {d : Definition} :
    ∀ (ps : List Port) (st : XState) (r : XState × List (Str × FuncDecl)), portsIn env cfg n k gcfg d st ps = .ok r →
    r.2.map (·.1) = (ps.flatMap (·.operations)).map (fun op => publicName env cfg op.name) ∧
    (r.2.flatMap fun g => g.2.decls.map (·.1)) = (ps.flatMap (·.operations)).flatMap (wrapperNames gcfg d) := by
  intro ps
  induction ps with
  | nil => intro st r hr; cases hr; exact ⟨rfl, rfl⟩
  | cons p ps ih =>
    intro st r hr
    obtain ⟨x, hx, hr⟩ := bind_ok hr
    obtain ⟨y, hy, hr⟩ := bind_ok hr
    cases hr
    obtain ⟨k1, k2⟩ := portIn_names _ _ x hx
    obtain ⟨k3, k4⟩ := ih _ y hy
    simp only [List.map_append, List.flatMap_cons, List.flatMap_append, k1, k2, k3, k4]
    exact ⟨trivial, trivial⟩

theorem finish_wf_all {srt : Sorter strLt} {cfg : Xsdgen.Config} {ss : List Spec} : WF (finish srt cfg ss).1 := by
  unfold finish
  dsimp only
  refine addAllFuncs_wf _ _ _ (addHelpers_wf _ _ _ ?_)
  split
  · exact wf_map (declare_wf _ _ wf_nil) _
  · exact declare_wf _ _ wf_nil

/-- What the code and the configuration after a successful call of `GenCode` have in common with those before. -/
theorem genCode_after {env : Env} {srt : Sorter strLt} {n : Nat} {parse : List Doc → Outcome (List Schema × THeap)} {cfg cfg' : Xsdgen.Config}
    {docs : List Doc} {c : THeap × Xsdgen.Code} (h : genCode env srt n parse cfg docs = (cfg', .done (.ok c))) :
    WF c.2.decls ∧ cfg'.nameTransform = cfg.nameTransform := by
  cases hp : parse docs with
  | error => simp only [genCode, hp] at h; cases h
  | panic => simp only [genCode, hp] at h; cases h
  | ok x =>
    obtain ⟨schemas, H⟩ := x
    obtain ⟨ns, primaries, r, hg, hc, -, hcfg, -, -⟩ := genCode_ok (H' := c.1) (code := c.2) hp h
    simp only [gen] at hg
    obtain ⟨q, hq, hg⟩ := bind_ok hg
    split at hg
    · cases hg
    · cases hg
      rw [← hc, ← hcfg]
      exact ⟨finish_wf_all, rfl⟩

end GoXml.Wsdl
