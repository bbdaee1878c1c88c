import Verif.Props.XsdDecls
set_option autoImplicit false

/-! Property C117: the documentation of components. -/

namespace GoXml.Xsd
open Wsdl (attrNamed allNamed refersTo)

/-- What the annotations of an element say, one text each. -/
def Says (env : ParseEnv) (el : Element) (ds : List Str) : Prop :=
  List.Forall₂ (fun c d => env.annotation c = some d) (kidsNamed el [b!"annotation"]) ds

/-- The texts as paragraphs: those that are not empty, with a blank line between them. -/
def paragraphs (ds : List Str) : Str := List.intercalate b!"\n\n" (ds.filter fun d => decide (d ≠ []))

/-- The documentation of an element is what its annotations say. An annotation after the first must say something. -/
def Documented (env : ParseEnv) (el : Element) (doc : Str) : Prop :=
  ∃ ds, Says env el ds ∧ ((∀ d ∈ ds.tail, d ≠ []) → doc = paragraphs ds)

theorem paragraphs_snoc (ds : List Str) (d : Str) (hd : d ≠ []) :
    paragraphs (ds ++ [d]) = docAppend (paragraphs ds) d := by
  have key : ∀ (l : List Str), (∀ x ∈ l, x ≠ []) →
      List.intercalate b!"\n\n" (l ++ [d]) = docAppend (List.intercalate b!"\n\n" l) d := by
    intro l
    induction l with
    | nil => intro _; simp [docAppend, List.intercalate]
    | cons a l ih =>
      intro h
      have ha : a ≠ [] := h a List.mem_cons_self
      cases l with
      | nil => simp [docAppend, List.intercalate, ha]
      | cons b l =>
        have e := ih fun x hx => h x (List.mem_cons_of_mem _ hx)
        have c : ∀ (x : Str) (ys : List Str), List.intercalate b!"\n\n" (a :: (x :: ys)) = a ++ (b!"\n\n" ++ List.intercalate b!"\n\n" (x :: ys)) := by
          intro x ys
          simp [List.intercalate, List.intersperse]
        have hb : List.intercalate b!"\n\n" (b :: l) ≠ [] := by
          cases l with
          | nil => simpa [List.intercalate] using h b (by simp)
          | cons y ys =>
            intro h0
            have hb := h b (by simp)
            simp [List.intercalate, List.intersperse] at h0
        rw [List.cons_append, List.cons_append, c, ← List.cons_append, e, c]
        unfold docAppend
        rw [if_pos hb, if_pos (by simp [ha])]
        simp
  unfold paragraphs
  rw [List.filter_append, List.filter_cons, if_pos (by simpa using hd)]
  exact key _ (fun x hx => by simpa using (List.mem_filter.mp hx).2)

theorem docAppend_fold (ds : List Str) : (∀ d ∈ ds.tail, d ≠ []) → ds.foldl docAppend [] = paragraphs ds := by
  have gen : ∀ (ds pre : List Str), (∀ d ∈ ds, d ≠ []) → ds.foldl docAppend (paragraphs pre) = paragraphs (pre ++ ds) := by
    intro ds
    induction ds with
    | nil => intro pre _; simp
    | cons d ds ih =>
      intro pre h
      rw [List.foldl_cons, ← paragraphs_snoc pre d (h d List.mem_cons_self), ih _ fun x hx => h x (List.mem_cons_of_mem _ hx)]
      simp
  intro h
  cases ds with
  | nil => rfl
  | cons d ds =>
    have e : docAppend [] d = paragraphs [d] := by
      by_cases hd : d = []
      · subst hd; rfl
      · simp [docAppend, paragraphs, hd, List.intercalate]
    rw [List.foldl_cons, e, gen ds [d] h]
    rfl

/-- What a walk that collects annotations leaves in the documentation. -/
theorem walk_doc {σ : Type} (env : ParseEnv) (f : σ → Element → Option σ) (p : σ → Str)
    (ha : ∀ s e s', e.name.loc = b!"annotation" → f s e = some s' → ∃ d, env.annotation e = some d ∧ p s' = docAppend (p s) d)
    (es : List Element)
    (ho : ∀ s e s', e ∈ es → e.name.space = schemaNS → e.name.loc ≠ b!"annotation" → f s e = some s' → p s' = p s) : ∀ s r, walkFold f s es = some r →
      ∃ ds, List.Forall₂ (fun c d => env.annotation c = some d)
          (es.filter fun c => decide (c.name.space = w3cSchemaNS ∧ c.name.loc ∈ [b!"annotation"])) ds ∧
        p r = ds.foldl docAppend (p s) := by
  induction es with
  | nil => intro s r h; cases h; exact ⟨[], .nil, rfl⟩
  | cons e es ih =>
    have ih := ih fun s e s' he => ho s e s' (List.mem_cons_of_mem _ he)
    intro s r h
    rw [walkFold] at h
    split at h
    · rename_i hns
      rw [List.filter_cons, if_neg (by simp [← schemaNS_eq, hns])]
      exact ih s r h
    · rename_i hns
      have hns : e.name.space = schemaNS := by simpa using hns
      split at h
      · cases h
      · rename_i s' hs'
        obtain ⟨ds, h1, h2⟩ := ih s' r h
        by_cases hl : e.name.loc = b!"annotation"
        · obtain ⟨d, h3, h4⟩ := ha s e s' hl hs'
          rw [List.filter_cons, if_pos (by simp [← schemaNS_eq, hns, hl])]
          exact ⟨d :: ds, .cons h3 h1, by rw [h2, h4]; rfl⟩
        · rw [List.filter_cons, if_neg (by simp [hl])]
          exact ⟨ds, h1, by rw [h2, ho s e s' List.mem_cons_self hns hl hs']⟩

theorem childDocs_documented (env : ParseEnv) (el : Element) (doc : Str) (h : childDocs env el = some doc) : Documented env el doc := by
  unfold childDocs at h
  obtain ⟨ds, h1, h2⟩ := walk_doc env _ (fun s => s) (by
      intro s e s' hl hf
      rw [if_pos hl, Option.map_eq_some_iff] at hf
      obtain ⟨d, hd, rfl⟩ := hf
      exact ⟨d, hd, rfl⟩) _ (by
      intro s e s' _ _ hl hf
      rw [if_neg hl] at hf
      cases hf
      rfl) _ _ h
  exact ⟨ds, h1, fun ht => by rw [h2, docAppend_fold ds ht]⟩

/-- C117, partial: the documentation of an element, an attribute and a simple type is what its annotations say. -/
theorem C117_simple_partial (env : ParseEnv) (ns : Str) (el : Element) :
    (∀ e, parseElement env ns el = some e → Documented env el e.doc) ∧
    (∀ a, parseAttribute env ns el = some a → Documented env el a.doc) ∧
    (∀ t, parseSimpleType env ns el = some t → Documented env el t.doc) := by
  refine ⟨?_, ?_, ?_⟩
  · intro e h
    unfold parseElement at h
    split at h
    · rename_i hd
      cases h
      exact childDocs_documented env el _ hd
    · cases h
  · intro e h
    unfold parseAttribute at h
    split at h
    · cases h
    · rename_i hd
      cases h
      exact childDocs_documented env el _ hd
  · intro t h
    unfold parseSimpleType at h
    rw [Option.map_eq_some_iff] at h
    obtain ⟨s, h, rfl⟩ := h
    obtain ⟨ds, h1, h2⟩ := walk_doc env _ (fun s => s.2) (by
        intro s e s' hl hf
        unfold simpleStep at hf
        rw [if_neg (by rw [hl]; decide), if_neg (by rw [hl]; decide), if_neg (by rw [hl]; decide), if_pos hl, Option.map_eq_some_iff] at hf
        obtain ⟨d, hd, rfl⟩ := hf
        exact ⟨d, hd, rfl⟩) _ (by
        intro s e s' _ _ hl hf
        unfold simpleStep at hf
        split at hf
        · rw [Option.map_eq_some_iff] at hf
          obtain ⟨d, hd, rfl⟩ := hf
          rfl
        · split at hf
          · cases hf; rfl
          · split at hf
            · cases hf; rfl
            · first
                | (rw [if_neg hl] at hf; cases hf; rfl)
                | (cases hf; rfl)) _ _ h
    exact ⟨ds, h1, fun ht => by rw [h2, docAppend_fold ds ht]⟩

/-- C117, partial: the documentation of a restriction is what its annotations say, if its patterns compile. -/
theorem C117_restriction_partial (env : ParseEnv) (base : Ty) (el : Element) (r : Restriction)
    (hp : kidsNamed el [b!"pattern"] ≠ [] → ∀ p, env.compileError p = none) (h : parseSimpleRestriction env base el = some r) :
    Documented env el r.doc := by
  unfold parseSimpleRestriction at h
  rw [Option.map_eq_some_iff] at h
  obtain ⟨s, h, rfl⟩ := h
  have hk : ∀ e ∈ el.children, e.name.space = schemaNS → e.name.loc = b!"pattern" → ∀ p, env.compileError p = none := by
    intro e he hs hl
    apply hp
    intro h0
    have : e ∈ kidsNamed el [b!"pattern"] := List.mem_filter.mpr ⟨he, by simp [← schemaNS_eq, hs, hl]⟩
    rw [h0] at this
    cases this
  obtain ⟨ds, h1, h2⟩ := walk_doc env _ (fun s => s.2) (by
      intro s e s' hl hf
      unfold restrictionStep at hf
      dsimp only at hf
      iterate 8 rw [if_neg (by rw [hl]; decide)] at hf
      rw [if_pos hl, Option.map_eq_some_iff] at hf
      obtain ⟨d, hd, rfl⟩ := hf
      exact ⟨d, hd, rfl⟩) _ (by
      intro s e s' he hs hl hf
      rcases step_cases hf with ⟨hk, rfl⟩ | ⟨hk | hk, d, hd, rfl⟩ | ⟨hk | hk, d, hd, rfl⟩ | ⟨hk, n, hn, rfl⟩ | ⟨hk, n, hn, rfl⟩ |
        ⟨hk, n, hn, rfl⟩ | ⟨hp, rfl⟩ | ⟨hk, n, hn, _, rfl⟩ | ⟨hk, d, hd, rfl⟩ | ⟨hk, n, hn, rfl⟩ | ⟨hk, rfl⟩
      all_goals first
        | rfl
        | exact absurd (by assumption) hl
        | skip
      unfold parsePatternFacet
      dsimp only
      split <;> rename_i hc
      · rw [hk e he hs hp] at hc; cases hc
      · rfl) _ _ h
  exact ⟨ds, h1, fun ht => by rw [h2, docAppend_fold ds ht]⟩

theorem content_doc (env : ParseEnv) (ns : Str) (t t' : ComplexT) (el : Element)
    (h : parseComplexContent env ns t el = some t' ∨ parseSimpleContent env ns t el = some t') :
    ∃ ds, Says env el ds ∧ t'.doc = t.doc ++ ds.foldl docAppend [] := by
  have der : ∀ {ext : Bool} {s r : ComplexT} {e : Element}, complexDerivation env ns ext s e = some r → r.doc = s.doc := by
    intro ext s r e h
    unfold complexDerivation at h
    split at h
    · cases h
    · split at h
      · cases h
      · split at h
        · cases h
        · cases h; rfl
  rcases h with h | h
  · unfold parseComplexContent at h
    split at h
    · cases h
    · rw [Option.map_eq_some_iff] at h
      obtain ⟨s, h, rfl⟩ := h
      obtain ⟨ds, h1, h2⟩ := walk_doc env _ (fun s : ComplexT × Str => s.2) (by
          intro s e s' hl hf
          rw [if_neg (by rw [hl]; decide), if_neg (by rw [hl]; decide), if_pos hl, Option.map_eq_some_iff] at hf
          obtain ⟨d, hd, rfl⟩ := hf
          exact ⟨d, hd, rfl⟩) _ (by
          intro s e s' _ _ hl hf
          split at hf
          · rw [Option.map_eq_some_iff] at hf
            obtain ⟨d, hd, rfl⟩ := hf
            rfl
          · split at hf
            · rw [Option.map_eq_some_iff] at hf
              obtain ⟨d, hd, rfl⟩ := hf
              rfl
            · first
                | (rw [if_neg hl] at hf; cases hf)
                | cases hf) _ _ h
      have h3 : s.1.doc = t.doc := by
        refine walkFold_keeps _ (fun s : ComplexT × Str => s.1.doc = t.doc) ?_ _ _ _ rfl h
        intro s e s' h0 hf
        split at hf
        · rw [Option.map_eq_some_iff] at hf
          obtain ⟨d, hd, rfl⟩ := hf
          rw [← h0]; exact der hd
        · split at hf
          · rw [Option.map_eq_some_iff] at hf
            obtain ⟨d, hd, rfl⟩ := hf
            rw [← h0]; exact der hd
          · split at hf
            · rw [Option.map_eq_some_iff] at hf
              obtain ⟨d, hd, rfl⟩ := hf
              exact h0
            · cases hf
      exact ⟨ds, h1, by dsimp only; rw [h3, h2]⟩
  · unfold parseSimpleContent at h
    rw [Option.map_eq_some_iff] at h
    obtain ⟨s, h, rfl⟩ := h
    obtain ⟨ds, h1, h2⟩ := walk_doc env _ (fun s : ComplexT × Str => s.2) (by
        intro s e s' hl hf
        rw [if_pos hl, Option.map_eq_some_iff] at hf
        obtain ⟨d, hd, rfl⟩ := hf
        exact ⟨d, hd, rfl⟩) _ (by
        intro s e s' _ _ hl hf
        rw [if_neg hl] at hf
        split at hf
        · cases hf; rfl
        · split at hf
          · rw [Option.map_eq_some_iff] at hf
            obtain ⟨d, hd, rfl⟩ := hf
            rfl
          · cases hf; rfl) _ _ h
    have h3 : s.1.doc = t.doc := by
      refine walkFold_keeps _ (fun s : ComplexT × Str => s.1.doc = t.doc) ?_ _ _ _ rfl h
      intro s e s' h0 hf
      split at hf
      · rw [Option.map_eq_some_iff] at hf
        obtain ⟨d, hd, rfl⟩ := hf
        exact h0
      · split at hf
        · cases hf; exact h0
        · split at hf
          · rw [Option.map_eq_some_iff] at hf
            obtain ⟨d, hd, rfl⟩ := hf
            exact h0
          · cases hf; exact h0
    exact ⟨ds, h1, by dsimp only; rw [h3, h2]⟩

theorem says_nil {env : ParseEnv} {el : Element} {ds : List Str} (h : Says env el ds) (hk : kidsNamed el [b!"annotation"] = []) : ds = [] := by
  unfold Says at h
  rw [hk] at h
  cases h
  rfl

/-- The content of a complexType. -/
def contents (root : Element) : List Element := kidsNamed root [b!"simpleContent", b!"complexContent"]

/-- What `parseComplexType` puts into the documentation. -/
theorem complex_doc (env : ParseEnv) (ns : Str) (root : Element) (t : ComplexT) (h : parseComplexType env ns root = some t) :
    ∃ own cs, Says env root own ∧ List.Forall₂ (Says env) (contents root) cs ∧
      t.doc = (cs.map fun ds => ds.foldl docAppend []).flatten ++ own.foldl docAppend [] := by
  unfold parseComplexType at h
  split at h
  · rw [Option.map_eq_some_iff] at h
    obtain ⟨s, h, rfl⟩ := h
    obtain ⟨ds, h1, h2⟩ := walk_doc env _ (fun s : ComplexT × Str => s.2) (by
        intro s e s' hl hf
        rw [if_pos hl, Option.map_eq_some_iff] at hf
        obtain ⟨d, hd, rfl⟩ := hf
        exact ⟨d, hd, rfl⟩) _ (by
        intro s e s' _ _ hl hf
        rw [if_neg hl] at hf
        split at hf
        · rw [Option.map_eq_some_iff] at hf
          obtain ⟨d, hd, rfl⟩ := hf
          rfl
        · split at hf
          · rw [Option.map_eq_some_iff] at hf
            obtain ⟨d, hd, rfl⟩ := hf
            rfl
          · cases hf) _ _ h
    have key : ∀ (es : List Element) (s r : ComplexT × Str), walkFold (fun (s : ComplexT × Str) el =>
        if el.name.loc = b!"annotation" then (env.annotation el).map fun d => (s.1, docAppend s.2 d)
        else if el.name.loc = b!"simpleContent" then (parseSimpleContent env ns s.1 el).map (·, s.2)
        else if el.name.loc = b!"complexContent" then (parseComplexContent env ns s.1 el).map (·, s.2)
        else none) s es = some r → ∃ cs, List.Forall₂ (Says env)
          (es.filter fun c => decide (c.name.space = w3cSchemaNS ∧ c.name.loc ∈ [b!"simpleContent", b!"complexContent"])) cs ∧
          r.1.doc = s.1.doc ++ (cs.map fun ds => ds.foldl docAppend []).flatten := by
      intro es
      induction es with
      | nil => intro s r h; cases h; exact ⟨[], .nil, by simp⟩
      | cons e es ih =>
        intro s r h
        rw [walkFold] at h
        split at h
        · rename_i hns
          rw [List.filter_cons, if_neg (by simp [← schemaNS_eq, hns])]
          exact ih s r h
        · rename_i hns
          have hns : e.name.space = schemaNS := by simpa using hns
          split at h
          · cases h
          · rename_i s' hs'
            obtain ⟨cs, hc1, hc2⟩ := ih s' r h
            split at hs'
            · rename_i hl
              rw [Option.map_eq_some_iff] at hs'
              obtain ⟨d, hd, rfl⟩ := hs'
              rw [List.filter_cons, if_neg (by rw [hl]; simp)]
              exact ⟨cs, hc1, hc2⟩
            · split at hs'
              · rename_i hl
                rw [Option.map_eq_some_iff] at hs'
                obtain ⟨d, hd, rfl⟩ := hs'
                rw [List.filter_cons, if_pos (by simp [← schemaNS_eq, hns, hl])]
                obtain ⟨ds, hd1, hd2⟩ := content_doc env ns _ _ _ (.inr hd)
                exact ⟨ds :: cs, .cons hd1 hc1, by rw [hc2]; dsimp only; rw [hd2]; simp⟩
              · split at hs'
                · rename_i hl
                  rw [Option.map_eq_some_iff] at hs'
                  obtain ⟨d, hd, rfl⟩ := hs'
                  rw [List.filter_cons, if_pos (by simp [← schemaNS_eq, hns, hl])]
                  obtain ⟨ds, hd1, hd2⟩ := content_doc env ns _ _ _ (.inl hd)
                  exact ⟨ds :: cs, .cons hd1 hc1, by rw [hc2]; dsimp only; rw [hd2]; simp⟩
                · cases hs'
    obtain ⟨cs, h3, h4⟩ := key _ _ _ h
    refine ⟨ds, cs, h1, h3, ?_⟩
    dsimp only
    rw [h4, h2]
    simp
  · cases h

/-- C117, partial: the documentation of a complex type is what its annotations say, or those of its content if only that has any.
Missing: types where both have annotations, and annotations of the extension or restriction; see the refutation. -/
theorem C117_complex_partial (env : ParseEnv) (ns : Str) (root : Element) (t : ComplexT) (h : parseComplexType env ns root = some t) :
    ((∀ c ∈ contents root, kidsNamed c [b!"annotation"] = []) → Documented env root t.doc) ∧
    (∀ c, kidsNamed root [b!"annotation"] = [] → contents root = [c] → Documented env c t.doc) := by
  obtain ⟨own, cs, h1, h2, h3⟩ := complex_doc env ns root t h
  refine ⟨?_, ?_⟩
  · intro hn
    refine ⟨own, h1, fun ht => ?_⟩
    have hc : (cs.map fun ds => ds.foldl docAppend []).flatten = [] := by
      clear h3
      revert hn h2
      generalize contents root = es
      intro h2
      induction h2 with
      | nil => intro _; rfl
      | cons hx _ ih =>
        intro hn
        rw [List.map_cons, List.flatten_cons, says_nil hx (hn _ List.mem_cons_self), ih fun c hc => hn c (List.mem_cons_of_mem _ hc)]
        rfl
    rw [h3, hc, docAppend_fold own ht]
    rfl
  · intro c hn hc
    rw [hc] at h2
    cases h2 with
    | cons hx hr =>
      cases hr
      refine ⟨_, hx, fun ht => ?_⟩
      rw [h3, says_nil h1 hn, ← docAppend_fold _ ht]
      simp

/-- Annotations whose text is their attribute `text`. -/
def docEnv : ParseEnv where
  annotation el := some (attrNamed el b!"text")
  compileError p := if p = b!"\\i" then some b!"bad escape" else none
  isFloat _ := false
  isDate _ := false
  isDateTime _ := false

/-- A complexType with annotations at three places. -/
def docType3 (a b c : List Str) : Element :=
  let q (l : Str) : XName := ⟨w3cSchemaNS, l⟩
  let notes (ts : List Str) : List Element := ts.map fun t => .mk (q b!"annotation") [⟨⟨[], b!"text"⟩, t⟩] [] [] []
  .mk (q b!"complexType") [⟨⟨[], b!"name"⟩, b!"t"⟩] [] [] (notes a ++ [
    .mk (q b!"complexContent") [] [] [] (notes b ++ [.mk (q b!"extension") [] [] [] (notes c)])])

def docOf3 (a b c : List Str) : Option Str := (parseComplexType docEnv [] (docType3 a b c)).map fun t => t.doc

example : (∀ c ∈ contents (docType3 [b!"one", b!"two"] [] []), kidsNamed c [b!"annotation"] = []) ∧
    docOf3 [b!"one", b!"two"] [] [] = some b!"one\n\ntwo" ∧ docOf3 [] [b!"one", b!"two"] [] = some b!"one\n\ntwo" := by
  refine ⟨?_, by decide +kernel, by decide +kernel⟩
  intro c hc
  have : contents (docType3 [b!"one", b!"two"] [] []) = [(docType3 [] [] []).children.headD (.mk ⟨[], []⟩ [] [] [] [])] := rfl
  rw [this] at hc
  rw [List.mem_singleton.mp hc]
  rfl

example : ((parseElement docEnv [] (.mk ⟨w3cSchemaNS, b!"element"⟩ [⟨⟨[], b!"name"⟩, b!"e"⟩] [] []
      [.mk ⟨w3cSchemaNS, b!"annotation"⟩ [⟨⟨[], b!"text"⟩, b!"one"⟩] [] [] [], .mk ⟨w3cSchemaNS, b!"annotation"⟩ [⟨⟨[], b!"text"⟩, b!"two"⟩] [] [] []])).map
      fun e => e.doc) = some b!"one\n\ntwo" ∧
    ((parseSimpleRestriction docEnv (.builtin 0) (.mk ⟨w3cSchemaNS, b!"restriction"⟩ [] [] []
      [.mk ⟨w3cSchemaNS, b!"annotation"⟩ [⟨⟨[], b!"text"⟩, b!"one"⟩] [] [] [], .mk ⟨w3cSchemaNS, b!"enumeration"⟩ [] [] [] []])).map fun r => r.doc) =
      some b!"one" := by
  refine ⟨by decide +kernel, by decide +kernel⟩

/-- C117 is false of the code. If a type and its content have annotations, the texts are run together, that of the content first.
The annotation of an extension is lost. An annotation without text leaves a blank line at the end. A pattern that
cannot be compiled adds to the documentation of the restriction. -/
theorem C117_doc_refuted :
    docOf3 [b!"one"] [b!"two"] [] = some b!"twoone" ∧ docOf3 [] [] [b!"one"] = some [] ∧ docOf3 [b!"one", []] [] [] = some b!"one\n\n" ∧
    ((parseSimpleRestriction docEnv (.builtin 0) (.mk ⟨w3cSchemaNS, b!"restriction"⟩ [] [] []
      [.mk ⟨w3cSchemaNS, b!"pattern"⟩ [⟨⟨[], b!"value"⟩, b!"\\i"⟩] [] [] []])).map fun r => r.doc) = some b!"bad escape" := by
  refine ⟨by decide +kernel, by decide +kernel, by decide +kernel, by decide +kernel⟩

end GoXml.Xsd
