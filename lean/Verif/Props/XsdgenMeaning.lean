import Verif.Proofs.XsdgenMeaning
import Verif.Proofs.XsdgenCheck
import Verif.Props.XsdgenDecls
import Verif.Props.XsdgenName
import Verif.Props.XsdgenClosed
import Verif.Proofs.XsdgenHelpers
set_option autoImplicit false

/-! Properties C100 and C108: what the declarations of the generated file say about the types of the schema. -/

namespace GoXml.Xsdgen
open Xsd GoMap

theorem keepElems_mem {f : Option (XElem → Bool)} {es : List XElem} {e : XElem} :
    e ∈ keepElems f es ↔ e ∈ es ∧ ¬ ∃ p, f = some p ∧ p e = true := by
  cases f with
  | none => rw [keepElems_none]; simp
  | some p => rw [keepElems_eq, List.mem_filter]; simp

theorem keepAttrs_mem {f : Option (XAttr → Bool)} {es : List XAttr} {e : XAttr} :
    e ∈ keepAttrs f es ↔ e ∈ es ∧ ¬ ∃ p, f = some p ∧ p e = true := by
  cases f with
  | none => rw [keepAttrs_none]; simp
  | some p => rw [keepAttrs_eq, List.mem_filter]; simp

theorem exprOf_keep {W : Nat → Prop} {env : Env} {cfg : Config} {H G : THeap} (h : KeepHeap W H G) (t : Ty) : exprOf env cfg G t = exprOf env cfg H t := by
  cases t with
  | builtin b => rfl
  | obj k => simp only [exprOf, h.names]
  | link k => simp only [exprOf, h.names]

theorem ElemField.keep {W : Nat → Prop} {env : Env} {cfg : Config} {H G : THeap} (h : KeepHeap W H G) {e : XElem} {f : Field} (hf : ElemField env cfg G e f) :
    ElemField env cfg H e f := by
  obtain ⟨item, h1, h2⟩ := hf
  exact ⟨item, by rw [← exprOf_keep h]; exact h1, h2⟩

theorem AttrField.keep {W : Nat → Prop} {env : Env} {cfg : Config} {H G : THeap} (h : KeepHeap W H G) {e : XAttr} {f : Field} (hf : AttrField env cfg G e f) :
    AttrField env cfg H e f := by
  obtain ⟨h1, h2⟩ := hf
  exact ⟨by rw [← exprOf_keep h]; exact h1, h2⟩

theorem forall₂_left {α β : Type} {R : α → β → Prop} {xs : List α} {ys : List β} (h : List.Forall₂ R xs ys) : ∀ x ∈ xs, ∃ y ∈ ys, R x y := by
  induction h with
  | nil => exact fun _ h => (by cases h)
  | cons hr _ ih =>
    intro x hx
    rcases List.mem_cons.mp hx with rfl | hx
    · exact ⟨_, List.mem_cons_self .., hr⟩
    · obtain ⟨y, hy, hr⟩ := ih x hx
      exact ⟨y, List.mem_cons_of_mem _ hy, hr⟩

theorem forall₂_right {α β : Type} {R : α → β → Prop} {xs : List α} {ys : List β} (h : List.Forall₂ R xs ys) : ∀ y ∈ ys, ∃ x ∈ xs, R x y := by
  induction h with
  | nil => exact fun _ h => (by cases h)
  | cons hr _ ih =>
    intro x hx
    rcases List.mem_cons.mp hx with rfl | hx
    · exact ⟨_, List.mem_cons_self .., hr⟩
    · obtain ⟨y, hy, hr⟩ := ih x hx
      exact ⟨y, List.mem_cons_of_mem _ hy, hr⟩

theorem traced_means {env : Env} {cfg : Config} {n : Nat} {H : THeap} {s : Spec} (h : Traced (Deserving cfg H) env cfg n H s) :
    ∃ id o, H[id]? = some o ∧ s.name = publicName env cfg o.name ∧ Means env cfg H id s.expr := by
  obtain ⟨G, id, r, hk, hr, hs⟩ := h
  obtain ⟨-, hname, id', o', e, ho'⟩ := genTypeSpec_type hr s hs
  have hext := (genTypeSpec_named hr).1
  cases e
  obtain ⟨o, ho, hkeep⟩ := hk.objs id o' ho'
  refine ⟨id, o, ho, ?_, ?_⟩
  · rw [hname, hk.names]
    simp only [xmlName, ho]
  simp only [genTypeSpec, ho'] at hr
  cases o' with
  | simple s' =>
    cases o with
    | complex c => cases hkeep
    | simple s0 =>
      refine ⟨?_, fun c hc => by rw [ho] at hc; cases hc⟩
      intro s1 hs1
      rw [ho] at hs1
      cases hs1
      obtain ⟨q, hq, hr⟩ := bind_ok hr
      cases hr
      obtain ⟨k1, k2, k3, k4⟩ := hkeep
      obtain ⟨sp, rfl, -, -, -, c1, c2, c3⟩ := C95_simple_partial env cfg n G id s' q hq
      rw [List.mem_singleton] at hs
      subst hs
      have hb : ∀ b, s'.base = some b → Below H id b := fun b hb => hk.bases.some_ id b (by simp only [baseOf, ho']; exact hb)
      refine ⟨?_, ?_, ?_⟩
      · intro hl
        obtain ⟨b, e, h1, h2, h3, -⟩ := c1 (by rw [k2]; exact hl)
        exact ⟨b, e, hb b h1, by rw [← exprOf_keep hk]; exact h2, h3⟩
      · intro hl hu
        exact (c2 (by rw [k2]; exact hl) (by rw [k3]; exact hu)).1
      · intro hl hu
        obtain ⟨b, e, h1, h2, h3, -⟩ := c3 (by rw [k2]; exact hl) (by rw [k3]; exact hu)
        exact ⟨b, e, hb b h1, by rw [← exprOf_keep hk]; exact h2, h3⟩
  | complex c' =>
    cases o with
    | simple c => cases hkeep
    | complex c0 =>
      refine ⟨fun c hc => (by rw [ho] at hc; cases hc), ?_⟩
      intro c1 hc1
      rw [ho] at hc1
      cases hc1
      have hk' := hk.ext hext
      obtain ⟨c, sp, text, elems, attrs, -, hH', hss, -, -, -, hexpr, htext, he, ha⟩ := C93_struct env cfg n G id c' r.1 r.2 hr
      rw [hss, List.mem_singleton] at hs
      subst hs
      have hc : r.1[id]? = some (.complex c) := by rw [hH']; exact List.getElem?_set_self (List.getElem?_eq_some_iff.mp ho').1
      obtain ⟨o2, ho2, q⟩ := hk'.objs id _ hc
      rw [ho] at ho2
      cases ho2
      obtain ⟨-, -, q3, q4, q5, q6⟩ := q
      have he1 := forall₂_left he
      have he2 := forall₂_right he
      have ha1 := forall₂_left ha
      have ha2 := forall₂_right ha
      refine ⟨_, hexpr, ?_, ?_, ?_⟩
      · intro e hem
        obtain ⟨e', he', hl⟩ := q3 e hem
        refine ⟨e', hl, ?_⟩
        by_cases hi : ElemIgnored cfg e'
        · exact Or.inl hi
        · obtain ⟨f, hf, hff⟩ := he1 e' (keepElems_mem.mpr ⟨he', hi⟩)
          exact Or.inr ⟨f, List.mem_append_left _ (List.mem_append_right _ hf), hff.keep hk'⟩
      · intro e hem
        obtain ⟨e', he', hl⟩ := q4 e hem
        refine ⟨e', hl, ?_⟩
        by_cases hi : AttrIgnored cfg e'
        · exact Or.inl hi
        · obtain ⟨f, hf, hff⟩ := ha1 e' (keepAttrs_mem.mpr ⟨he', hi⟩)
          exact Or.inr ⟨f, List.mem_append_right _ hf, hff.keep hk'⟩
      · intro f hf
        rcases List.mem_append.mp hf with hf | hf
        · rcases List.mem_append.mp hf with hf | hf
          · left
            rcases htext with rfl | ⟨g, rfl, hg⟩
            · cases hf
            · rw [List.mem_singleton] at hf
              rw [hf]
              exact hg
          · right
            obtain ⟨e', he', hff⟩ := he2 f hf
            obtain ⟨h1, h2⟩ := keepElems_mem.mp he'
            obtain ⟨k, ck, h3, h4, e, h5, h6⟩ := q5 e' h1
            exact ⟨k, ck, h3, h4, Or.inl ⟨e, h5, e', h6, h2, hff.keep hk'⟩⟩
        · right
          obtain ⟨e', he', hff⟩ := ha2 f hf
          obtain ⟨h1, h2⟩ := keepAttrs_mem.mp he'
          obtain ⟨k, ck, h3, h4, e, h5, h6⟩ := q6 e' h1
          exact ⟨k, ck, h3, h4, Or.inr ⟨e, h5, e', h6, h2, hff.keep hk'⟩⟩

theorem addHelpers_named : ∀ (deps : List XName) (decls : GoMap Str Spec) (helpers : GoMap XName Spec) (k : Str) (v : Spec),
    get (addHelpers deps decls helpers).1 k = some v → get decls k = some v ∨ ∃ d, get helpers d = some v ∧ v.name = k := by
  intro deps
  induction deps with
  | nil => exact fun _ _ _ _ h => Or.inl h
  | cons d ds ih =>
    intro decls helpers k v h
    rw [addHelpers] at h
    split at h
    · rename_i x hx
      rcases ih _ _ _ _ h with h | ⟨d', h, hn⟩
      · rw [get_set] at h
        split at h
        · rename_i e; cases h; exact Or.inr ⟨d, hx, e⟩
        · exact Or.inl h
      · rw [get_erase] at h
        split at h
        · cases h
        · exact Or.inr ⟨d', h, hn⟩
    · exact ih _ _ _ _ h

/-- A declaration after the options have changed it. -/
def posted (cfg : Config) (s : Spec) : Spec := match cfg.postprocessType with
  | some f => f s
  | none => s

theorem unaltered_none {cfg : Config} (h : cfg.postprocessType = none) : Unaltered cfg := fun f e => by rw [h] at e; cases e

theorem posted_none {cfg : Config} (h : cfg.postprocessType = none) {s : Spec} : posted cfg s = s := by
  simp only [posted, h]

theorem Unaltered.posted {cfg : Config} (h : Unaltered cfg) {s : Spec} (hs : ¬ SliceStruct s.expr) : posted cfg s = s := by
  unfold Xsdgen.posted
  cases hp : cfg.postprocessType with
  | none => rfl
  | some f => exact h f hp s hs

/-- The parts of `finish`. -/
theorem finish_posted (srt : Sorter strLt) (cfg : Config) (ss : List Spec) :
    ∃ deps D, (∀ k, get D k = (get (declare ss []) k).map (posted cfg)) ∧
      (finish srt cfg ss).1 = (addAllFuncs (srt.sort ((addHelpers deps D cfg.helperTypes).1.map (·.1))) (addHelpers deps D cfg.helperTypes).1 cfg.helperFuncs).1 := by
  cases hp : cfg.postprocessType with
  | none =>
    refine ⟨_, declare ss [], fun k => ?_, by simp only [finish, hp]; rfl⟩
    have : posted cfg = id := by funext s; simp only [posted, hp, id]
    rw [this, Option.map_id, id]
  | some f =>
    refine ⟨_, (declare ss []).map fun e => (e.1, f e.2), fun k => ?_, by simp only [finish, hp]; rfl⟩
    have : posted cfg = f := by funext s; simp only [posted, hp]
    rw [this, get_map]

theorem gen_posted {env : Env} {srt srt' : Sorter strLt} {cfg : Config} {n : Nat} {primaries deps : List Schema} {H : THeap} {r : THeap × Code × Config}
    (hpre : Untouched cfg H primaries) (hg : gen env srt cfg n primaries deps H = .ok r) {doc name : Str} {d : DeclExpr}
    (hd : GoDecl.type doc name d ∈ (genAST srt' r.2.1).2) :
    (∃ k helper, get cfg.helperTypes k = some helper ∧ helper.name = name ∧ helper.expr = d) ∨
    ∃ id o u, H[id]? = some o ∧ name = publicName env cfg o.name ∧ Means env cfg H id u.expr ∧ (posted cfg u).expr = d := by
  rw [gen_untouched hpre] at hg
  obtain ⟨q, hq, hg⟩ := bind_ok hg
  split at hg
  · cases hg
  · cases hg
    obtain ⟨s, hs, -, he⟩ := genAST_type.mp hd
    dsimp only at hs
    obtain ⟨deps, D, hD, e⟩ := finish_posted srt cfg q.2.1
    rw [e] at hs
    have hx := addAllFuncs_expr (srt.sort ((addHelpers deps D cfg.helperTypes).1.map (·.1))) (addHelpers deps D cfg.helperTypes).1 cfg.helperFuncs name
    rw [hs] at hx
    obtain ⟨v, hv, hve⟩ := Option.map_eq_some_iff.mp hx.symm
    rcases addHelpers_named _ _ _ _ _ hv with hv | ⟨k, hv, hn⟩
    · right
      rw [hD] at hv
      obtain ⟨u, hu, rfl⟩ := Option.map_eq_some_iff.mp hv
      rcases declare_some _ _ _ _ hu with ⟨hm, hn⟩ | hm
      · obtain ⟨id, o, ho, hname, hmean⟩ := traced_means (genSchemas_traced _ _ _ (fun _ h => h) (.refl _ H) hq u hm)
        exact ⟨id, o, u, ho, by rw [← hn, hname], hmean, Eq.trans hve he⟩
      · cases hm
    · left
      exact ⟨k, v, hv, hn, Eq.trans hve he⟩

/-- C108 where options change declarations only if they are structs whose only field is a slice: every other declaration is a helper type, or a type of the
schema with its Go name that says what the schema says about it. -/
theorem C108_altered {env : Env} {srt srt' : Sorter strLt} {n : Nat} {parse : List Doc → Outcome (List Schema × THeap)} {cfg cfg' : Config}
    {docs : List Doc} {schemas : List Schema} {H H' : THeap} {code : Code} (hp : parse docs = .ok (schemas, H))
    (hpre : Untouched cfg H schemas) (hpost : Unaltered cfg)
    (h : genCode env srt n parse cfg docs = (cfg', .done (.ok (H', code)))) {doc name : Str} {d : DeclExpr}
    (hd : GoDecl.type doc name d ∈ (genAST srt' code).2) :
    (∃ k helper, get (addStandardHelpers cfg).helperTypes k = some helper ∧ helper.name = name ∧ helper.expr = d) ∨
    ∃ id o e, H[id]? = some o ∧ name = publicName env cfg o.name ∧ Means env cfg H id e ∧ (d = e ∨ cfg.postprocessType ≠ none ∧ SliceStruct e) := by
  obtain ⟨ns, primaries, r, hg, rfl, -, -, -, hmem⟩ := genCode_ok hp h
  rcases gen_posted (cfg := addStandardHelpers { cfg with namespaces := ns }) (hpre.some_of fun s hs => ((hmem s).mp hs).1) hg hd with
    h | ⟨id, o, u, ho, hn, hm, he⟩
  · exact Or.inl h
  · refine Or.inr ⟨id, o, u.expr, ho, hn, hm, ?_⟩
    by_cases hs : SliceStruct u.expr
    · cases hx : cfg.postprocessType with
      | none => exact Or.inl (by rw [posted_none (cfg := addStandardHelpers { cfg with namespaces := ns }) hx] at he; exact he.symm)
      | some f => exact Or.inr ⟨fun e => (nomatch e), hs⟩
    · have : posted (addStandardHelpers { cfg with namespaces := ns }) u = u := Unaltered.posted (cfg := addStandardHelpers { cfg with namespaces := ns }) hpost hs
      rw [this] at he
      exact Or.inl he.symm

theorem gen_means {env : Env} {srt srt' : Sorter strLt} {cfg : Config} {n : Nat} {primaries deps : List Schema} {H : THeap} {r : THeap × Code × Config}
    (hpre : Untouched cfg H primaries) (hpost : cfg.postprocessType = none) (hg : gen env srt cfg n primaries deps H = .ok r) {doc name : Str} {d : DeclExpr}
    (hd : GoDecl.type doc name d ∈ (genAST srt' r.2.1).2) :
    (∃ k helper, get cfg.helperTypes k = some helper ∧ helper.name = name ∧ helper.expr = d) ∨
    ∃ id o, H[id]? = some o ∧ name = publicName env cfg o.name ∧ Means env cfg H id d := by
  rw [gen_untouched hpre] at hg
  obtain ⟨q, hq, hg⟩ := bind_ok hg
  split at hg
  · cases hg
  · cases hg
    obtain ⟨s, hs, -, he⟩ := genAST_type.mp hd
    dsimp only at hs
    obtain ⟨deps, -, e⟩ := finish_parts (srt := srt) (ss := q.2.1) hpost
    rw [e] at hs
    have hx := addAllFuncs_expr (srt.sort ((addHelpers deps (declare q.2.1 []) cfg.helperTypes).1.map (·.1)))
      (addHelpers deps (declare q.2.1 []) cfg.helperTypes).1 cfg.helperFuncs name
    rw [hs] at hx
    obtain ⟨u, hu, hue⟩ := Option.map_eq_some_iff.mp hx.symm
    rcases addHelpers_named _ _ _ _ _ hu with hu | ⟨k, hu, hn⟩
    · right
      rcases declare_some _ _ _ _ hu with ⟨hm, hn⟩ | hm
      · obtain ⟨id, o, ho, hname, hmean⟩ := traced_means (genSchemas_traced _ _ _ (fun _ h => h) (.refl _ H) hq u hm)
        refine ⟨id, o, ho, ?_, ?_⟩
        · rw [← hn, hname]
        · have hue : u.expr = s.expr := hue
          rw [← he, ← hue]; exact hmean
      · cases hm
    · left
      exact ⟨k, u, hu, hn, Eq.trans hue he⟩

/-- C108: every type that the file made by `GenCode` declares is a helper type, or is a type of the schema with its Go name
and says what the schema says about it. Types are not transformed. -/
theorem C108_means (env : Env) (srt srt' : Sorter strLt) (n : Nat) (parse : List Doc → Outcome (List Schema × THeap)) (cfg cfg' : Config)
    (docs : List Doc) (schemas : List Schema) (H H' : THeap) (code : Code) (hp : parse docs = .ok (schemas, H))
    (hpre : Untouched cfg H schemas) (hpost : cfg.postprocessType = none)
    (h : genCode env srt n parse cfg docs = (cfg', .done (.ok (H', code)))) (doc name : Str) (d : DeclExpr)
    (hd : GoDecl.type doc name d ∈ (genAST srt' code).2) :
    (∃ k helper, get (addStandardHelpers cfg).helperTypes k = some helper ∧ helper.name = name ∧ helper.expr = d) ∨
    ∃ id o, H[id]? = some o ∧ name = publicName env cfg o.name ∧ Means env cfg H id d := by
  obtain ⟨ns, primaries, r, hg, rfl, -, -, -, hmem⟩ := genCode_ok hp h
  exact gen_means (cfg := addStandardHelpers { cfg with namespaces := ns }) (hpre.some_of fun s hs => ((hmem s).mp hs).1) hpost hg hd

/-- A list, a union, an enumeration, a type that extends another by an element and an attribute, and a type that adds
nothing: the declarations are those of the types that add something, and each says what C108 says of it. -/
def C108_heap : THeap :=
  [.simple { name := ⟨b!"u", b!"sizes"⟩, base := some (.builtin 28), list := true },
   .simple { name := ⟨b!"u", b!"either"⟩, base := some (.builtin 3), union := [.builtin 28, .builtin 38] },
   .simple { name := ⟨b!"u", b!"colour"⟩, base := some (.builtin 38), restriction := { enum := [b!"red", b!"blue"] } },
   .complex { name := ⟨b!"u", b!"base"⟩, base := some (.builtin AnyType), elements := [{ name := ⟨b!"u", b!"a"⟩, type := .obj 5, plural := true }] },
   .complex { name := ⟨b!"u", b!"more"⟩, base := some (.obj 3), extends_ := true,
              elements := [{ name := ⟨b!"u", b!"b"⟩, type := .obj 0 }],
              attributes := [{ name := ⟨[], b!"c"⟩, type := .obj 2, optional := true }] },
   .simple { name := ⟨b!"u", b!"alias"⟩, base := some (.builtin 38) }]

example : (C101_code C108_heap).map (fun x => declaredExprs (genAST (Sorter.byKey fun s => s) x.2.2).2) =
    some [(b!"Base", .struct [⟨b!"A", .array (.ident b!"string"), b!"xml:\"u a\""⟩]),
      (b!"Colour", .plain (.ident b!"string")), (b!"Either", .plain (.ident b!"string")),
      (b!"More", .struct [⟨b!"A", .array (.ident b!"string"), b!"xml:\"u a\""⟩,
        ⟨b!"B", .ident b!"Sizes", b!"xml:\"u b\""⟩, ⟨b!"C", .ident b!"Colour", b!"xml:\"c,attr,omitempty\""⟩]),
      (b!"Sizes", .plain (.array (.ident b!"int")))] := by decide +kernel

/-! ### C100 -/

/-- C100, as far as it holds: a selected simple type that is itself a list is declared, and every declaration with its
name is a slice. No other type may have the same Go name. What is missing: types that restrict a list, see
`C100_slice_refuted`. -/
theorem C100_slice_partial (env : Env) (srt srt' : Sorter strLt) (n : Nat) (parse : List Doc → Outcome (List Schema × THeap)) (cfg cfg' : Config)
    (docs : List Doc) (schemas : List Schema) (H H' : THeap) (code : Code) (hp : parse docs = .ok (schemas, H)) (hres : Resolved H)
    (htop : ∀ s ∈ schemas, ∀ e ∈ s.types, ∀ m, e.2 ≠ .link m) (hown : OwnNames H)
    (hpre : Untouched cfg H schemas) (hpost : Unaltered cfg)
    (h : genCode env srt n parse cfg docs = (cfg', .done (.ok (H', code))))
    (s : Schema) (hs : s ∈ schemas) (hns : s.targetNS ∈ cfg.namespaces) (k : XName) (id : Nat) (he : (k, Ty.obj id) ∈ s.types) (t : SimpleT)
    (ht : H[id]? = some (.simple t)) (hsel : Selected cfg t.name) (hname : t.name.loc ≠ [] ∧ t.name.loc ≠ b!"_self")
    (hhelp : ∀ k helper, get (addStandardHelpers cfg).helperTypes k = some helper → helper.name ≠ publicName env cfg t.name)
    (hone : ∀ j o, H[j]? = some o → publicName env cfg o.name = publicName env cfg t.name → j = id)
    (hlist : t.list = true) :
    (∃ doc d, GoDecl.type doc (publicName env cfg t.name) d ∈ (genAST srt' code).2) ∧
    ∀ doc d, GoDecl.type doc (publicName env cfg t.name) d ∈ (genAST srt' code).2 →
      ∃ b item, Below H id b ∧ exprOf env cfg H b = .ok item ∧ d = .plain (.array item) := by
  refine ⟨C97_declared env srt srt' n parse cfg cfg' docs schemas H H' code hp hres htop hown hpre h s hs hns k id he _ ht hsel
    (Or.inl (Or.inl hlist)) hname, ?_⟩
  intro doc d hd
  rcases C108_altered hp hpre hpost h hd with ⟨k', helper, hk, hn, -⟩ | ⟨j, o, x, hj, hn, hm, hx⟩
  · exact (hhelp k' helper hk hn).elim
  · cases hone j o hj hn.symm
    obtain ⟨b, item, h1, h2, rfl⟩ := (hm.1 t ht).1 hlist
    rcases hx with rfl | ⟨-, f, elt, e, -⟩
    · exact ⟨b, item, h1, h2, rfl⟩
    · cases e

/-- The list of `C108_heap` meets the conditions: its name is that of no helper and of no other type. -/
example : (∀ x ∈ (addStandardHelpers C101_cfg).helperTypes, x.2.name ≠ publicName asciiEnv C101_cfg ⟨b!"u", b!"sizes"⟩) ∧
    (C108_heap.map fun (o : TObj) => publicName asciiEnv C101_cfg o.name).Nodup ∧ Resolved C108_heap ∧ OwnNames C108_heap ∧
    (C101_code C108_heap).isSome = true :=
  ⟨by decide +kernel, by decide +kernel, resolved_of (by decide +kernel), ownNames_of (by decide +kernel), by decide +kernel⟩

/-- C100 fails: a type that restricts a list of integers by a length is declared as one integer. -/
theorem C100_slice_refuted :
    let H : THeap := [.simple { name := ⟨b!"u", b!"sizes"⟩, base := some (.builtin 28), list := true },
      .simple { name := ⟨b!"u", b!"three"⟩, base := some (.obj 0), restriction := { maxLength := 3 } }]
    Resolved H ∧ OwnNames H ∧ IsList H 1 ∧ (C101_schemas H).any (fun s => s.types.any fun e => e == (⟨b!"u", b!"three"⟩, Ty.obj 1)) = true ∧
    ∃ cfg' H' code, genCode asciiEnv (Sorter.byKey fun s => s) 20 (C101_parse H) C101_cfg [] = (cfg', .done (.ok (H', code))) ∧
      declaredExprs (genAST (Sorter.byKey fun s => s) code).2 =
        [(b!"Sizes", .plain (.array (.ident b!"int"))), (b!"Three", .plain (.ident b!"int"))] := by
  intro H
  have key : (C101_code H).map (fun x => declaredExprs (genAST (Sorter.byKey fun s => s) x.2.2).2) =
      some [(b!"Sizes", .plain (.array (.ident b!"int"))), (b!"Three", .plain (.ident b!"int"))] := by decide +kernel
  refine ⟨resolved_of (by decide +kernel), ownNames_of (by decide +kernel), .step rfl rfl (.here rfl rfl), by decide +kernel, ?_⟩
  obtain ⟨x, hx, he⟩ := Option.map_eq_some_iff.mp key
  exact ⟨x.1, x.2.1, x.2.2, C101_code_some hx, he⟩

end GoXml.Xsdgen
