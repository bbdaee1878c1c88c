import Verif.Proofs.XsdgenListFlat
import Verif.Props.XsdgenMeaning
import Verif.Props.XsdgenListCode
set_option autoImplicit false

/-! Properties C99 and C100 for whole files: whatever type the items of a list are of, what is declared is a slice of the Go type of
the built-in type that this is derived from. -/

namespace GoXml.Xsdgen
open Xsd GoMap

theorem Ancestor.builtinUnder {H : THeap} {t : Ty} {b : Builtin} : ∀ {a : Ty}, Ancestor H t a → a = .builtin b → BuiltinUnder H t b := by
  intro a h
  induction h with
  | self t => rintro rfl; exact .here b
  | base hb _ ih => exact fun e => .step hb (ih e)

theorem Below.builtinUnder {H : THeap} {id : Nat} {b : Builtin} (h : Below H id (.builtin b)) (hb : b ≠ AnyType) : BuiltinUnder H (.obj id) b := by
  rcases h.stands with h | ⟨h, -⟩
  · exact h.builtinUnder rfl
  · cases h; exact absurd rfl hb

/-- Nothing that is declared for a simple type is a struct. -/
theorem genSimpleType_plain {env : Env} {cfg : Config} {n : Nat} {H : THeap} {id : Nat} {t : SimpleT} {ss : List Spec}
    (h : genSimpleType env cfg n H id t = .ok ss) (u : Spec) (hu : u ∈ ss) : ¬ SliceStruct u.expr := by
  suffices ∃ x, u.expr = .plain x by
    obtain ⟨x, hx⟩ := this
    rintro ⟨f, elt, e, -⟩
    rw [hx] at e
    cases e
  unfold genSimpleType at h
  split at h
  · unfold genSimpleListSpec at h
    split at h
    · cases h
    · obtain ⟨x, -, h⟩ := bind_ok h
      obtain ⟨y, -, h⟩ := bind_ok h
      split at h
      · split at h
        · cases h
        · cases h
        · cases h; rw [List.mem_singleton.mp hu]; exact ⟨_, rfl⟩
      · cases h
  · dsimp only at h
    split at h
    · cases h; rw [List.mem_singleton.mp hu]; exact ⟨_, rfl⟩
    · split at h
      · cases h
      · obtain ⟨x, -, h⟩ := bind_ok h
        split at h
        · split at h
          · cases h
          · cases h; rw [List.mem_singleton.mp hu]; exact ⟨_, rfl⟩
        · cases h; rw [List.mem_singleton.mp hu]; exact ⟨_, rfl⟩

/-- What is declared for a simple type with something to say is generated from it after it has been flattened. -/
theorem gen_flat {env : Env} {srt srt' : Sorter strLt} {cfg : Config} {n : Nat} {primaries deps : List Schema} {H : THeap} {r : THeap × Code × Config}
    (hpre : Untouched cfg H primaries) (hpost : Unaltered cfg) (hl : Linked H) (hown : OwnNames H)
    (htop : ∀ s ∈ primaries, ∀ e ∈ s.types, ∀ m, e.2 ≠ .link m) (hg : gen env srt cfg n primaries deps H = .ok r)
    {s : Schema} (hs : s ∈ primaries) {k : XName} {id : Nat} (he : (k, Ty.obj id) ∈ s.types) {t : SimpleT}
    (ht : H[id]? = some (.simple t)) (hsay : HasContent cfg (.simple t)) (hsk : skipped cfg t.name = false) (hn0 : t.name ≠ ⟨[], []⟩)
    (hhelp : ∀ k helper, get cfg.helperTypes k = some helper → helper.name ≠ publicName env cfg t.name)
    (hone : ∀ j o, H[j]? = some o → publicName env cfg o.name = publicName env cfg t.name → j = id)
    {doc : Str} {d : DeclExpr} (hd : GoDecl.type doc (publicName env cfg t.name) d ∈ (genAST srt' r.2.1).2) :
    ∃ (G : THeap) (s1 : SimpleT) (ss : List Spec), (∀ b, s1.base = some b → ∃ i, b = .builtin i ∧ Below H id (.builtin i)) ∧
      s1.list = t.list ∧ s1.union = t.union ∧ genSimpleType env cfg n G id s1 = .ok ss ∧ ∃ u ∈ ss, u.expr = d := by
  rw [gen_untouched hpre] at hg
  obtain ⟨q, hq, hg⟩ := bind_ok hg
  split at hg
  · cases hg
  · rename_i hflag
    cases hg
    obtain ⟨pre, post, happ, hex, htr⟩ := genSchemas_simpleFlat _ H q t hl (.refl _ H) hown (by
      intro types ht t htt
      obtain ⟨s, hs, rfl⟩ := List.mem_map.mp ht
      obtain ⟨e, he, rfl⟩ := List.mem_map.mp htt
      have := htop s hs e he
      cases he2 : e.2 with
      | link m => exact absurd he2 (this m)
      | _ => trivial) ht hsay hsk hn0 hq (by simpa using hflag) _ (List.mem_map.mpr ⟨s, hs, rfl⟩) (List.mem_map.mpr ⟨_, he, rfl⟩)
    obtain ⟨v, hv, -, hve⟩ := genAST_type.mp hd
    dsimp only at hv
    obtain ⟨deps, D, hD, e⟩ := finish_posted srt cfg q.2.1
    rw [e] at hv
    have hx := addAllFuncs_expr (srt.sort ((addHelpers deps D cfg.helperTypes).1.map (·.1))) (addHelpers deps D cfg.helperTypes).1 cfg.helperFuncs
      (publicName env cfg t.name)
    rw [hv] at hx
    obtain ⟨w, hw, hue⟩ := Option.map_eq_some_iff.mp hx.symm
    rcases addHelpers_named _ _ _ _ _ hw with hw | ⟨k, hw, hn⟩
    · rw [hD, happ, declare_append] at hw
      obtain ⟨u, hu, rfl⟩ := Option.map_eq_some_iff.mp hw
      obtain ⟨hup, hun⟩ := declare_last hex hu
      obtain ⟨G, j, r', hk, ⟨s1, hs1, hflat⟩, hr', hur⟩ := htr u hup
      obtain ⟨-, hname, j', o', ej, ho'⟩ := genTypeSpec_type hr' u hur
      cases ej
      obtain ⟨o, ho, hko⟩ := hk.objs j o' ho'
      have hj : j = id := hone j o ho (by
        rw [← hun, hname, hk.names]
        simp only [xmlName, ho])
      subst hj
      rw [hs1] at ho'
      cases ho'
      rw [ht] at ho
      cases ho
      obtain ⟨-, k2, k3, -⟩ := hko
      simp only [genTypeSpec, hs1] at hr'
      obtain ⟨ss, hss, hr'⟩ := bind_ok hr'
      cases hr'
      rw [hpost.posted (genSimpleType_plain hss u hur)] at hue
      refine ⟨G, s1, ss, fun b hb => ?_, k2, k3, hss, u, hur, hue.trans hve⟩
      obtain ⟨i, rfl⟩ := hflat b hb
      exact ⟨i, rfl, hk.bases.some_ j _ (by simp only [baseOf, hs1]; exact hb)⟩
    · exact absurd hn (hhelp k w hw)

theorem gen_list {env : Env} {srt srt' : Sorter strLt} {cfg : Config} {n : Nat} {primaries deps : List Schema} {H : THeap} {r : THeap × Code × Config}
    (hpre : Untouched cfg H primaries) (hpost : Unaltered cfg) (hl : Linked H) (hown : OwnNames H)
    (htop : ∀ s ∈ primaries, ∀ e ∈ s.types, ∀ m, e.2 ≠ .link m) (hg : gen env srt cfg n primaries deps H = .ok r)
    {s : Schema} (hs : s ∈ primaries) {k : XName} {id : Nat} (he : (k, Ty.obj id) ∈ s.types) {t : SimpleT}
    (ht : H[id]? = some (.simple t)) (hlist : t.list = true) (hsk : skipped cfg t.name = false) (hn0 : t.name ≠ ⟨[], []⟩)
    (hhelp : ∀ k helper, get cfg.helperTypes k = some helper → helper.name ≠ publicName env cfg t.name)
    (hone : ∀ j o, H[j]? = some o → publicName env cfg o.name = publicName env cfg t.name → j = id)
    {doc : Str} {d : DeclExpr} (hd : GoDecl.type doc (publicName env cfg t.name) d ∈ (genAST srt' r.2.1).2) :
    ∃ b item codec, BuiltinUnder H (.obj id) b ∧ builtinExpr b = .ok (some item) ∧ listCodec b = some codec ∧ codec ≠ .bools ∧ d = .plain (.array item) := by
  obtain ⟨G, s1, ss, hflat, k2, -, hss, u, hur, hue⟩ := gen_flat hpre hpost hl hown htop hg hs he ht (Or.inl hlist) hsk hn0 hhelp hone hd
  have hl1 : s1.list = true := by rw [k2]; exact hlist
  cases hb : s1.base with
  | none =>
    simp only [genSimpleType, hl1, if_true, genSimpleListSpec, hb] at hss
    cases hss
  | some t1 =>
    obtain ⟨b, rfl, hbelow⟩ := hflat t1 hb
    obtain ⟨item, codec, h1, h2, h3, rfl⟩ := genSimpleType_list hl1 hb hss
    rw [List.mem_singleton] at hur
    subst hur
    exact ⟨b, item, codec, hbelow.builtinUnder (fun e => by subst e; cases h2), h1, h2, h3, hue.symm⟩

/-- The same for all simple types: what is declared is given by the built-in type that the type is derived from. -/
theorem gen_simple {env : Env} {srt srt' : Sorter strLt} {cfg : Config} {n : Nat} {primaries deps : List Schema} {H : THeap} {r : THeap × Code × Config}
    (hpre : Untouched cfg H primaries) (hpost : Unaltered cfg) (hl : Linked H) (hown : OwnNames H)
    (htop : ∀ s ∈ primaries, ∀ e ∈ s.types, ∀ m, e.2 ≠ .link m) (hg : gen env srt cfg n primaries deps H = .ok r)
    {s : Schema} (hs : s ∈ primaries) {k : XName} {id : Nat} (he : (k, Ty.obj id) ∈ s.types) {t : SimpleT}
    (ht : H[id]? = some (.simple t)) (hsay : HasContent cfg (.simple t)) (hsk : skipped cfg t.name = false) (hn0 : t.name ≠ ⟨[], []⟩)
    (hhelp : ∀ k helper, get cfg.helperTypes k = some helper → helper.name ≠ publicName env cfg t.name)
    (hone : ∀ j o, H[j]? = some o → publicName env cfg o.name = publicName env cfg t.name → j = id)
    {doc : Str} {d : DeclExpr} (hd : GoDecl.type doc (publicName env cfg t.name) d ∈ (genAST srt' r.2.1).2) :
    (t.list = true → ∃ b x, Below H id (.builtin b) ∧ builtinExpr b = .ok (some x) ∧ d = .plain (.array x)) ∧
    (t.list = false → t.union ≠ [] → d = .plain (.ident b!"string")) ∧
    (t.list = false → t.union = [] → ∃ b x, Below H id (.builtin b) ∧ builtinExpr b = .ok (some x) ∧ d = .plain x) := by
  obtain ⟨G, s1, ss, hflat, k2, k3, hss, u, hur, hue⟩ := gen_flat hpre hpost hl hown htop hg hs he ht hsay hsk hn0 hhelp hone hd
  rw [← k2, ← k3]
  subst hue
  refine ⟨fun h1 => ?_, fun h1 h2 => ?_, fun h1 h2 => ?_⟩
  · cases hb : s1.base with
    | none =>
      simp only [genSimpleType, h1, if_true, genSimpleListSpec, hb] at hss
      cases hss
    | some t1 =>
      obtain ⟨b, rfl, hbelow⟩ := hflat t1 hb
      obtain ⟨item, codec, g1, g2, g3, rfl⟩ := genSimpleType_list h1 hb hss
      rw [List.mem_singleton] at hur
      subst hur
      exact ⟨b, item, hbelow, g1, rfl⟩
  · simp only [genSimpleType, h1] at hss
    rw [if_neg (by decide), if_pos h2] at hss
    cases hss
    rw [List.mem_singleton] at hur
    subst hur
    rfl
  · simp only [genSimpleType, h1] at hss
    rw [if_neg (by decide), if_neg (fun hne => hne h2)] at hss
    cases hb : s1.base with
    | none => rw [hb] at hss; cases hss
    | some t1 =>
      obtain ⟨b, rfl, hbelow⟩ := hflat t1 hb
      rw [hb] at hss
      dsimp only at hss
      obtain ⟨x, hx, hss⟩ := bind_ok hss
      have hxb : builtinExpr b = .ok (some x) := by
        simp only [exprOf] at hx
        obtain ⟨o, ho, hx⟩ := bind_ok hx
        cases o with
        | none => cases hx
        | some y => cases hx; exact ho
      refine ⟨b, x, hbelow, hxb, ?_⟩
      split at hss
      · split at hss
        · cases hss
        · cases hss
          rw [List.mem_singleton] at hur
          subst hur
          rfl
      · cases hss
        rw [List.mem_singleton] at hur
        subst hur
        rfl

/-- C99 and C100 for the file that `GenCode` makes, as far as they hold: every declaration with the name of a selected list is a slice
of the Go type of the built-in type that the type of its items is derived from, in any number of steps, and the bodies of its two
methods compile, unless this built-in type is `QName`, a date or time, or `UnsignedLong` (`C99_compiles_refuted`). No other type may
have the same Go name. What is missing for C100: types that restrict a list, see `C100_slice_refuted`. -/
theorem C99_file_partial (env : Env) (srt srt' : Sorter strLt) (n : Nat) (parse : List Doc → Outcome (List Schema × THeap)) (cfg cfg' : Config)
    (docs : List Doc) (schemas : List Schema) (H H' : THeap) (code : Code) (hp : parse docs = .ok (schemas, H)) (hres : Resolved H)
    (htop : ∀ s ∈ schemas, ∀ e ∈ s.types, ∀ m, e.2 ≠ .link m) (hown : OwnNames H)
    (hpre : Untouched cfg H schemas) (hpost : Unaltered cfg)
    (h : genCode env srt n parse cfg docs = (cfg', .done (.ok (H', code))))
    (s : Schema) (hs : s ∈ schemas) (hns : s.targetNS ∈ cfg.namespaces) (k : XName) (id : Nat) (he : (k, Ty.obj id) ∈ s.types) (t : SimpleT)
    (ht : H[id]? = some (.simple t)) (hsel : Selected cfg t.name) (hname : t.name.loc ≠ [] ∧ t.name.loc ≠ b!"_self")
    (hhelp : ∀ k helper, get (addStandardHelpers cfg).helperTypes k = some helper → helper.name ≠ publicName env cfg t.name)
    (hone : ∀ j o, H[j]? = some o → publicName env cfg o.name = publicName env cfg t.name → j = id)
    (hlist : t.list = true) :
    (∃ doc d, GoDecl.type doc (publicName env cfg t.name) d ∈ (genAST srt' code).2) ∧
    ∀ doc d, GoDecl.type doc (publicName env cfg t.name) d ∈ (genAST srt' code).2 →
      ∃ b item codec m u, BuiltinUnder H (.obj id) b ∧ builtinExpr b = .ok (some item) ∧ d = .plain (.array item) ∧
        listCodec b = some codec ∧ listCode item codec = some (m, u) ∧ (b ∉ badItems → ListCompiles item m u) := by
  refine ⟨C97_declared env srt srt' n parse cfg cfg' docs schemas H H' code hp hres htop hown hpre h s hs hns k id he _ ht hsel
    (Or.inl (Or.inl hlist)) hname, ?_⟩
  intro doc d hd
  obtain ⟨ns, primaries, r, hg, rfl, -, -, hne, hmem⟩ := genCode_ok hp h
  have hns' : ns = cfg.namespaces := hne (fun e => by rw [e] at hns; cases hns)
  obtain ⟨b, item, codec, h1, h2, h3, h4, h5⟩ := gen_list (cfg := addStandardHelpers { cfg with namespaces := ns }) (hpre.some_of fun s hs => ((hmem s).mp hs).1) hpost hres.linked hown
    (fun s hs => htop s ((hmem s).mp hs).1) hg ((hmem s).mpr ⟨hs, by rw [hns']; exact hns⟩) he ht hlist
    ((skipped_iff _ _).mpr ⟨hname.2, hsel⟩) (fun e => hname.1 (by rw [e])) hhelp hone hd
  have hcode : ∃ m u, listCode item codec = some (m, u) := by
    cases codec with
    | bools => exact absurd rfl h4
    | _ => exact ⟨_, _, rfl⟩
  obtain ⟨m, u, hmu⟩ := hcode
  refine ⟨b, item, codec, m, u, h1, h2, h5, h3, hmu, fun hb => ?_⟩
  have hv : bodiesCompile b = true := by
    rw [bodiesCompile_all b (listCodec_items h3) (fun e => h4 (by subst e; cases h3; rfl)) (by rw [h2]; simp [Run.toOption])]
    simpa using hb
  simp only [bodiesCompile, h2, h3, hmu] at hv
  simpa using hv

/-- A list of the values of an enumeration: it is derived from the strings in two steps, and declared as a slice of strings. -/
def C99_heap : THeap :=
  [.simple { name := ⟨b!"u", b!"colours"⟩, base := some (.obj 1), list := true },
   .simple { name := ⟨b!"u", b!"colour"⟩, base := some (.builtin 38), restriction := { enum := [b!"red", b!"blue"] } }]

example : (∀ x ∈ (addStandardHelpers C101_cfg).helperTypes, x.2.name ≠ publicName asciiEnv C101_cfg ⟨b!"u", b!"colours"⟩) ∧
    (C99_heap.map fun (o : TObj) => publicName asciiEnv C101_cfg o.name).Nodup ∧ Resolved C99_heap ∧ OwnNames C99_heap ∧
    BuiltinUnder C99_heap (.obj 0) 38 ∧
    (C101_code C99_heap).map (fun x => declaredExprs (genAST (Sorter.byKey fun s => s) x.2.2).2) =
      some [(b!"Colour", .plain (.ident b!"string")), (b!"Colours", .plain (.array (.ident b!"string")))] :=
  ⟨by decide +kernel, by decide +kernel, resolved_of (by decide +kernel), ownNames_of (by decide +kernel), .step rfl (.step rfl (.here 38)), by decide +kernel⟩

end GoXml.Xsdgen
