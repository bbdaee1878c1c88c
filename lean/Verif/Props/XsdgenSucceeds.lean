import Verif.Proofs.XsdgenAcceptedCheck
import Verif.Props.XsdgenDocuments
set_option autoImplicit false

/-! Property C153: code is generated for the schemas that `Parse` accepts. -/

namespace GoXml.Xsdgen
open Xsd GoMap

/-- C153 in full: if `Parse` accepts the schemas, no option changes the types before code is generated, and there is a schema for
each of the namespaces, then `GenCode` answers with code; the recursion ends. -/
def C153_generates_full : Prop :=
  ∀ (env : Env) (srt : Sorter strLt) (parse : List Doc → Outcome (List Schema × THeap)) (penv : ParseEnv) (ord : MapOrder) (roots : List Element)
    (cfg : Config) (docs : List Doc) (schemas : List Schema) (H : THeap), parse docs = parseSchemas penv ord roots →
    parseSchemas penv ord roots = .ok (schemas, H) → Untouched cfg H schemas → (wanted cfg docs).Nodup →
    (∀ x ∈ wanted cfg docs, ∃ s ∈ schemas, s.targetNS = x) → ∃ n cfg' r, genCode env srt n parse cfg docs = (cfg', .done (.ok r))

/-- C153, partial: code is generated for types that can be told apart, refer to types that there are, are derived from built-in types, and
are lists of types that xsdgen makes lists of, no matter how they refer to each other. Calls nest no deeper than the types are many. -/
theorem C153_types_partial (env : Env) (srt : Sorter strLt) (n : Nat) (parse : List Doc → Outcome (List Schema × THeap)) (cfg : Config)
    (docs : List Doc) (schemas : List Schema) (H : THeap) (hp : parse docs = .ok (schemas, H)) (h : Coherent H) (hl : Listed H)
    (ht : ∀ s ∈ schemas, ∀ e ∈ s.types, Present H e.2) (hpre : Untouched cfg H schemas) (hd : (wanted cfg docs).Nodup)
    (hf : ∀ x ∈ wanted cfg docs, ∃ s ∈ schemas, s.targetNS = x) (hn : H.length + 3 ≤ n) :
    ∃ cfg' r, genCode env srt n parse cfg docs = (cfg', .done (.ok r)) := by
  obtain ⟨cfg', r, -, -, e, -⟩ := genCode_succeeds env srt hp h hl hn ht hpre hd hf
  exact ⟨cfg', r, e⟩

/-- C153, partial: the same for orderly and regular schemas. Missing for C153: lists of the types that xsdgen makes no lists of, fields of the
types of XML attributes, types that are derived from themselves, and schemas that are not orderly and regular, as after `Normalize`. -/
theorem C153_documents_partial (env : Env) (srt : Sorter strLt) (n : Nat) (parse : List Doc → Outcome (List Schema × THeap)) (penv : ParseEnv)
    (ord : MapOrder) (roots : List Element) (cfg : Config) (docs : List Doc) (schemas : List Schema) (H : THeap)
    (hparse : parse docs = parseSchemas penv ord roots) (hp : parseSchemas penv ord roots = .ok (schemas, H)) (ho : Orderly roots)
    (hr : Regular roots) (hb : ∀ o ∈ H, o.base ≠ none)
    (hfields : ∀ (id : Nat) c, H[id]? = some (.complex c) → (∀ e ∈ c.elements, ∀ b, e.type = .builtin b → InSchema b) ∧
      ∀ a ∈ c.attributes, ∀ b, a.type = .builtin b → InSchema b)
    (hself : ∀ (id : Nat) b, baseOf H (.obj id) = some b → ¬ Ancestor H b (.obj id)) (hl : Listed H)
    (hpre : Untouched cfg H schemas) (hd : (wanted cfg docs).Nodup)
    (hf : ∀ x ∈ wanted cfg docs, ∃ s ∈ schemas, s.targetNS = x) (hn : H.length + 3 ≤ n) :
    ∃ cfg' r, genCode env srt n parse cfg docs = (cfg', .done (.ok r)) := by
  obtain ⟨h1, h2⟩ := parse_coherent ho hr hp hb hfields hself
  obtain ⟨cfg', r, -, -, e, -⟩ := genCode_succeeds env srt (hparse.trans hp) h1 hl hn h2 hpre hd hf
  exact ⟨cfg', r, e⟩

/-- The schemas of orders and of states meet the conditions, whatever the names become: a type that uses itself, a list, a union, an
enumeration, and a complex type derived from a simple one. -/
example : ∃ roots schemas H, ordersRoots = some roots ∧ Orderly roots ∧ Regular roots ∧
    parseSchemas testEnv Xsd.inOrder roots = .ok (schemas, H) ∧ H.length = 8 ∧ (∀ o ∈ H, o.base ≠ none) ∧
    (∀ (id : Nat) c, H[id]? = some (.complex c) → (∀ e ∈ c.elements, ∀ b, e.type = .builtin b → InSchema b) ∧
      ∀ a ∈ c.attributes, ∀ b, a.type = .builtin b → InSchema b) ∧
    (∀ (id : Nat) b, baseOf H (.obj id) = some b → ¬ Ancestor H b (.obj id)) ∧ Listed H ∧
    Untouched ordersConfig H schemas ∧ (wanted ordersConfig []).Nodup ∧ (∀ x ∈ wanted ordersConfig [], ∃ s ∈ schemas, s.targetNS = x) ∧
    ∀ env srt, ∃ cfg' r, genCode env srt 11 (fun _ => parseSchemas testEnv Xsd.inOrder roots) ordersConfig [] = (cfg', .done (.ok r)) := by
  have : ordersTypes.map (fun (x : List Element × List Schema × THeap) => orderlyOk x.1 && regularOk x.1 &&
      acceptedOk [0, 0, 0, 0, 1, 0, 0, 0] x.2.2 && decide (∀ n ∈ wanted ordersConfig [], ∃ s ∈ x.2.1, s.targetNS = n) &&
      decide (x.2.2.length = 8)) = some true := by decide +kernel
  obtain ⟨⟨roots, schemas, H⟩, hx, h⟩ := Option.map_eq_some_iff.mp this
  rw [Bool.and_eq_true, Bool.and_eq_true, Bool.and_eq_true, Bool.and_eq_true, decide_eq_true_iff, decide_eq_true_iff] at h
  obtain ⟨⟨⟨⟨ho, hr⟩, ha⟩, hf⟩, hl⟩ := h
  obtain ⟨h1, h2, h3, h4⟩ := acceptedOk_of ha
  have hpre : Untouched ordersConfig H schemas := fun pre e => by cases e
  cases hroots : ordersRoots with
  | none => rw [ordersTypes, hroots] at hx; cases hx
  | some roots' =>
    rw [ordersTypes, hroots] at hx
    dsimp only [Option.bind_some] at hx
    cases hp : parseSchemas testEnv Xsd.inOrder roots' with
    | ok r =>
      rw [hp] at hx
      cases hx
      exact ⟨_, schemas, H, rfl, orderly_of ho, regular_of hr, hp, hl, h1, h2, h3, h4, hpre, by decide, hf, fun env srt =>
        C153_documents_partial env srt 11 _ testEnv Xsd.inOrder roots ordersConfig [] schemas H rfl hp (orderly_of ho) (regular_of hr) h1 h2 h3 h4
          hpre (by decide) hf (by rw [show H.length = 8 from hl])⟩
    | _ => rw [hp] at hx; cases hx

/-- An option that changes types leaves alone those that are not arrays of SOAP. -/
example : Untouched { preprocessType := some fun _ t H => match t with
      | some (.obj 7) => (none, [])
      | t => (t, H) } [.simple { name := ⟨b!"u", b!"s"⟩, base := some (.builtin 38) }]
    [{ targetNS := b!"u", types := [(⟨b!"u", b!"s"⟩, .obj 0)] }] := by
  intro pre e s hs x hx all
  cases e
  cases List.mem_singleton.mp hs
  cases List.mem_singleton.mp hx
  rfl

/-! ### Lists -/

/-- A schema with a list of items of the given type. -/
def listDoc (item : Str) : Str :=
  b!"<xs:schema xmlns:xs=\"http://www.w3.org/2001/XMLSchema\" xmlns=\"urn:u\" targetNamespace=\"urn:u\">" ++
  b!"<xs:simpleType name=\"T\"><xs:list itemType=\"" ++ item ++ b!"\"/></xs:simpleType></xs:schema>"

def listOf (b : Builtin) : THeap := [.simple { name := ⟨b!"urn:u", b!"T"⟩, base := some (.builtin b), list := true }]

def listSchemas : List Schema := [{ targetNS := b!"urn:u", types := [(⟨b!"urn:u", b!"T"⟩, .obj 0)] }]

/-- How `GenCode` ends for a list of items of the given type. -/
def listEnds (b : Builtin) : Bool :=
  match (genCode asciiEnv (Sorter.byKey fun s => s) 10 (fun _ => .ok (listSchemas, listOf b)) { namespaces := [b!"urn:u"] } []).2 with
  | .done (.ok _) => true
  | _ => false

/-- The types that C153 excludes from lists are those that there is no code for lists of: of all types of XML Schema, exactly these make
`GenCode` fail. -/
theorem C153_lists (b : Builtin) (hb : InSchema b) : listEnds b = true ↔ (builtinName b).loc ∉ unlisted := by
  have key : ∀ i ∈ List.range 50, InSchema (Int.ofNat i) → (listEnds (Int.ofNat i) = true ↔ (builtinName (Int.ofNat i)).loc ∉ unlisted) := by
    decide +kernel
  obtain ⟨i, rfl⟩ := Int.eq_ofNat_of_zero_le hb.1
  have h := key i (List.mem_range.mpr (Int.ofNat_lt.mp hb.2.1))
  exact h hb

/-- The schema with a list of booleans after `Normalize`. -/
def flagsRoots : Option (List Element) := (parseDocs [listDoc b!"xs:boolean"]).bind (normalize doubling 10)

/-- What `Parse` makes of it. -/
def flagsTypes : Option (List Element × List Schema × THeap) := flagsRoots.bind fun roots =>
  match parseSchemas testEnv Xsd.inOrder roots with
  | .ok r => some (roots, r)
  | _ => none

def flagsHeap : THeap := listOf 14 ++ [.complex { name := ⟨b!"urn:u", b!"_self"⟩, base := some (.builtin 0) }]

/-- C153 is false for a list of booleans: the code for such lists is not Go. -/
theorem C153_booleans_refuted : ¬ C153_generates_full := by
  intro hall
  have : flagsTypes.map (fun (x : List Element × List Schema × THeap) => orderlyOk x.1 && decide (x.2.2 = flagsHeap) &&
      decide (∃ s ∈ x.2.1, s.targetNS = b!"urn:u" ∧ (⟨b!"urn:u", b!"T"⟩, Ty.obj 0) ∈ s.types)) = some true := by decide +kernel
  obtain ⟨⟨roots, schemas, H⟩, hx, h⟩ := Option.map_eq_some_iff.mp this
  rw [Bool.and_eq_true, Bool.and_eq_true, decide_eq_true_iff, decide_eq_true_iff] at h
  obtain ⟨⟨ho, hH⟩, s, hs, hsn, hsm⟩ := h
  dsimp only at hH
  subst hH
  have hp : parseSchemas testEnv Xsd.inOrder roots = .ok (schemas, flagsHeap) := by
    cases hroots : flagsRoots with
    | none => rw [flagsTypes, hroots] at hx; cases hx
    | some roots' =>
      rw [flagsTypes, hroots] at hx
      dsimp only [Option.bind_some] at hx
      cases hp : parseSchemas testEnv Xsd.inOrder roots' with
      | ok r =>
        rw [hp] at hx
        cases hx
        exact hp
      | _ => rw [hp] at hx; cases hx
  let cfg : Config := { namespaces := [b!"urn:u"] }
  obtain ⟨n, cfg', r, hg⟩ := hall asciiEnv (Sorter.byKey fun s => s) (fun _ => parseSchemas testEnv Xsd.inOrder roots) testEnv Xsd.inOrder roots cfg []
    schemas flagsHeap rfl hp (fun pre e => by cases e) (by decide) (by
      intro x hx
      cases List.mem_singleton.mp hx
      exact ⟨s, hs, hsn⟩)
  have hhelp : ∀ p ∈ (addStandardHelpers cfg).helperTypes, p.2.name ≠ publicName asciiEnv cfg ⟨b!"urn:u", b!"T"⟩ := by decide +kernel
  have hc := C99_documents_partial asciiEnv (Sorter.byKey fun s => s) (Sorter.byKey fun s => s) n (fun _ => parseSchemas testEnv Xsd.inOrder roots)
    testEnv Xsd.inOrder roots cfg cfg' [] schemas flagsHeap r.1 r.2 rfl hp (orderly_of ho) (untouched_none rfl) (unaltered_none rfl) hg s hs (by rw [hsn]; exact List.mem_singleton.mpr rfl)
    _ 0 hsm _ rfl ⟨fun _ h => (by cases h), fun _ h => (by cases h)⟩ ⟨by decide, by decide⟩
    (fun k helper hk => hhelp _ (get_some_mem hk)) (by
      intro j o hj
      match j, hj with
      | 0, _ => exact fun _ => rfl
      | 1, hj => cases hj; exact fun h => absurd h (by decide +kernel)
      | j + 2, hj => cases hj) rfl
  obtain ⟨⟨doc, d, hd⟩, hc⟩ := hc
  obtain ⟨b, item, codec, m, u, hb, -, -, h1, h2, -⟩ := hc doc d hd
  cases hb with
  | step e hb =>
    cases e
    cases hb with
    | here => cases h1; cases h2
    | step e _ => cases e

end GoXml.Xsdgen
