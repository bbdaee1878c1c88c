import Verif.Model.Builtin
import Verif.Spec.Builtin
set_option autoImplicit false

/-! Properties C26 and C27: names of built-in types. -/

namespace GoXml.Xsd

theorem builtin_cases (P : Int → Prop) (h : ∀ n : Fin 50, P (n.val : Int)) : ∀ b : Int, 0 ≤ b → b < 50 → P b := by
  intro b h1 h2
  have := h ⟨b.toNat, by omega⟩
  simpa [Int.toNat_of_nonneg h1] using this

theorem parseBuiltinLoop_some {q : XName} {b : Int} (n : Nat) : ∀ i : Int, parseBuiltinLoop q n i = some b →
    i ≤ b ∧ b < i + n ∧ builtinName b = q := by
  induction n with
  | zero => intro i h; cases h
  | succ n ih =>
    intro i h
    simp only [parseBuiltinLoop] at h
    split at h
    · rename_i he; cases h; exact ⟨by omega, by omega, he⟩
    · obtain ⟨h1, h2, h3⟩ := ih _ h
      exact ⟨by omega, by omega, h3⟩

/-- C26: looking up a built-in by its name finds it. -/
theorem C26_parse_name (b : Builtin) (h1 : 0 ≤ b) (h2 : b < 50) : parseBuiltin (builtinName b) = some b :=
  builtin_cases (fun b => parseBuiltin (builtinName b) = some b) (by decide +kernel) b h1 h2

/-- C26: whatever is found is a built-in with exactly that name; so any other name is an error. -/
theorem C26_parse_only (q : XName) (b : Builtin) :
    parseBuiltin q = some b ↔ 0 ≤ b ∧ b < 50 ∧ builtinName b = q := by
  constructor
  · intro h
    have := parseBuiltinLoop_some _ _ h
    simpa [AnyType, AnySimpleType] using this
  · rintro ⟨h1, h2, rfl⟩
    exact C26_parse_name b h1 h2

/-- C26: no two built-ins have the same name. -/
theorem C26_names_distinct (a b : Builtin) (ha : 0 ≤ a ∧ a < 50) (hb : 0 ≤ b ∧ b < 50)
    (h : builtinName a = builtinName b) : a = b := by
  have h1 := C26_parse_name a ha.1 ha.2
  rw [h, C26_parse_name b hb.1 hb.2] at h1
  exact (Option.some.inj h1).symm

/-- C26: the names in the XML Schema namespace are those of the standard, each for its constant. -/
theorem C26_standard_names (b : Builtin) (h : 0 ≤ b ∧ b < 50) (l : Str) :
    builtinName b = ⟨w3cSchemaNS, l⟩ ↔ (b, l) ∈ w3cTypes := by
  have key : ∀ b : Int, 0 ≤ b → b < 50 →
      (if (builtinName b).space = w3cSchemaNS then w3cTypes.filter (fun t => t.1 == b) = [(b, (builtinName b).loc)]
       else w3cTypes.filter (fun t => t.1 == b) = []) :=
    builtin_cases _ (by decide +kernel)
  have hm : (b, l) ∈ w3cTypes ↔ (b, l) ∈ w3cTypes.filter (fun t => t.1 == b) := by simp [List.mem_filter]
  rw [hm]
  have := key b h.1 h.2
  split at this
  · rename_i hs
    rw [this]
    constructor
    · intro he; rw [he]; simp
    · intro he
      simp only [List.mem_singleton, Prod.mk.injEq, true_and] at he
      rw [he, ← hs]
  · rename_i hs
    rw [this]
    constructor
    · intro he; rw [he] at hs; exact absurd rfl hs
    · intro he; simp at he

example : parseBuiltin ⟨w3cSchemaNS, b!"unsignedShort"⟩ = some 44 ∧ parseBuiltin ⟨w3cSchemaNS, b!"AnyType"⟩ = none := by
  decide +kernel

/-- C27 is false: `unsignedShort` and `anySimpleType` are missing from the schema that `Parse`
appends for the XML Schema namespace. -/
theorem C27_complete_refuted :
    ((44 : Int), b!"unsignedShort") ∈ w3cTypes ∧ (⟨w3cSchemaNS, b!"unsignedShort"⟩ : XName) ∉ builtinSchemaTypes.map (·.1) ∧
    ((49 : Int), b!"anySimpleType") ∈ w3cTypes ∧ (⟨w3cSchemaNS, b!"anySimpleType"⟩ : XName) ∉ builtinSchemaTypes.map (·.1) := by
  decide +kernel

/-- C27, partial: every other built-in type of the namespace is listed under its name, once, and
nothing else is listed. Missing: the two types above. -/
theorem C27_complete_partial :
    (∀ b l, (b, l) ∈ w3cTypes → l ≠ b!"unsignedShort" → l ≠ b!"anySimpleType" →
      ((⟨w3cSchemaNS, l⟩, b) : XName × Builtin) ∈ builtinSchemaTypes) ∧
    (∀ n b, (n, b) ∈ builtinSchemaTypes → n.space = w3cSchemaNS ∧ (b, n.loc) ∈ w3cTypes) ∧
    (builtinSchemaTypes.map (·.1)).Nodup := by
  refine ⟨?_, ?_, ?_⟩
  · have : ∀ t ∈ w3cTypes, t.2 ≠ b!"unsignedShort" → t.2 ≠ b!"anySimpleType" →
        ((⟨w3cSchemaNS, t.2⟩, t.1) : XName × Builtin) ∈ builtinSchemaTypes := by decide +kernel
    exact fun b l h => this (b, l) h
  · have : ∀ t ∈ builtinSchemaTypes, t.1.space = w3cSchemaNS ∧ (t.2, t.1.loc) ∈ w3cTypes := by decide +kernel
    exact fun n b h => this (n, b) h
  · decide +kernel

end GoXml.Xsd
