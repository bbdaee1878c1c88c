import Verif.Model.XsdgenListCode
import Verif.Proofs.XsdgenSpec
import Verif.Props.XsdgenSpec
set_option autoImplicit false

/-! Property C99: the methods generated for list types compile. The full statement is: for every list type of items
of a built-in type that is generated, the bodies of `MarshalText` and `UnmarshalText` type-check for the slice that
the type is declared as. -/

namespace GoXml.Xsdgen
open Xsd

/-- What `genSimpleType` makes of a list of items of a built-in type. -/
theorem genSimpleType_list {env : Env} {cfg : Config} {n : Nat} {H : THeap} {id : Nat} {t : SimpleT} {b : Builtin} {specs : List Spec}
    (hl : t.list = true) (ht : t.base = some (.builtin b)) (h : genSimpleType env cfg n H id t = .ok specs) :
    ∃ item codec, builtinExpr b = .ok (some item) ∧ listCodec b = some codec ∧ codec ≠ .bools ∧
      specs = [{ name := publicName env cfg t.name, expr := .plain (.array item), xsdType := .obj id
                 methods := [⟨b!"x *" ++ publicName env cfg t.name, b!"MarshalText"⟩, ⟨b!"x *" ++ publicName env cfg t.name, b!"UnmarshalText"⟩] }] := by
  simp only [genSimpleType, hl, if_true, genSimpleListSpec, ht] at h
  obtain ⟨e, he, h⟩ := bind_ok h
  obtain ⟨y, hy, h⟩ := bind_ok h
  have hy' : y = .builtin b := by
    cases n with
    | zero => cases hy
    | succ n => simp only [lastBase, baseOf] at hy; cases hy; rfl
  subst hy'
  dsimp only at h
  have he' : builtinExpr b = .ok (some e) := by
    simp only [exprOf] at he
    cases hb : builtinExpr b with
    | ok o =>
      rw [hb] at he
      cases o with
      | none => cases he
      | some x => cases he; rfl
    | _ => rw [hb] at he; cases he
  split at h
  · cases h
  · cases h
  · rename_i codec hne hc
    cases h
    exact ⟨e, codec, he', hc, fun e => hne e, rfl⟩

/-- The built-in types whose lists have methods that do not compile: `QName`, the dates and times, and `UnsignedLong`. -/
def badItems : List Int := [11, 16, 17, 22, 23, 24, 25, 26, 39, 43]

/-- The type-checker's verdict for a built-in type: the codec is chosen, and the bodies compile. -/
def bodiesCompile (b : Builtin) : Bool :=
  match builtinExpr b, listCodec b with
  | .ok (some item), some codec => match listCode item codec with
    | some (m, u) => decide (ListCompiles item m u)
    | none => false
  | _, _ => false

/-- The built-in types that `listCodec` knows. -/
def listItems : List Int :=
  [3, 6, 7, 10, 11, 2, 12, 30, 38, 40, 45, 46, 47, 48, 20, 35, 49, 16, 17, 22, 23, 24, 25, 26, 39, 31, 18, 19, 28, 29, 32, 33, 34, 37, 42, 44, 43, 15, 41, 14]

theorem listCodec_items {b : Int} {c : ListCodec} (h : listCodec b = some c) : b ∈ listItems := by
  simp only [listCodec] at h
  simp only [listItems, List.mem_cons, List.not_mem_nil, or_false] at h ⊢
  split at h
  · omega
  · split at h
    · omega
    · split at h
      · omega
      · split at h
        · omega
        · split at h
          · omega
          · split at h
            · omega
            · split at h
              · omega
              · split at h
                · omega
                · split at h
                  · omega
                  · cases h

theorem bodiesCompile_all : ∀ b ∈ listItems, b ≠ 14 → (builtinExpr b).toOption.bind (fun o => o) ≠ none →
    bodiesCompile b = !(badItems.contains b) := by decide +kernel

/-- The Go type of items that each kind of method is made for. -/
def codecItem : ListCodec → GoExpr
  | .strings => .ident b!"string"
  | .times => .ident b!"time.Time"
  | .int64s => .ident b!"int64"
  | .floats => .ident b!"float64"
  | .ints => .ident b!"int"
  | .uints => .ident b!"uint"
  | .uint64s => .ident b!"uint64"
  | .bytes => .ident b!"byte"
  | .bools => .ident b!"bool"

/-- C47, C99: the methods of a list are those for the Go type of its items, except that `QName`, whose Go type is `xml.Name`, is taken for a string.
The types of the xml namespace have no Go type. -/
theorem C47_codec (b : Builtin) (c : ListCodec) (h : listCodec b = some c) :
    builtinExpr b = .ok (some (codecItem c)) ∨ (b = 11 ∧ c = .strings ∧ builtinExpr b = .ok (some (.ident b!"xml.Name"))) ∨ builtinExpr b = .ok none := by
  have key : ∀ b ∈ listItems, (listCodec b).any (fun c => match builtinExpr b with
      | .ok (some e) => decide (e = codecItem c) || decide (b = 11 ∧ c = .strings ∧ e = .ident b!"xml.Name")
      | .ok none => true
      | _ => false) = true := by decide +kernel
  have k := key b (listCodec_items h)
  rw [h] at k
  simp only [Option.any_some] at k
  cases he : builtinExpr b with
  | ok o =>
    rw [he] at k
    cases o with
    | none => exact .inr (.inr rfl)
    | some e =>
      simp only [Bool.or_eq_true, decide_eq_true_eq] at k
      rcases k with rfl | ⟨k1, k2, rfl⟩
      · exact .inl rfl
      · exact .inr (.inl ⟨k1, k2, rfl⟩)
  | error => rw [he] at k; cases k
  | panic => rw [he] at k; cases k
  | running => rw [he] at k; cases k

example : listCodec 43 = some .uint64s ∧ listCodec 28 = some .ints := by decide

/-- A type is derived, in any number of steps, from a built-in type. -/
inductive BuiltinUnder (H : THeap) : Ty → Builtin → Prop
  | here (b : Builtin) : BuiltinUnder H (.builtin b) b
  | step {t c : Ty} {b : Builtin} : baseOf H t = some c → BuiltinUnder H c b → BuiltinUnder H t b

/-- C47: a list of items of a type that is derived in any number of steps from a built-in type becomes a slice of the type of its items, with the
methods for this built-in type, and is an error if there are none. -/
theorem C47_derived (env : Env) (cfg : Config) (H : THeap) (id : Nat) (t : SimpleT) (ty : Ty) (b : Builtin) (e : GoExpr) (hl : t.list = true)
    (ht : t.base = some ty) (he : exprOf env cfg H ty = .ok e) (h : BuiltinUnder H ty b) :
    ∃ N, ∀ n ≥ N, genSimpleType env cfg n H id t = if b ∈ listItems ∧ b ≠ 14 then
        .ok [{ name := publicName env cfg t.name, expr := .plain (.array e), xsdType := .obj id
               methods := [⟨b!"x *" ++ publicName env cfg t.name, b!"MarshalText"⟩, ⟨b!"x *" ++ publicName env cfg t.name, b!"UnmarshalText"⟩] }]
      else .error := by
  have last : ∃ N, ∀ n ≥ N, lastBase H n ty = .ok (.builtin b) := by
    clear he ht
    induction h with
    | here b => exact ⟨1, fun n hn => by obtain ⟨n, rfl⟩ := Nat.exists_eq_add_of_le' hn; rfl⟩
    | step hb _ ih =>
      obtain ⟨N, hN⟩ := ih
      refine ⟨N + 1, fun n hn => ?_⟩
      obtain ⟨m, rfl⟩ := Nat.exists_eq_add_of_le' hn
      rw [show m + (N + 1) = (m + N) + 1 from rfl]
      simp only [lastBase, hb]
      exact hN _ (Nat.le_add_left ..)
  obtain ⟨N, hN⟩ := last
  refine ⟨N, fun n hn => ?_⟩
  simp only [genSimpleType, hl, if_true, genSimpleListSpec, ht, he, Run.bind, hN n hn]
  have known : ∀ b ∈ listItems, b ≠ 14 → (listCodec b).any (fun c => decide (c ≠ .bools)) = true := by decide +kernel
  by_cases hb : b ∈ listItems ∧ b ≠ 14
  · rw [if_pos hb]
    have := known b hb.1 hb.2
    cases hc : listCodec b with
    | none => rw [hc] at this; cases this
    | some c => rw [hc] at this; cases c <;> first | rfl | cases this
  · rw [if_neg hb]
    cases hc : listCodec b with
    | none => rfl
    | some c =>
      have hm := listCodec_items hc
      have : b = 14 := Decidable.byContradiction fun e => hb ⟨hm, e⟩
      subst this
      cases hc
      rfl

/-- A list of a type derived in two steps. -/
example : BuiltinUnder [.simple { name := ⟨[], b!"a"⟩, base := some (.obj 1) }, .simple { name := ⟨[], b!"b"⟩, base := some (.builtin 28) }] (.obj 0) 28 :=
  .step rfl (.step rfl (.here 28))

/-- C99, for lists of items of a built-in type other than `QName`, the dates and times, and `UnsignedLong`: what is
generated is a slice, and the bodies of its two methods compile. -/
theorem C99_compiles_partial (env : Env) (cfg : Config) (n : Nat) (H : THeap) (id : Nat) (t : SimpleT) (b : Builtin) (specs : List Spec)
    (hl : t.list = true) (ht : t.base = some (.builtin b)) (hb : b ∉ badItems) (h : genSimpleType env cfg n H id t = .ok specs) :
    ∃ s item codec m u, specs = [s] ∧ s.expr = .plain (.array item) ∧ builtinExpr b = .ok (some item) ∧ listCodec b = some codec ∧
      listCode item codec = some (m, u) ∧ ListCompiles item m u := by
  obtain ⟨item, codec, he, hc, hne, rfl⟩ := genSimpleType_list hl ht h
  have hv : bodiesCompile b = true := by
    rw [bodiesCompile_all b (listCodec_items hc) (fun e => hne (by subst e; cases hc; rfl)) (by rw [he]; simp [Run.toOption])]
    simpa using hb
  simp only [bodiesCompile, he, hc] at hv
  split at hv
  · rename_i m u hmu
    exact ⟨_, item, codec, m, u, rfl, rfl, he, hc, hmu, by simpa using hv⟩
  · cases hv

/-- Lists of `Int` and of `String` are generated. -/
example : ∀ b ∈ ([28, 38] : List Int), b ∉ badItems ∧
    (genSimpleType asciiEnv {} 9 [] 0 { name := ⟨b!"u", b!"l"⟩, base := some (.builtin b), list := true }).toOption.isSome = true := by
  decide +kernel

/-- C99 is false for lists of `QName`, of dates and times, and of `UnsignedLong`: they are generated, and one of the
methods does not compile. -/
theorem C99_compiles_refuted (b : Builtin) (hb : b ∈ badItems) :
    ∃ s item codec m u, genSimpleType asciiEnv {} 9 [] 0 { name := ⟨b!"u", b!"l"⟩, base := some (.builtin b), list := true } = .ok [s] ∧
      s.expr = .plain (.array item) ∧ builtinExpr b = .ok (some item) ∧ listCodec b = some codec ∧ listCode item codec = some (m, u) ∧ ¬ ListCompiles item m u := by
  have hgen : ∀ b ∈ badItems, (genSimpleType asciiEnv {} 9 [] 0 { name := ⟨b!"u", b!"l"⟩, base := some (.builtin b), list := true }).toOption.isSome = true := by
    decide +kernel
  have hcode : ∀ b ∈ badItems, (builtinExpr b).toOption.bind (fun o => o.bind fun item => (listCodec b).bind (listCode item)) ≠ none := by decide +kernel
  cases hr : genSimpleType asciiEnv {} 9 [] 0 { name := ⟨b!"u", b!"l"⟩, base := some (.builtin b), list := true } with
  | ok specs =>
    obtain ⟨item, codec, he, hc, hne, rfl⟩ := genSimpleType_list (t := { name := ⟨b!"u", b!"l"⟩, base := some (.builtin b), list := true }) rfl rfl hr
    have hv : bodiesCompile b = false := by
      rw [bodiesCompile_all b (listCodec_items hc) (fun e => hne (by subst e; cases hc; rfl)) (by rw [he]; simp [Run.toOption])]
      simpa using hb
    have hx := hcode b hb
    simp only [he, hc, Run.toOption, Option.bind_some] at hx
    simp only [bodiesCompile, he, hc] at hv
    split at hv
    · rename_i m u hmu
      exact ⟨_, item, codec, m, u, rfl, rfl, he, hc, hmu, by simpa using hv⟩
    · rename_i hno
      cases hlc : listCode item codec with
      | none => exact absurd hlc hx
      | some p => rw [hlc] at hno; cases hno
  | _ =>
    have := hgen b hb
    rw [hr] at this
    cases this

end GoXml.Xsdgen
