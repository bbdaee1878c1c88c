import Verif.Proofs.XsdgenList
set_option autoImplicit false

/-! Property C47: the methods generated for list types. In every theorem `x` is the value that
`UnmarshalText` is applied to; it is empty for a new variable. The full statement is: for every list type
that can be generated, `UnmarshalText` gives back what `MarshalText` was applied to. -/

namespace GoXml.Xsdgen
open Xsd

/-- C47 for lists of `Long`, and of `Int`, `Integer` and the other types that become `int`: every list of
64 bit integers is read back. -/
theorem C47_ints (x y : List Int) (h : ∀ i ∈ y, -(2 ^ 63) ≤ i ∧ i < 2 ^ 63) :
    listUnmarshal atoi x (listMarshal intStr y) = some (x ++ y) :=
  list_roundtrip atoi intStr x y (fun i hi => atoi_intStr i (h i hi).1 (h i hi).2) (fun i _ => intStr_word i)

example : (∀ i ∈ [(-9223372036854775808 : Int), 0, 42], -(2 ^ 63) ≤ i ∧ i < 2 ^ 63) ∧
    listMarshal intStr [-9223372036854775808, 0, 42] = b!"-9223372036854775808 0 42" := by decide +kernel

/-- C47, partial, for lists of `UnsignedInt` and `UnsignedShort`: lists of numbers less than 2^32. -/
theorem C47_uints_partial (x y : List Nat) (h : ∀ i ∈ y, i < 2 ^ 32) :
    listUnmarshal parseUint32 x (listMarshal natStr y) = some (x ++ y) :=
  list_roundtrip parseUint32 natStr x y (fun i hi => by
    simp only [parseUint32, natStr_ne_nil, natStr_val, if_false, if_pos (h i hi)]) (fun i _ => natStr_word i)

example : ∀ i ∈ [4294967295, 0], i < 2 ^ 32 := by decide

/-- C47 is false for lists of `UnsignedInt`: their items are of Go type `uint`, and larger ones are not read
back. -/
theorem C47_uints_refuted (n : Nat) (h : 2 ^ 32 ≤ n) (x : List Nat) :
    listUnmarshal parseUint32 x (listMarshal natStr [n]) = none := by
  unfold listUnmarshal listMarshal
  rw [fields_join _ (by
    intro w hw
    obtain ⟨a, _, rfl⟩ := List.mem_map.mp hw
    exact natStr_word a)]
  have : ¬ n < 2 ^ 32 := by omega
  simp only [List.map_cons, List.map_nil, listAppend, parseUint32, natStr_ne_nil, natStr_val, if_false, if_neg this]

/-- C47, partial, for lists of strings: lists of words, that is non-empty strings without white space. -/
theorem C47_strings_partial (x y : List Str) (h : ∀ w ∈ y, w ≠ [] ∧ ∀ c ∈ w, isSpace c = false) :
    listUnmarshal some x (listMarshal (fun w => w) y) = some (x ++ y) :=
  list_roundtrip some (fun w => w) x y (fun _ _ => rfl) h

example : ∀ w ∈ [b!"a", b!"b-1"], w ≠ [] ∧ ∀ c ∈ w, isSpace c = false := by decide

/-- C47 is false for lists of strings: empty strings are lost, and blanks separate. -/
theorem C47_strings_refuted :
    listUnmarshal some [] (listMarshal (fun w => w) [b!"a", [], b!"b c"]) = some [b!"a", b!"b", b!"c"] := by
  decide +kernel

/-- C47 for lists of `Decimal` and `Double`: a list is read back if strconv reads back every item, and writes
no white space. -/
theorem C47_floats (c : FloatCodec) (x y : List c.Float) (h1 : ∀ f ∈ y, c.parse (c.format f) = some f)
    (h2 : ∀ f ∈ y, c.format f ≠ [] ∧ ∀ b ∈ c.format f, isSpace b = false) :
    listUnmarshal c.parse x (listMarshal c.format y) = some (x ++ y) :=
  list_roundtrip c.parse c.format x y h1 h2

example : (let c : FloatCodec := ⟨Int, fun i => intStr i ++ b!"e+00", fun s => atoi (s.take (s.length - 4))⟩
    listUnmarshal c.parse [] (listMarshal c.format [1, -2])) = some [1, -2] := by decide +kernel

/-- C47 for lists of `Byte` and `UnsignedByte`: the text is the list itself. -/
theorem C47_bytes (x y : Str) : bytesUnmarshal x (bytesMarshal y) = some y := rfl

/-- C47 is false in that some list types cannot be generated at all, among them lists of `Boolean`,
`PositiveInteger`, `Float` and `IDREF`. -/
theorem C47_generated_refuted (env : Env) (cfg : Config) (n : Nat) (H : THeap) (id : Nat) (t : SimpleT) (b : Builtin)
    (hb : b ∈ ([14, 36, 21, 4] : List Int)) (ht : t.base = some (.builtin b)) (hl : t.list = true) :
    genSimpleType env cfg (n + 1) H id t = .error := by
  have hc : listCodec b = none ∨ listCodec b = some .bools := by
    have : ∀ b ∈ ([14, 36, 21, 4] : List Int), listCodec b = none ∨ listCodec b = some .bools := by decide +kernel
    exact this b hb
  have he : ∃ e, builtinExpr b = .ok (some e) := by
    simp only [List.mem_cons, List.not_mem_nil, or_false] at hb
    rcases hb with rfl | rfl | rfl | rfl <;> exact ⟨_, rfl⟩
  obtain ⟨e, he⟩ := he
  simp only [genSimpleType, hl, if_true, genSimpleListSpec, ht, exprOf, he, Run.bind, lastBase, baseOf]
  rcases hc with hc | hc <;> rw [hc]

/-- C47: the list types that are generated have both methods. -/
theorem C47_methods (env : Env) (cfg : Config) (n : Nat) (H : THeap) (id : Nat) (t : SimpleT) (specs : List Spec)
    (hl : t.list = true) (h : genSimpleType env cfg n H id t = .ok specs) :
    ∃ s, specs = [s] ∧ s.name = publicName env cfg t.name ∧
      (∃ b e, t.base = some b ∧ exprOf env cfg H b = .ok e ∧ s.expr = .plain (.array e)) ∧
      s.methods.map (·.name) = [b!"MarshalText", b!"UnmarshalText"] ∧ ∀ m ∈ s.methods, m.recv = b!"x *" ++ s.name := by
  simp only [genSimpleType, hl, if_true, genSimpleListSpec] at h
  split at h
  · cases h
  · rename_i b hb
    cases he : exprOf env cfg H b with
    | error => rw [he] at h; cases h
    | panic => rw [he] at h; cases h
    | running => rw [he] at h; cases h
    | ok e =>
      rw [he] at h
      simp only [Run.bind] at h
      cases hr : lastBase H n b with
      | error => rw [hr] at h; cases h
      | panic => rw [hr] at h; cases h
      | running => rw [hr] at h; cases h
      | ok base =>
        rw [hr] at h
        simp only at h
        split at h
        · split at h
          · cases h
          · cases h
          · simp only [Run.ok.injEq] at h
            subst h
            exact ⟨_, rfl, rfl, ⟨b, e, hb, he, rfl⟩, rfl, by simp⟩
        · cases h

example (env : Env) : (genSimpleType env {} 3 [] 0 { name := ⟨[], b!"L"⟩, list := true, base := some (.builtin 28) }).toOption.isSome = true :=
  rfl

end GoXml.Xsdgen
