import Verif.Model.XsdgenText
import Verif.Proofs.Gen
import Mathlib.Data.List.Basic
set_option autoImplicit false

/-! Theorems about the methods of helper types: C77 (round trip), C78 (white space), and C79 (defaults). -/

namespace GoXml.Xsdgen

/-! ### C77 -/

theorem hex_digits : ∀ n : Fin 16, fromHex (hexDigit n.val) = some n.val := by decide +kernel

theorem hexDigit_ok {n : Nat} (h : n < 16) : fromHex (hexDigit n) = some n := hex_digits ⟨n, h⟩

/-- C77: hexBinary is read back as it was written. -/
theorem C77_hex (bs : Str) : hexDecode (hexEncode bs) = some bs := by
  induction bs with
  | nil => rfl
  | cons b bs ih =>
    have hb := b.toNat_lt
    simp only [hexEncode, hexDecode, hexDigit_ok (n := b.toNat / 16) (by omega), hexDigit_ok (n := b.toNat % 16) (by omega), ih]
    have : UInt8.ofNat (16 * (b.toNat / 16) + b.toNat % 16) = b := by
      rw [show 16 * (b.toNat / 16) + b.toNat % 16 = b.toNat by omega, UInt8.ofNat_toNat]
    rw [this]

theorem digits64 : ∀ n : Fin 64, from64 (digit64 n.val) = some n.val ∧ digit64 n.val ≠ 10 ∧ digit64 n.val ≠ 13 := by decide +kernel

theorem digit64_ok {n : Nat} (h : n < 64) : from64 (digit64 n) = some n := (digits64 ⟨n, h⟩).1

theorem digit64_kept {n : Nat} (h : n < 64) : decide (digit64 n ≠ 10 ∧ digit64 n ≠ 13) = true := by
  simpa using (digits64 ⟨n, h⟩).2

theorem ofNat_of_eq {n : Nat} {b : UInt8} (h : n = b.toNat) : UInt8.ofNat n = b := by rw [h, UInt8.ofNat_toNat]

/-- The ASCII letters in upper case. -/
def upperCase (c : UInt8) : UInt8 := if 97 ≤ c ∧ c ≤ 122 then c - 32 else c

/-- C77: hexBinary is read in upper case as in lower case. -/
theorem C77_hex_case (s : Str) : hexDecode (s.map upperCase) = hexDecode s := by
  have digit : ∀ c : UInt8, fromHex (upperCase c) = fromHex c := by
    have : ∀ n < 256, fromHex (upperCase (UInt8.ofNat n)) = fromHex (UInt8.ofNat n) := by decide +kernel
    intro c
    have := this c.toNat c.toNat_lt
    rwa [UInt8.ofNat_toNat] at this
  have : ∀ n (s : Str), s.length ≤ n → hexDecode (s.map upperCase) = hexDecode s := by
    intro n
    induction n with
    | zero => intro s h; rw [List.length_eq_zero_iff.mp (Nat.le_zero.mp h)]; rfl
    | succ n ih =>
      intro s h
      match s with
      | [] => rfl
      | [_] => rfl
      | a :: b :: cs =>
        simp only [List.map_cons, hexDecode, digit]
        rw [ih cs (by simp only [List.length_cons] at h; omega)]
  exact this s.length s (Nat.le_refl _)

example : hexDecode b!"1Ff0" = some [31, 240] := by decide +kernel

/-- C77: base64Binary is read back as it was written. -/
theorem C77_base64 : ∀ bs : Str, decode64 (encode64 bs) = some bs
  | [] => rfl
  | [a] => by
    have ha := a.toNat_lt
    have h1 : a.toNat / 4 < 64 := by omega
    have h2 : a.toNat % 4 * 16 < 64 := by omega
    have e : UInt8.ofNat (a.toNat / 4 * 4 + a.toNat % 4 * 16 / 16) = a := ofNat_of_eq (by omega)
    have h61 : from64 61 = none := by decide
    have k61 : decide ((61 : UInt8) ≠ 10 ∧ (61 : UInt8) ≠ 13) = true := by decide
    simp only [decode64, encode64, List.filter_cons, digit64_kept h1, digit64_kept h2, k61, if_true, List.filter_nil, decodeQuads,
      digit64_ok h1, digit64_ok h2, h61, bytes64, e, and_self, List.take_succ_cons, List.take_zero]
  | [a, b] => by
    have ha := a.toNat_lt
    have hb := b.toNat_lt
    have h1 : a.toNat / 4 < 64 := by omega
    have h2 : a.toNat % 4 * 16 + b.toNat / 16 < 64 := by omega
    have h3 : b.toNat % 16 * 4 < 64 := by omega
    have e1 : UInt8.ofNat (a.toNat / 4 * 4 + (a.toNat % 4 * 16 + b.toNat / 16) / 16) = a := ofNat_of_eq (by omega)
    have e2 : UInt8.ofNat ((a.toNat % 4 * 16 + b.toNat / 16) % 16 * 16 + b.toNat % 16 * 4 / 4) = b := ofNat_of_eq (by omega)
    have h61 : from64 61 = none := by decide
    have k61 : decide ((61 : UInt8) ≠ 10 ∧ (61 : UInt8) ≠ 13) = true := by decide
    simp only [decode64, encode64, List.filter_cons, digit64_kept h1, digit64_kept h2, digit64_kept h3, k61, if_true, List.filter_nil,
      decodeQuads, digit64_ok h1, digit64_ok h2, digit64_ok h3, h61, bytes64, e1, e2, and_self, List.take_succ_cons, List.take_zero]
  | a :: b :: c :: rest => by
    have ha := a.toNat_lt
    have hb := b.toNat_lt
    have hc := c.toNat_lt
    have ih := C77_base64 rest
    have h1 : a.toNat / 4 < 64 := by omega
    have h2 : a.toNat % 4 * 16 + b.toNat / 16 < 64 := by omega
    have h3 : b.toNat % 16 * 4 + c.toNat / 64 < 64 := by omega
    have h4 : c.toNat % 64 < 64 := by omega
    have e1 : UInt8.ofNat (a.toNat / 4 * 4 + (a.toNat % 4 * 16 + b.toNat / 16) / 16) = a := ofNat_of_eq (by omega)
    have e2 : UInt8.ofNat ((a.toNat % 4 * 16 + b.toNat / 16) % 16 * 16 + (b.toNat % 16 * 4 + c.toNat / 64) / 4) = b := ofNat_of_eq (by omega)
    have e3 : UInt8.ofNat ((b.toNat % 16 * 4 + c.toNat / 64) % 4 * 64 + c.toNat % 64) = c := ofNat_of_eq (by omega)
    simp only [decode64] at ih
    simp only [decode64, encode64, List.filter_cons, digit64_kept h1, digit64_kept h2, digit64_kept h3, digit64_kept h4, if_true,
      decodeQuads, digit64_ok h1, digit64_ok h2, digit64_ok h3, digit64_ok h4, bytes64, e1, e2, e3, ih, Option.map_some, List.cons_append,
      List.nil_append]

example : encode64 b!"light" = b!"bGlnaHQ=" ∧ hexEncode b!"light" = b!"6c69676874" := by decide +kernel

/-- C77: a time is read back as it was written if `time.Parse` reads back what `Time.Format` writes with the zone,
which is neither accepted without the zone nor surrounded by white space. -/
theorem C77_time {T : Type} (parse : Str → Str → Option T) (fmt : Str → T → Str) (format : Str) (t : T)
    (h1 : parse (format ++ b!"Z07:00") (fmt (format ++ b!"Z07:00") t) = some t)
    (h2 : parse format (fmt (format ++ b!"Z07:00") t) = none)
    (h3 : trimSpace (fmt (format ++ b!"Z07:00") t) = fmt (format ++ b!"Z07:00") t) :
    unmarshalTime parse format (marshalTime fmt format t) = some t := by
  unfold unmarshalTime marshalTime
  rw [h3, h2]
  exact h1

example :
    let parse : Str → Str → Option Nat := fun f s => if f = b!"2006Z07:00" ∧ s = b!"2020Z" then some 2020 else none
    let fmt : Str → Nat → Str := fun f _ => if f = b!"2006Z07:00" then b!"2020Z" else b!"2020"
    parse (b!"2006" ++ b!"Z07:00") (fmt (b!"2006" ++ b!"Z07:00") 2020) = some 2020 ∧
    parse b!"2006" (fmt (b!"2006" ++ b!"Z07:00") 2020) = none ∧
    trimSpace (fmt (b!"2006" ++ b!"Z07:00") 2020) = fmt (b!"2006" ++ b!"Z07:00") 2020 := by decide +kernel

/-! ### C78 -/

theorem trimSpace_around (u s v : Str) (hu : ∀ c ∈ u, isSpace c = true) (hv : ∀ c ∈ v, isSpace c = true) :
    trimSpace (u ++ s ++ v) = trimSpace s := by
  obtain ⟨a, b, e, ha, hb, hh, hl⟩ := Gen.trimSpace_spec s
  refine Gen.trimmedTo_unique (Gen.trimSpace_spec _) ⟨u ++ a, b ++ v, ?_, ?_, ?_, hh, hl⟩
  · conv_lhs => rw [e]
    simp
  · intro c hc
    rcases List.mem_append.mp hc with hc | hc
    · exact hu c hc
    · exact ha c hc
  · intro c hc
    rcases List.mem_append.mp hc with hc | hc
    · exact hb c hc
    · exact hv c hc

/-- C78, partial: white space around a time makes no difference. -/
theorem C78_times_partial {T : Type} (parse : Str → Str → Option T) (format u text v : Str) (hu : ∀ c ∈ u, isSpace c = true)
    (hv : ∀ c ∈ v, isSpace c = true) : unmarshalTime parse format (u ++ text ++ v) = unmarshalTime parse format text := by
  unfold unmarshalTime
  rw [trimSpace_around u text v hu hv]

example : ∀ c ∈ b!" \n\t", isSpace c = true := by decide

/-- C78, partial: line breaks, wherever they are, make no difference to base64Binary. -/
theorem C78_base64_partial (a b : Str) (c : UInt8) (hc : c = 10 ∨ c = 13) : decode64 (a ++ c :: b) = decode64 (a ++ b) := by
  have : decide (c ≠ 10 ∧ c ≠ 13) = false := by
    rcases hc with rfl | rfl <;> decide
  unfold decode64
  rw [List.filter_append, List.filter_append, List.filter_cons, this]
  rfl

/-- C78 is false: hexBinary with white space around it is not accepted, nor is base64Binary with blanks. -/
theorem C78_binary_refuted :
    hexDecode b!"6c69" = some b!"li" ∧ hexDecode b!" 6c69" = none ∧ hexDecode b!"6c69\n" = none ∧
    decode64 b!"bGk=" = some b!"li" ∧ decode64 b!" bGk=" = none ∧ decode64 b!"bGk= " = none := by decide +kernel

/-! ### C79 -/

/-- C79, partial: a default without line breaks stays in its comment. -/
theorem C79_default_partial (o : Override) (h1 : (10 : UInt8) ∉ o.dflt) (h2 : (10 : UInt8) ∉ o.fieldName) :
    defaultComment o = [] ∨ ∃ l, defaultComment o = b!"// " ++ l ++ b!"\n" ∧ (10 : UInt8) ∉ l := by
  unfold defaultComment
  split
  · exact Or.inl rfl
  · refine Or.inr ⟨b!"overlay." ++ o.fieldName ++ b!" = " ++ o.dflt, ?_, ?_⟩
    · simp
    · simp [h1, h2]

example : (10 : UInt8) ∉ b!"1" ∧ defaultComment ⟨b!"N", b!"int", b!"int", b!"1", .builtin 28, []⟩ = b!"// overlay.N = 1\n" := by decide

/-- C79 is false: what follows a line break in a default becomes code of the generated method. -/
theorem C79_default_refuted :
    defaultComment ⟨b!"N", b!"int", b!"int", b!"1\npanic(0)", .builtin 28, []⟩ = b!"// overlay.N = 1\n" ++ b!"panic(0)\n" := by decide

end GoXml.Xsdgen
