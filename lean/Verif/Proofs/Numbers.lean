import Verif.Proofs.XsdParse
set_option autoImplicit false

/-! Decimal numbers: what `strconv.Itoa` writes is read back by `strconv.Atoi`. -/

namespace GoXml.Xsd

def IsDigit (c : UInt8) : Prop := 48 ≤ c ∧ c ≤ 57

theorem digitsVal_append (xs ys : Str) : ∀ acc, digitsVal acc (xs ++ ys) = (digitsVal acc xs).bind fun v => digitsVal v ys := by
  induction xs with
  | nil => intro acc; rfl
  | cons c cs ih =>
    intro acc
    simp only [List.cons_append, digitsVal]
    split
    · exact ih _
    · rfl

theorem digit_toNat (k : Nat) (h : k < 10) : (UInt8.ofNat (48 + k)).toNat = 48 + k := by
  rw [UInt8.toNat_ofNat']
  omega

theorem digit_is (k : Nat) (h : k < 10) : IsDigit (UInt8.ofNat (48 + k)) := by
  unfold IsDigit
  rw [UInt8.le_iff_toNat_le, UInt8.le_iff_toNat_le, digit_toNat k h]
  constructor
  · show 48 ≤ _; omega
  · show _ ≤ 57; omega

theorem digitsRev_val : ∀ (f n : Nat), n < f → digitsVal 0 (digitsRev f n).reverse = some n := by
  intro f
  induction f with
  | zero => intro n h; omega
  | succ f ih =>
    intro n h
    have hd : ∀ v, digitsVal v [UInt8.ofNat (48 + n % 10)] = some (v * 10 + n % 10) := by
      intro v
      have h1 := digit_is (n % 10) (by omega)
      unfold IsDigit at h1
      simp only [digitsVal, if_pos h1, digit_toNat (n % 10) (by omega)]
      congr 1
      omega
    simp only [digitsRev, List.reverse_cons, digitsVal_append]
    by_cases h10 : n < 10
    · simp only [if_pos h10, List.reverse_nil, digitsVal, Option.bind_some]
      rw [show (if 48 ≤ UInt8.ofNat (48 + n % 10) ∧ UInt8.ofNat (48 + n % 10) ≤ 57
        then some (0 * 10 + ((UInt8.ofNat (48 + n % 10)).toNat - 48)) else none) = digitsVal 0 [UInt8.ofNat (48 + n % 10)] from rfl, hd]
      congr 1
      omega
    · simp only [if_neg h10]
      rw [ih (n / 10) (by omega), Option.bind_some, hd]
      congr 1
      omega

theorem natStr_val (n : Nat) : digitsVal 0 (natStr n) = some n := digitsRev_val (n + 1) n (by omega)

theorem natStr_inj {a b : Nat} (h : natStr a = natStr b) : a = b := by
  have h1 := natStr_val a
  rw [h, natStr_val b] at h1
  exact (Option.some.inj h1).symm

theorem digitsRev_digits : ∀ (f n : Nat), ∀ c ∈ digitsRev f n, IsDigit c := by
  intro f
  induction f with
  | zero => intro n c h; cases h
  | succ f ih =>
    intro n c h
    simp only [digitsRev, List.mem_cons] at h
    rcases h with rfl | h
    · exact digit_is _ (by omega)
    · split at h
      · cases h
      · exact ih _ c h

theorem natStr_digits (n : Nat) : ∀ c ∈ natStr n, IsDigit c := by
  intro c h
  exact digitsRev_digits _ _ c (by simpa [natStr] using h)

theorem natStr_ne_nil (n : Nat) : natStr n ≠ [] := by
  simp [natStr, digitsRev]

theorem natStr_head (n : Nat) : (natStr n).head? ≠ some 45 ∧ (natStr n).head? ≠ some 43 := by
  constructor <;> intro h <;> have := natStr_digits n _ (List.mem_of_mem_head? h) <;> exact absurd this (by unfold IsDigit; decide)

theorem atoi_natStr (n : Nat) (h : n ≤ 9223372036854775807) : atoi (natStr n) = some (n : Int) := by
  obtain ⟨h1, h2⟩ := natStr_head n
  simp [atoi, h1, h2, natStr_ne_nil, natStr_val, h]

theorem atoi_intStr (i : Int) (h1 : -(2 ^ 63) ≤ i) (h2 : i < 2 ^ 63) : atoi (intStr i) = some i := by
  unfold intStr
  split
  · rename_i hneg
    have e : b!"-" ++ natStr i.natAbs = 45 :: natStr i.natAbs := rfl
    rw [e]
    simp only [atoi, List.head?_cons, true_or, if_true, List.tail_cons, natStr_ne_nil, if_false, natStr_val, decide_true]
    rw [if_pos (by omega)]
    congr 1
    omega
  · rw [atoi_natStr _ (by omega)]
    congr 1
    omega

end GoXml.Xsd
