import Verif.Model.Gen
import Verif.Spec.Gen
set_option autoImplicit false

/-! Helper lemmas: UTF-8, quoting, trimming, lines. -/

namespace GoXml.Gen

/-! ### Trimming -/

theorem trimLeft_spec (s : Str) : ∃ a, s = a ++ trimLeft s ∧ (∀ c ∈ a, isSpace c = true) ∧
    (∀ c, (trimLeft s).head? = some c → isSpace c = false) := by
  induction s with
  | nil => exact ⟨[], rfl, by simp, by simp [trimLeft]⟩
  | cons c cs ih =>
    rw [trimLeft]
    split
    · rename_i h
      obtain ⟨a, e, h1, h2⟩ := ih
      refine ⟨c :: a, by rw [List.cons_append, ← e], ?_, h2⟩
      intro d hd
      rcases List.mem_cons.mp hd with rfl | hd
      · exact h
      · exact h1 d hd
    · rename_i h
      refine ⟨[], rfl, by simp, ?_⟩
      intro d hd
      simp only [List.head?_cons, Option.some.injEq] at hd
      rw [← hd]; simpa using h

theorem trimSpace_spec (s : Str) : TrimmedTo s (trimSpace s) := by
  obtain ⟨a, e1, ha, hh⟩ := trimLeft_spec s
  obtain ⟨b, e2, hb, ht⟩ := trimLeft_spec (trimLeft s).reverse
  have e3 : trimLeft s = trimSpace s ++ b.reverse := by
    have := congrArg List.reverse e2
    rw [List.reverse_reverse, List.reverse_append] at this
    exact this
  refine ⟨a, b.reverse, ?_, ha, ?_, ?_, ?_⟩
  · rw [List.append_assoc, ← e3]; exact e1
  · intro c hc; exact hb c (by simpa using hc)
  · intro c hc
    apply hh
    rw [e3]
    cases h : trimSpace s with
    | nil => rw [h] at hc; cases hc
    | cons x xs => rw [h] at hc; simpa using hc
  · intro c hc
    apply ht
    have : (trimLeft (trimLeft s).reverse) = (trimSpace s).reverse := by simp [trimSpace]
    rw [this, List.head?_reverse]; exact hc

theorem trimSpace_mem {c : UInt8} {s : Str} (h : c ∈ trimSpace s) : c ∈ s := by
  obtain ⟨a, b, e, _⟩ := trimSpace_spec s
  rw [e]; simp [h]

/-- The result of trimming is unique. -/
theorem trimmedTo_unique {s t t' : Str} (h : TrimmedTo s t) (h' : TrimmedTo s t') : t = t' := by
  obtain ⟨a, b, e, ha, hb, hh, hl⟩ := h
  obtain ⟨a', b', e', ha', hb', hh', hl'⟩ := h'
  -- left ends
  have key : ∀ (a a' x x' : Str), a ++ x = a' ++ x' → (∀ c ∈ a, isSpace c = true) → (∀ c ∈ a', isSpace c = true) →
      (∀ c, x.head? = some c → isSpace c = false) → (∀ c, x'.head? = some c → isSpace c = false) → x = x' := by
    intro a
    induction a with
    | nil =>
      intro a' x x' e _ ha' hx _
      cases a' with
      | nil => simpa using e
      | cons d a' =>
        rw [List.nil_append] at e
        have := hx d (by rw [e]; rfl)
        rw [ha' d (by simp)] at this; cases this
    | cons c a ih =>
      intro a' x x' e ha ha' hx hx'
      cases a' with
      | nil =>
        rw [List.nil_append] at e
        have := hx' c (by rw [← e]; rfl)
        rw [ha c (by simp)] at this; cases this
      | cons d a' =>
        simp only [List.cons_append, List.cons.injEq] at e
        exact ih a' x x' e.2 (fun c hc => ha c (by simp [hc])) (fun c hc => ha' c (by simp [hc])) hx hx'
  by_cases ht : t = []
  · subst ht
    by_cases ht' : t' = []
    · exact ht'.symm
    · exfalso
      have hall : ∀ c ∈ s, isSpace c = true := by
        intro c hc; rw [e] at hc
        rcases List.mem_append.mp hc with hc | hc
        · exact ha c (by simpa using hc)
        · exact hb c hc
      cases t' with
      | nil => exact ht' rfl
      | cons c t' =>
        have h1 := hh' c rfl
        rw [hall c (by rw [e']; simp)] at h1; cases h1
  · by_cases ht' : t' = []
    · exfalso
      subst ht'
      have hall : ∀ c ∈ s, isSpace c = true := by
        intro c hc; rw [e'] at hc
        rcases List.mem_append.mp hc with hc | hc
        · exact ha' c (by simpa using hc)
        · exact hb' c hc
      cases t with
      | nil => exact ht rfl
      | cons c t =>
        have h1 := hh c rfl
        rw [hall c (by rw [e]; simp)] at h1; cases h1
    · have h1 : t ++ b = t' ++ b' := by
        apply key a a' (t ++ b) (t' ++ b')
        · rw [← List.append_assoc, ← e, e', List.append_assoc]
        · exact ha
        · exact ha'
        · intro c hc; apply hh
          cases t with
          | nil => exact absurd rfl ht
          | cons x t => simpa using hc
        · intro c hc; apply hh'
          cases t' with
          | nil => exact absurd rfl ht'
          | cons x t => simpa using hc
      have h2 := key b.reverse b'.reverse t.reverse t'.reverse
        (by rw [← List.reverse_append, ← List.reverse_append, h1])
        (fun c hc => hb c (by simpa using hc)) (fun c hc => hb' c (by simpa using hc))
        (fun c hc => hl c (by rwa [List.head?_reverse] at hc)) (fun c hc => hl' c (by rwa [List.head?_reverse] at hc))
      simpa using h2

/-! ### UTF-8 -/

theorem u8_eq {a : UInt8} {n : Nat} (h : n = a.toNat) : UInt8.ofNat n = a := by
  subst h; simp

theorem secondBounds (b0 b1 : Nat) (h1 : secondLo b0 ≤ b1) (h2 : b1 < secondHi b0) :
    0x80 ≤ b1 ∧ b1 < 0xC0 ∧ (b0 = 0xE0 → 0xA0 ≤ b1) ∧ (b0 = 0xED → b1 < 0xA0) ∧ (b0 = 0xF0 → 0x90 ≤ b1) ∧
      (b0 = 0xF4 → b1 < 0x90) := by
  unfold secondLo at h1
  unfold secondHi at h2
  split at h1 <;> split at h2 <;> (try split at h1) <;> (try split at h2) <;> omega

theorem decodeRune_spec {s : Str} {r w : Nat} (h : decodeRune s = some (r, w)) :
    Scalar r ∧ s.take w = enc r ∧ 1 ≤ w ∧ w ≤ s.length := by
  cases s with
  | nil => cases h
  | cons b0 rest =>
    simp only [decodeRune] at h
    split at h
    · rename_i h0
      simp only [Option.some.injEq, Prod.mk.injEq] at h
      obtain ⟨rfl, rfl⟩ := h
      refine ⟨Or.inl (by omega), ?_, by omega, by simp⟩
      rw [enc, if_pos h0]; simp
    split at h
    · cases h
    split at h
    · split at h
      · rename_i b1 _
        split at h
        · simp only [Option.some.injEq, Prod.mk.injEq] at h
          obtain ⟨rfl, rfl⟩ := h
          refine ⟨Or.inl (by omega), ?_, by omega, by simp⟩
          rw [enc, if_neg (by omega), if_pos (by omega)]
          simp only [List.take_succ_cons, List.take_zero, List.cons.injEq, and_true]
          exact ⟨(u8_eq (by omega)).symm, (u8_eq (by omega)).symm⟩
        · cases h
      · cases h
    split at h
    · split at h
      · rename_i b1 b2 _
        split at h
        · rename_i hc
          simp only [Option.some.injEq, Prod.mk.injEq] at h
          obtain ⟨rfl, rfl⟩ := h
          have hb := secondBounds _ _ hc.1 hc.2.1
          refine ⟨?_, ?_, by omega, by simp⟩
          · unfold Scalar; omega
          rw [enc, if_neg (by omega), if_neg (by omega), if_pos (by omega)]
          simp only [List.take_succ_cons, List.take_zero, List.cons.injEq, and_true]
          exact ⟨(u8_eq (by omega)).symm, (u8_eq (by omega)).symm, (u8_eq (by omega)).symm⟩
        · cases h
      · cases h
    split at h
    · split at h
      · rename_i b1 b2 b3 _
        split at h
        · rename_i hc
          simp only [Option.some.injEq, Prod.mk.injEq] at h
          obtain ⟨rfl, rfl⟩ := h
          have hb := secondBounds _ _ hc.1 hc.2.1
          refine ⟨?_, ?_, by omega, by simp⟩
          · unfold Scalar; omega
          rw [enc, if_neg (by omega), if_neg (by omega), if_neg (by omega)]
          simp only [List.take_succ_cons, List.take_zero, List.cons.injEq, and_true]
          exact ⟨(u8_eq (by omega)).symm, (u8_eq (by omega)).symm, (u8_eq (by omega)).symm, (u8_eq (by omega)).symm⟩
        · cases h
      · cases h
    · cases h

/-! ### Hexadecimal digits -/

theorem hexDigit_val {n : Nat} (h : n < 16) : HexVal (hexDigit n) n := by
  unfold HexVal hexDigit
  split
  · left
    have : (UInt8.ofNat (48 + n)).toNat = 48 + n := by simp; omega
    rw [this]; omega
  · right; left
    have : (UInt8.ofNat (87 + n)).toNat = 87 + n := by simp; omega
    rw [this]; omega

theorem hexDigits_snoc (k n : Nat) : hexDigits (k + 1) n = hexDigits k (n / 16) ++ [hexDigit (n % 16)] := by
  induction k with
  | zero => simp [hexDigits]
  | succ k ih =>
    rw [hexDigits, ih, hexDigits]
    have : n / 16 ^ (k + 1) = n / 16 / 16 ^ k := by rw [Nat.pow_succ, Nat.div_div_eq_div_mul, Nat.mul_comm]
    rw [this]; rfl

theorem hexDigits_num (k : Nat) : ∀ n, n < 16 ^ k → HexNum (hexDigits k n) n := by
  induction k with
  | zero => intro n h; have : n = 0 := by simpa using h
            subst this; exact .nil
  | succ k ih =>
    intro n h
    rw [hexDigits_snoc]
    have h1 := HexNum.snoc _ _ _ _ (ih (n / 16) (by rw [Nat.pow_succ] at h; omega)) (hexDigit_val (Nat.mod_lt n (by omega : 0 < 16)))
    have : 16 * (n / 16) + n % 16 = n := Nat.div_add_mod n 16
    rwa [this] at h1

theorem hexDigits_length (k n : Nat) : (hexDigits k n).length = k := by
  induction k with
  | zero => rfl
  | succ k ih => rw [hexDigits, List.length_cons, ih]

/-! ### Quoting -/

theorem enc_ascii {r : Nat} (h : r < 128) : enc r = [UInt8.ofNat r] := by rw [enc, if_pos (by omega)]

theorem escapeRune_interp {isPrint : Nat → Bool} (h10 : isPrint 10 = false) (h0 : isPrint 0 = false)
    (hbom : isPrint 0xFEFF = false) {r : Nat} (hr : Scalar r) {t v : Str} (hi : Interp t v) :
    Interp (escapeRune isPrint r (enc r) ++ t) (enc r ++ v) := by
  have simple : ∀ (c : UInt8) (n : Nat), (c, UInt8.ofNat n) ∈ simpleEscapes → n < 128 → r = n →
      Interp ([92, c] ++ t) (enc r ++ v) := by
    intro c n hm hn e
    subst e
    rw [enc_ascii hn]
    exact Interp.simple c _ t v hm hi
  unfold escapeRune
  split
  · rename_i h
    rcases h with rfl | rfl
    · exact Interp.simple 34 34 t v (by decide) hi
    · exact Interp.simple 92 92 t v (by decide) hi
  rename_i hq
  split
  · rename_i hp
    refine Interp.char r t v ⟨hr, ?_, ?_⟩ ?_ ?_ ?_ hi
    · rintro rfl; rw [h0] at hp; cases hp
    · rintro rfl; rw [hbom] at hp; cases hp
    · rintro rfl; rw [h10] at hp; cases hp
    · exact fun h => hq (Or.inl h)
    · exact fun h => hq (Or.inr h)
  split
  · rename_i h; exact simple _ 7 (by decide) (by omega) h
  split
  · rename_i h; exact simple _ 8 (by decide) (by omega) h
  split
  · rename_i h; exact simple _ 12 (by decide) (by omega) h
  split
  · rename_i h; exact simple _ 10 (by decide) (by omega) h
  split
  · rename_i h; exact simple _ 13 (by decide) (by omega) h
  split
  · rename_i h; exact simple _ 9 (by decide) (by omega) h
  split
  · rename_i h; exact simple _ 11 (by decide) (by omega) h
  split
  · rename_i h
    have hlt : r < 128 := by omega
    rw [enc_ascii hlt]
    exact Interp.byte (hexDigits 2 r) r t v (hexDigits_length _ _) (hexDigits_num 2 r (by omega)) hi
  have hmax : r < 0x110000 := by unfold Scalar at hr; omega
  split
  · rename_i h
    exact Interp.littleU (hexDigits 4 r) r t v (hexDigits_length _ _) (hexDigits_num 4 r (by omega)) hr hi
  · exact Interp.bigU (hexDigits 8 r) r t v (hexDigits_length _ _) (hexDigits_num 8 r (by omega)) hr hi

theorem quoteLoop_interp {isPrint : Nat → Bool} (h10 : isPrint 10 = false) (h0 : isPrint 0 = false)
    (hbom : isPrint 0xFEFF = false) (f : Nat) : ∀ s : Str, s.length ≤ f → Interp (quoteLoop isPrint f s) s := by
  induction f with
  | zero =>
    intro s h
    have : s = [] := List.length_eq_zero_iff.mp (by omega)
    subst this; exact .nil
  | succ f ih =>
    intro s h
    cases s with
    | nil => exact .nil
    | cons b bs =>
      rw [quoteLoop]
      split
      · have h1 := Interp.byte (hexDigits 2 b.toNat) b.toNat _ bs (hexDigits_length _ _)
          (hexDigits_num 2 _ (by have := b.toNat_lt; omega)) (ih bs (by simpa using h))
        rw [u8_eq rfl] at h1
        exact h1
      · rename_i r w hd
        obtain ⟨hr, hw, h1, h2⟩ := decodeRune_spec hd
        have h3 := escapeRune_interp (isPrint := isPrint) h10 h0 hbom hr
          (ih ((b :: bs).drop w) (by simp only [List.length_drop]; simp only [List.length_cons] at h ⊢; omega))
        rw [← hw, List.take_append_drop] at h3
        exact h3

/-! ### Lines -/

theorem splitLines_ne_nil (s : Str) : splitLines s ≠ [] := by
  cases s with
  | nil => simp [splitLines]
  | cons c cs =>
    rw [splitLines]
    split
    · simp
    · split <;> simp

theorem splitLines_no_newline (s : Str) : ∀ l ∈ splitLines s, (10 : UInt8) ∉ l := by
  induction s with
  | nil => simp [splitLines]
  | cons c cs ih =>
    rw [splitLines]
    split
    · intro l hl
      rcases List.mem_cons.mp hl with rfl | hl
      · simp
      · exact ih l hl
    · rename_i hc
      split
      · rename_i h; exact absurd h (splitLines_ne_nil cs)
      · rename_i l ls h
        rw [h] at ih
        intro x hx
        rcases List.mem_cons.mp hx with rfl | hx
        · simp only [List.mem_cons, not_or]
          exact ⟨fun e => hc e.symm, ih l (by simp)⟩
        · exact ih x (by simp [hx])

/-- Joining the lines with newlines gives back the text. -/
theorem splitLines_join (s : Str) : List.intercalate b!"\n" (splitLines s) = s := by
  induction s with
  | nil => rfl
  | cons c cs ih =>
    rw [splitLines]
    split
    · rename_i hc
      cases h : splitLines cs with
      | nil => exact absurd h (splitLines_ne_nil cs)
      | cons l ls =>
        rw [h] at ih
        rw [List.intercalate_cons_cons, ih, hc]; rfl
    · split
      · rename_i h; exact absurd h (splitLines_ne_nil cs)
      · rename_i l ls h
        rw [h] at ih
        cases ls with
        | nil => simp at ih ⊢; exact ih
        | cons l' ls =>
          rw [List.intercalate_cons_cons] at ih ⊢
          rw [List.cons_append, List.cons_append, ih]

theorem scanLoop_no_newline (limit : Nat) (ls : List Str) (h : ∀ l ∈ ls, (10 : UInt8) ∉ l) :
    ∀ l ∈ scanLoop limit ls, (10 : UInt8) ∉ l := by
  have hcr : ∀ l : Str, (10 : UInt8) ∉ l → (10 : UInt8) ∉ dropCR l := by
    intro l hl hm
    unfold dropCR at hm
    split at hm
    · exact hl ((List.dropLast_sublist l).subset hm)
    · exact hl hm
  induction ls with
  | nil => simp [scanLoop]
  | cons l ls ih =>
    cases ls with
    | nil =>
      rw [scanLoop]
      split
      · simp
      · intro x hx
        simp only [List.mem_singleton] at hx
        rw [hx]; exact hcr l (h l (by simp))
    | cons l' ls =>
      rw [scanLoop]
      split
      · simp
      · intro x hx
        rcases List.mem_cons.mp hx with rfl | hx
        · exact hcr l (h l (by simp))
        · exact ih (fun y hy => h y (by simp [hy])) x hx

end GoXml.Gen

namespace GoXml.Gen

/-! ### Literals denote one string -/

theorem u8_toNat {n : Nat} (h : n < 256) : (UInt8.ofNat n).toNat = n := by
  simp; omega

theorem decodeRune_enc {r : Nat} (h : Scalar r) (t : Str) : decodeRune (enc r ++ t) = some (r, (enc r).length) := by
  unfold Scalar at h
  unfold enc
  split
  · rename_i h1
    simp only [List.cons_append, List.nil_append, decodeRune]
    rw [u8_toNat (by omega), if_pos h1]; rfl
  split
  · simp only [List.cons_append, List.nil_append, decodeRune]
    rw [u8_toNat (by omega), u8_toNat (by omega), if_neg (by omega), if_neg (by omega), if_pos (by omega), if_pos (by omega)]
    simp only [Option.some.injEq, Prod.mk.injEq, List.length_cons, List.length_nil]; exact ⟨by omega, trivial⟩
  split
  · simp only [List.cons_append, List.nil_append, decodeRune]
    rw [u8_toNat (by omega), u8_toNat (by omega), u8_toNat (by omega), if_neg (by omega), if_neg (by omega),
      if_neg (by omega), if_pos (by omega), if_pos]
    · simp only [Option.some.injEq, Prod.mk.injEq, List.length_cons, List.length_nil]; exact ⟨by omega, trivial⟩
    · unfold secondLo secondHi
      refine ⟨?_, ?_, by omega, by omega⟩
      · split
        · omega
        · split <;> omega
      · split
        · omega
        · split <;> omega
  · simp only [List.cons_append, List.nil_append, decodeRune]
    rw [u8_toNat (by omega), u8_toNat (by omega), u8_toNat (by omega), u8_toNat (by omega), if_neg (by omega),
      if_neg (by omega), if_neg (by omega), if_neg (by omega), if_pos (by omega), if_pos]
    · simp only [Option.some.injEq, Prod.mk.injEq, List.length_cons, List.length_nil]; exact ⟨by omega, trivial⟩
    · unfold secondLo secondHi
      refine ⟨?_, ?_, by omega, by omega, by omega, by omega⟩
      · split
        · omega
        · split <;> omega
      · split
        · omega
        · split <;> omega

theorem enc_append_inj {r r' : Nat} (h : Scalar r) (h' : Scalar r') {t t' : Str} (e : enc r ++ t = enc r' ++ t') :
    r = r' ∧ t = t' := by
  have h1 := decodeRune_enc h t
  have h2 := decodeRune_enc h' t'
  rw [e, h2] at h1
  simp only [Option.some.injEq, Prod.mk.injEq] at h1
  obtain ⟨rfl, _⟩ := h1
  exact ⟨rfl, List.append_cancel_left e⟩

/-- The bytes of a multi-byte sequence are not ASCII. -/
theorem enc_mem {r : Nat} (h : Scalar r) {c : UInt8} (hc : c ∈ enc r) (hlt : c.toNat < 128) : r = c.toNat := by
  unfold Scalar at h
  unfold enc at hc
  split at hc
  · simp only [List.mem_singleton] at hc
    rw [hc, u8_toNat (by omega)]
  split at hc
  · simp only [List.mem_cons, List.not_mem_nil, or_false] at hc
    rcases hc with rfl | rfl <;> rw [u8_toNat (by omega)] at hlt <;> omega
  split at hc
  · simp only [List.mem_cons, List.not_mem_nil, or_false] at hc
    rcases hc with rfl | rfl | rfl <;> rw [u8_toNat (by omega)] at hlt <;> omega
  · simp only [List.mem_cons, List.not_mem_nil, or_false] at hc
    rcases hc with rfl | rfl | rfl | rfl <;> rw [u8_toNat (by omega)] at hlt <;> omega

theorem enc_ne_nil (r : Nat) : enc r ≠ [] := by
  unfold enc; split <;> (try split) <;> (try split) <;> simp

theorem enc_head_backslash {r : Nat} (h : Scalar r) {t t' : Str} (e : enc r ++ t = 92 :: t') : r = 92 := by
  cases he : enc r with
  | nil => exact absurd he (enc_ne_nil r)
  | cons c cs =>
    rw [he] at e
    simp only [List.cons_append, List.cons.injEq] at e
    exact enc_mem h (c := 92) (by rw [he, e.1]; simp) (by decide)

theorem hexVal_unique {c : UInt8} {v v' : Nat} (h : HexVal c v) (h' : HexVal c v') : v = v' := by
  unfold HexVal at h h'; omega

theorem hexNum_unique {ds : Str} {n : Nat} (h : HexNum ds n) : ∀ {n' : Nat}, HexNum ds n' → n = n' := by
  induction h with
  | nil =>
    intro n' h'
    generalize e : ([] : Str) = ds at h'
    cases h' with
    | nil => rfl
    | snoc ds n c v h1 h2 => simp at e
  | snoc ds n c v h1 h2 ih =>
    intro n' h'
    generalize e : ds ++ [c] = ds' at h'
    cases h' with
    | nil => simp at e
    | snoc ds2 n2 c2 v2 h1' h2' =>
      obtain ⟨e1, e2⟩ := List.append_inj' e rfl
      simp only [List.cons.injEq, and_true] at e2
      subst e1; subst e2
      rw [ih h1', hexVal_unique h2 h2']

theorem simpleEscapes_functional : ∀ p ∈ simpleEscapes, ∀ q ∈ simpleEscapes, p.1 = q.1 → p.2 = q.2 := by decide

theorem simpleEscapes_kinds : ∀ p ∈ simpleEscapes, p.1 ≠ 120 ∧ p.1 ≠ 117 ∧ p.1 ≠ 85 := by decide

theorem interp_unique {t v : Str} (h : Interp t v) : ∀ {v' : Str}, Interp t v' → v = v' := by
  induction h with
  | nil =>
    intro v' h'
    generalize e : ([] : Str) = t at h'
    cases h' with
    | nil => rfl
    | char r t v _ => simp [enc_ne_nil] at e
    | simple => simp at e
    | byte => simp at e
    | littleU => simp at e
    | bigU => simp at e
  | char r t v hr h10 h34 h92 hi ih =>
    intro v' h'
    generalize e : enc r ++ t = t0 at h'
    cases h' with
    | nil => simp [enc_ne_nil] at e
    | char r' t' v' hr' _ _ _ hi' =>
      obtain ⟨rfl, rfl⟩ := enc_append_inj hr.1 hr'.1 e
      rw [ih hi']
    | simple => exact absurd (enc_head_backslash hr.1 e) h92
    | byte => exact absurd (enc_head_backslash hr.1 e) h92
    | littleU => exact absurd (enc_head_backslash hr.1 e) h92
    | bigU => exact absurd (enc_head_backslash hr.1 e) h92
  | simple c b t v hm hi ih =>
    intro v' h'
    generalize e : (92 : UInt8) :: c :: t = t0 at h'
    have hk := simpleEscapes_kinds _ hm
    cases h' with
    | nil => cases e
    | char r' t' v' hr' _ _ h92 hi' => exact absurd (enc_head_backslash hr'.1 e.symm) h92
    | simple c' b' t' v' hm' hi' =>
      simp only [List.cons.injEq, true_and] at e
      obtain ⟨rfl, rfl⟩ := e
      have hb : b = b' := simpleEscapes_functional _ hm _ hm' rfl
      rw [ih hi', hb]
    | byte => simp only [List.cons_append, List.cons.injEq] at e; exact absurd e.2.1 hk.1
    | littleU => simp only [List.cons_append, List.cons.injEq] at e; exact absurd e.2.1 hk.2.1
    | bigU => simp only [List.cons_append, List.cons.injEq] at e; exact absurd e.2.1 hk.2.2
  | byte ds n t v hl hx hi ih =>
    intro v' h'
    generalize e : b!"\\x" ++ ds ++ t = t0 at h'
    cases h' with
    | nil => simp at e
    | char r' t' v' hr' _ _ h92 hi' => exact absurd (enc_head_backslash hr'.1 e.symm) h92
    | simple c' b' t' v' hm' hi' =>
      simp only [List.cons_append, List.cons.injEq] at e
      exact absurd e.2.1.symm (simpleEscapes_kinds _ hm').1
    | byte ds' n' t' v' hl' hx' hi' =>
      simp only [List.cons_append, List.nil_append, List.cons.injEq, true_and] at e
      obtain ⟨e1, e2⟩ := List.append_inj e (by omega)
      subst e1; subst e2
      rw [ih hi', hexNum_unique hx hx']
    | littleU => simp at e
    | bigU => simp at e
  | littleU ds r t v hl hx hr hi ih =>
    intro v' h'
    generalize e : b!"\\u" ++ ds ++ t = t0 at h'
    cases h' with
    | nil => simp at e
    | char r' t' v' hr' _ _ h92 hi' => exact absurd (enc_head_backslash hr'.1 e.symm) h92
    | simple c' b' t' v' hm' hi' =>
      simp only [List.cons_append, List.cons.injEq] at e
      exact absurd e.2.1.symm (simpleEscapes_kinds _ hm').2.1
    | byte => simp at e
    | littleU ds' n' t' v' hl' hx' hr' hi' =>
      simp only [List.cons_append, List.nil_append, List.cons.injEq, true_and] at e
      obtain ⟨e1, e2⟩ := List.append_inj e (by omega)
      subst e1; subst e2
      rw [ih hi', hexNum_unique hx hx']
    | bigU => simp at e
  | bigU ds r t v hl hx hr hi ih =>
    intro v' h'
    generalize e : b!"\\U" ++ ds ++ t = t0 at h'
    cases h' with
    | nil => simp at e
    | char r' t' v' hr' _ _ h92 hi' => exact absurd (enc_head_backslash hr'.1 e.symm) h92
    | simple c' b' t' v' hm' hi' =>
      simp only [List.cons_append, List.cons.injEq] at e
      exact absurd e.2.1.symm (simpleEscapes_kinds _ hm').2.2
    | byte => simp at e
    | littleU => simp at e
    | bigU ds' n' t' v' hl' hx' hr' hi' =>
      simp only [List.cons_append, List.nil_append, List.cons.injEq, true_and] at e
      obtain ⟨e1, e2⟩ := List.append_inj e (by omega)
      subst e1; subst e2
      rw [ih hi', hexNum_unique hx hx']

theorem flatMap_enc_inj {rs : List Nat} : ∀ {rs' : List Nat}, (∀ r ∈ rs, Scalar r) → (∀ r ∈ rs', Scalar r) →
    rs.flatMap enc = rs'.flatMap enc → rs = rs' := by
  induction rs with
  | nil =>
    intro rs' _ _ e
    cases rs' with
    | nil => rfl
    | cons r' rs' => rw [List.flatMap_cons] at e; simp [enc_ne_nil] at e
  | cons r rs ih =>
    intro rs' h h' e
    cases rs' with
    | nil => rw [List.flatMap_cons] at e; simp [enc_ne_nil] at e
    | cons r' rs' =>
      rw [List.flatMap_cons, List.flatMap_cons] at e
      obtain ⟨rfl, e2⟩ := enc_append_inj (h r (by simp)) (h' r' (by simp)) e
      rw [ih (fun x hx => h x (by simp [hx])) (fun x hx => h' x (by simp [hx])) e2]

theorem goLiteral_unique {l v v' : Str} (h : GoLiteral l v) (h' : GoLiteral l v') : v = v' := by
  cases h with
  | interp t v hi =>
    generalize e : b!"\"" ++ t ++ b!"\"" = l at h'
    cases h' with
    | interp t' v' hi' =>
      simp only [List.cons_append, List.nil_append, List.cons.injEq, true_and] at e
      have e' := List.append_cancel_right e
      subst e'
      exact interp_unique hi hi'
    | raw rs hr => simp at e
  | raw rs hr =>
    generalize e : b!"`" ++ rs.flatMap enc ++ b!"`" = l at h'
    cases h' with
    | interp t' v' hi' => simp at e
    | raw rs' hr' =>
      simp only [List.cons_append, List.nil_append, List.cons.injEq, true_and] at e
      have e' := List.append_cancel_right e
      rw [flatMap_enc_inj (fun r hm => (hr r hm).1.1) (fun r hm => (hr' r hm).1.1) e']

theorem splitLines_of_join {v : Str} {lines : List Str} (hl : lines ≠ []) (hj : List.intercalate b!"\n" lines = v)
    (hn : ∀ l ∈ lines, (10 : UInt8) ∉ l) : splitLines v = lines := by
  rw [← hj]
  clear hj
  induction lines with
  | nil => exact absurd rfl hl
  | cons l ls ih =>
    have hone : ∀ (l : Str), (10 : UInt8) ∉ l → splitLines l = [l] := by
      intro l
      induction l with
      | nil => intro _; rfl
      | cons c cs ih =>
        intro h
        simp only [List.mem_cons, not_or] at h
        rw [splitLines, if_neg (fun e => h.1 e.symm), ih h.2]
    have hcons : ∀ (l r : Str), (10 : UInt8) ∉ l → splitLines (l ++ 10 :: r) = l :: splitLines r := by
      intro l
      induction l with
      | nil => intro r _; rw [List.nil_append, splitLines, if_pos rfl]
      | cons c cs ih =>
        intro r h
        simp only [List.mem_cons, not_or] at h
        rw [List.cons_append, splitLines, if_neg (fun e => h.1 e.symm), ih r h.2]
    cases ls with
    | nil => simpa using hone l (hn l (by simp))
    | cons l' ls =>
      rw [List.intercalate_cons_cons]
      simp only [List.cons_append, List.nil_append, List.append_assoc]
      rw [hcons l _ (hn l (by simp)), ih (by simp) (fun x hx => hn x (by simp [hx]))]

theorem trimSpace_dropCR (l : Str) : trimSpace (dropCR l) = trimSpace l := by
  apply trimmedTo_unique _ (trimSpace_spec l)
  by_cases hcr : l.getLast? = some 13
  · have hd : dropCR l = l.dropLast := by unfold dropCR; rw [if_pos hcr]
    rw [hd]
    obtain ⟨a, b, e, ha, hb, hh, ht⟩ := trimSpace_spec l.dropLast
    have hl2 : l = l.dropLast ++ [13] := by
      have hne : l ≠ [] := by rintro rfl; cases hcr
      have h1 := List.dropLast_concat_getLast hne
      rw [List.getLast?_eq_some_getLast hne] at hcr
      simp only [Option.some.injEq] at hcr
      rw [hcr] at h1; exact h1.symm
    refine ⟨a, b ++ [13], ?_, ha, ?_, hh, ht⟩
    · calc l = l.dropLast ++ [13] := hl2
        _ = (a ++ trimSpace l.dropLast ++ b) ++ [13] := by rw [← e]
        _ = _ := by simp
    · intro c hc
      rcases List.mem_append.mp hc with hc | hc
      · exact hb c hc
      · simp only [List.mem_singleton] at hc; rw [hc]; rfl
  · have hd : dropCR l = l := by unfold dropCR; rw [if_neg hcr]
    rw [hd]; exact trimSpace_spec l

end GoXml.Gen
