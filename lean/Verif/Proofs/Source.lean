import Verif.Spec.Source
import Verif.Proofs.Pieces
set_option autoImplicit false

/-! Lemmas: how the tokenizer reads documents. -/

namespace GoXml

open Lex

/-! ### Names, white space, text -/

theorem nameByte_ok {c : UInt8} (h : c ∈ b!"ABCDEFGHIJKLMNOPQRSTUVWXYZabcdefghijklmnopqrstuvwxyz0123456789_.-" ∨ 128 ≤ c.toNat) :
    isNameByte c = true ∧ c ≠ 58 := by
  rcases h with h | h
  · have : ∀ c ∈ b!"ABCDEFGHIJKLMNOPQRSTUVWXYZabcdefghijklmnopqrstuvwxyz0123456789_.-", isNameByte c = true ∧ c ≠ 58 := by decide
    exact this c h
  · constructor
    · have : (128 : UInt8) ≤ c := UInt8.le_iff_toNat_le.mpr h
      simp [isNameByte, this]
    · rintro rfl
      revert h
      decide

theorem qualName_ok {u : Unicode} {pre loc : Str} (h : QualName u pre loc) : QOk u (written pre loc) pre loc := by
  obtain ⟨h1, h2, h3⟩ := h
  have hl : ∀ c ∈ loc, isNameByte c = true ∧ c ≠ 58 := fun c hc => nameByte_ok (h2.2 c hc)
  have hp : ∀ c ∈ pre, isNameByte c = true ∧ c ≠ 58 := by
    rcases h1 with rfl | h1
    · simp
    · exact fun c hc => nameByte_ok (h1.2 c hc)
  refine ⟨rfl, ?_, h3, fun h => (hp _ h).2 rfl, fun h => (hl _ h).2 rfl, h2.1⟩
  intro c hc
  unfold written at hc
  split at hc
  · exact (hl c hc).1
  · simp only [List.mem_append, List.mem_cons, List.not_mem_nil, or_false] at hc
    rcases hc with (hc | rfl) | hc
    · exact (hp c hc).1
    · decide
    · exact (hl c hc).1

theorem written_ne {u : Unicode} {pre loc : Str} (h : QualName u pre loc) : ∃ x q, written pre loc = x :: q ∧ isNameByte x = true := by
  have hq := qualName_ok h
  cases hw : written pre loc with
  | nil =>
    unfold written at hw
    split at hw
    · exact absurd hw h.2.1.1
    · simp at hw
  | cons x q => exact ⟨x, q, rfl, hq.bytes x (by rw [hw]; simp)⟩

theorem skipSpace_white {w : Str} (h : White w) (r : Str) : skipSpace (w ++ r) = skipSpace r := by
  induction w with
  | nil => rfl
  | cons c w ih =>
    have : (c = 32 || c = 13 || c = 10 || c = 9) = true := by
      rcases h c (by simp) with rfl | rfl | rfl | rfl <;> decide
    rw [List.cons_append, skipSpace, if_pos this]
    exact ih fun x hx => h x (by simp [hx])

theorem white_not_name {c : UInt8} (h : c = 32 ∨ c = 9 ∨ c = 10 ∨ c = 13) : isNameByte c = false := by
  rcases h with rfl | rfl | rfl | rfl <;> decide

theorem encodeRune_scalar {n : Nat} (h : Gen.Scalar n) : encodeRune n = Gen.enc n := by
  unfold encodeRune Gen.enc
  unfold Gen.Scalar at h
  split
  · rfl
  · split
    · rfl
    · rw [if_neg (by omega)]

theorem refDigit_dec {c : UInt8} (h1 : 48 ≤ c.toNat) (h2 : c.toNat ≤ 57) (hex : Bool) : refDigit hex c = some (c.toNat - 48) := by
  have : (48 : UInt8) ≤ c ∧ c ≤ 57 := ⟨UInt8.le_iff_toNat_le.mpr h1, UInt8.le_iff_toNat_le.mpr h2⟩
  rw [refDigit, if_pos this]

theorem refDigit_hex {c : UInt8} {v : Nat} (h : Gen.HexVal c v) : refDigit true c = some v := by
  rcases h with ⟨h1, h2, rfl⟩ | ⟨h1, h2, rfl⟩ | ⟨h1, h2, rfl⟩
  · exact refDigit_dec h1 h2 true
  · rw [refDigit, if_neg (fun h => by have := UInt8.le_iff_toNat_le.mp h.2; simp at this; omega),
      if_pos ⟨rfl, UInt8.le_iff_toNat_le.mpr h1, UInt8.le_iff_toNat_le.mpr h2⟩]
  · rw [refDigit, if_neg (fun h => by have := UInt8.le_iff_toNat_le.mp h.2; simp at this; omega),
      if_neg (fun h => by have := UInt8.le_iff_toNat_le.mp h.2.1; simp at this; omega),
      if_pos ⟨rfl, UInt8.le_iff_toNat_le.mpr h1, UInt8.le_iff_toNat_le.mpr h2⟩]

theorem hexNum_nil {ds : Str} {n : Nat} (hd : ds = []) (h : Gen.HexNum ds n) : n = 0 := by
  cases h with
  | nil => rfl
  | snoc => simp at hd

theorem decNum_nil {ds : Str} {n : Nat} (hd : ds = []) (h : DecNum ds n) : n = 0 := by
  cases h with
  | nil => rfl
  | snoc => simp at hd

theorem refDigits_hex {ds : Str} {n : Nat} (h : Gen.HexNum ds n) : ∀ r, refDigits true none (ds ++ r) =
    refDigits true (if ds = [] then none else some n) r := by
  induction h with
  | nil => intro r; rfl
  | snoc ds n c v _ hv ih =>
    intro r
    rw [List.append_assoc, ih, List.singleton_append, refDigits, refDigit_hex hv]
    by_cases hds : ds = []
    · have : n = 0 := hexNum_nil hds (by assumption)
      simp [hds, this]
    · simp [hds, Nat.mul_comm]

theorem refDigits_dec {ds : Str} {n : Nat} (h : DecNum ds n) : ∀ r, refDigits false none (ds ++ r) =
    refDigits false (if ds = [] then none else some n) r := by
  induction h with
  | nil => intro r; rfl
  | snoc ds n c _ h1 h2 ih =>
    intro r
    rw [List.append_assoc, ih, List.singleton_append, refDigits, refDigit_dec h1 h2]
    by_cases hds : ds = []
    · have : n = 0 := decNum_nil hds (by assumption)
      simp [hds, this]
    · simp [hds, Nat.mul_comm]

theorem scalar_le {n : Nat} (h : Gen.Scalar n) : n ≤ 1114111 := by
  unfold Gen.Scalar at h; omega

theorem dec_head {ds : Str} {n : Nat} (h : DecNum ds n) : ∀ c ∈ ds, c ≠ 120 := by
  induction h with
  | nil => simp
  | snoc ds n c _ h1 h2 ih =>
    intro x hx
    rcases List.mem_append.mp hx with hx | hx
    · exact ih x hx
    · simp only [List.mem_singleton] at hx
      subst hx
      rintro rfl
      revert h2; decide

theorem entity_name {name t : Str} (h : Reference name t) (r : Str) : entity (name ++ 59 :: r) = some (t, r) := by
  cases h with
  | lt => rfl
  | gt => rfl
  | amp => rfl
  | apos => rfl
  | quot => rfl
  | @dec ds n h1 h2 h3 =>
    have e := refDigits_dec h2 (59 :: r)
    rw [if_neg h1] at e
    have e' : refDigits false (some n) (59 :: r) = (some n, 59 :: r) := rfl
    show charRef (ds ++ 59 :: r) = _
    unfold charRef
    split
    · rename_i heq
      split at heq
      · rename_i r' hd
        cases ds with
        | nil => exact absurd rfl h1
        | cons c ds =>
          simp only [List.cons_append, List.cons.injEq] at hd
          exact absurd hd.1 (dec_head h2 c (by simp))
      · rw [e, e'] at heq
        simp only [Prod.mk.injEq, Option.some.injEq, List.cons.injEq, true_and] at heq
        obtain ⟨rfl, rfl⟩ := heq
        rw [if_pos (scalar_le h3), encodeRune_scalar h3]
    · rename_i hne
      exfalso
      split at hne
      · rename_i r' hd
        cases ds with
        | nil => exact absurd rfl h1
        | cons c ds =>
          simp only [List.cons_append, List.cons.injEq] at hd
          exact absurd hd.1 (dec_head h2 c (by simp))
      · exact hne _ _ (by rw [e, e'])
  | @hex ds n h1 h2 h3 =>
    have e := refDigits_hex h2 (59 :: r)
    rw [if_neg h1] at e
    have e' : refDigits true (some n) (59 :: r) = (some n, 59 :: r) := rfl
    show charRef (120 :: (ds ++ 59 :: r)) = _
    simp only [charRef, e, e']
    rw [if_pos (scalar_le h3), encodeRune_scalar h3]

theorem textLoop_decodes_end {quote : Option UInt8} (hq : quote = none ∨ quote = some 34 ∨ quote = some 39) {tail after : Str}
    (htail : (tail = [] ∧ after = []) ∨ (quote = none ∧ ∃ r, tail = 60 :: r ∧ after = tail) ∨ ∃ q, quote = some q ∧ tail = q :: after) {cr : Bool} {raw v : Str}
    (h : Decodes quote cr raw v) : ∀ (n : Nat) (b0 b1 : UInt8), raw.length < n → (b1 = 13 ↔ cr = true) →
      (quote = none → ¬ b!"]]>" <:+: b0 :: b1 :: raw) → textLoop quote n b0 b1 (raw ++ tail) = some (v, after) := by
  induction h with
  | nil =>
    intro n b0 b1 hn hb hi
    cases n with
    | zero => simp at hn
    | succ n =>
      rcases htail with ⟨rfl, rfl⟩ | ⟨rfl, r, rfl, rfl⟩ | ⟨q, rfl, rfl⟩
      · rfl
      · simp [textLoop]
      · have : q ≠ 60 := by
          rintro rfl
          rcases hq with hq | hq | hq <;> cases hq
        simp [textLoop, this]
  | @entity cr name raw t v hp _ ih =>
    intro n b0 b1 hn hb hi
    cases n with
    | zero => simp at hn
    | succ n =>
      have e : b!"&" ++ name ++ b!";" ++ raw ++ tail = 38 :: (name ++ 59 :: (raw ++ tail)) := by simp
      rw [e, textLoop]
      have := ih n 0 0 (by simp at hn; omega) (by decide) (fun hn => by
        intro hin
        apply hi hn
        have : b!"]]>" <:+: raw := by
          obtain ⟨s, t, hst⟩ := hin
          rcases s with _ | ⟨a, _ | ⟨b, s⟩⟩
          · simp at hst
          · simp at hst
          · simp only [List.cons_append, List.cons.injEq] at hst
            exact ⟨s, t, hst.2.2⟩
        exact this.trans ((List.suffix_append _ raw).isInfix.trans ((List.suffix_cons b1 _).trans (List.suffix_cons b0 _)).isInfix))
      rw [if_neg (by simp), if_neg (by decide), if_neg (by rcases hq with rfl | rfl | rfl <;> simp), if_pos rfl, entity_name hp]
      simp only [this, Option.map_some]
  | @cr cr raw v _ ih =>
    intro n b0 b1 hn hb hi
    cases n with
    | zero => simp at hn
    | succ n =>
      rw [List.cons_append, textLoop]
      have := ih n b1 13 (by simp at hn; omega) (by decide) (fun hn hin => hi hn (hin.trans (List.suffix_cons b0 _).isInfix))
      rw [if_neg (by simp), if_neg (by decide), if_neg (by rcases hq with rfl | rfl | rfl <;> simp), if_neg (by decide), if_pos rfl, this]
      rfl
  | @crlf raw v _ ih =>
    intro n b0 b1 hn hb hi
    cases n with
    | zero => simp at hn
    | succ n =>
      rw [List.cons_append, textLoop]
      have := ih n b1 10 (by simp at hn; omega) (by decide) (fun hn hin => hi hn (hin.trans (List.suffix_cons b0 _).isInfix))
      rw [if_neg (by simp), if_neg (by decide), if_neg (by rcases hq with rfl | rfl | rfl <;> simp), if_neg (by decide), if_neg (by decide),
        if_pos (by simp [hb.mpr rfl]), this]
  | @char cr c raw v h1 h2 h3 h4 h5 _ ih =>
    intro n b0 b1 hn hb hi
    cases n with
    | zero => simp at hn
    | succ n =>
      rw [List.cons_append, textLoop]
      have := ih n b1 c (by simp at hn; omega) (by simp [h3]) (fun hn hin => hi hn (hin.trans (List.suffix_cons b0 _).isInfix))
      rw [if_neg ?_, if_neg h2, if_neg h4, if_neg h1, if_neg h3, if_neg ?_, this]
      · rfl
      · intro hc
        simp only [Bool.and_eq_true, decide_eq_true_eq] at hc
        have := hb.mp hc.1
        rw [h5 hc.2] at this
        cases this
      · intro hc
        simp only [Bool.and_eq_true, decide_eq_true_eq] at hc
        obtain ⟨⟨⟨e0, rfl⟩, rfl⟩, rfl⟩ := hc
        exact hi e0 ⟨[], raw, rfl⟩

theorem textLoop_decodes {quote : Option UInt8} (hq : quote = none ∨ quote = some 34 ∨ quote = some 39) {tail after : Str}
    (htail : (quote = none ∧ ∃ r, tail = 60 :: r ∧ after = tail) ∨ ∃ q, quote = some q ∧ tail = q :: after) {cr : Bool} {raw v : Str}
    (h : Decodes quote cr raw v) : ∀ (n : Nat) (b0 b1 : UInt8), raw.length < n → (b1 = 13 ↔ cr = true) →
      (quote = none → ¬ b!"]]>" <:+: b0 :: b1 :: raw) → textLoop quote n b0 b1 (raw ++ tail) = some (v, after) :=
  textLoop_decodes_end hq (.inr htail) h

theorem text_decodes {u : Unicode} {quote : Option UInt8} (hq : quote = none ∨ quote = some 34 ∨ quote = some 39) {tail after : Str}
    (htail : (quote = none ∧ ∃ r, tail = 60 :: r ∧ after = tail) ∨ ∃ q, quote = some q ∧ tail = q :: after) {raw v : Str}
    (h : Decodes quote false raw v) (hu : u.okText v = true) (hi : quote = none → ¬ b!"]]>" <:+: raw) :
    text u quote (raw ++ tail) = some (v, after) := by
  unfold text
  rw [textLoop_decodes hq htail h _ 0 0 (by simp; omega) (by decide) (fun hn hin => by
    apply hi hn
    obtain ⟨s, t, hst⟩ := hin
    rcases s with _ | ⟨a, _ | ⟨b, s⟩⟩
    · simp at hst
    · simp at hst
    · simp only [List.cons_append, List.cons.injEq] at hst
      exact ⟨s, t, hst.2.2⟩)]
  simp [hu]

/-! ### Attributes -/

theorem attrLoop_src {u : Unicode} {a : SrcAttr} (h : a.Ok u) (n : Nat) (r : Str) :
    attrLoop u (n + 1) (a.bytes ++ r) = (attrLoop u n r).map fun (as, e, r) => (a.toAttr :: as, e, r) := by
  obtain ⟨x, q, hw, hx⟩ := written_ne h.name
  obtain ⟨f1, _, _, f4, _⟩ := name_byte_facts hx
  have hq := qualName_ok h.name
  have e1 : skipSpace (a.bytes ++ r) = x :: (q ++ (a.before ++ 61 :: (a.after ++ a.quote :: (a.raw ++ a.quote :: r)))) := by
    unfold SrcAttr.bytes
    rw [hw]
    simp only [List.append_assoc, List.cons_append, List.nil_append]
    rw [skipSpace_white h.lead.1, skipSpace_name hx]
  have e2 : nsname u (x :: (q ++ (a.before ++ 61 :: (a.after ++ a.quote :: (a.raw ++ a.quote :: r))))) =
      some (⟨a.pre, a.loc⟩, a.before ++ 61 :: (a.after ++ a.quote :: (a.raw ++ a.quote :: r))) := by
    rcases hb : a.before with _ | ⟨c, bs⟩
    · have := nsname_append (c := 61) (r := a.after ++ a.quote :: (a.raw ++ a.quote :: r)) hq (by decide)
      rw [hw] at this
      exact this
    · have := nsname_append (c := c) (r := bs ++ 61 :: (a.after ++ a.quote :: (a.raw ++ a.quote :: r))) hq
        (white_not_name (h.before c (by rw [hb]; simp)))
      rw [hw] at this
      exact this
  rw [attrLoop, e1]
  split
  · rename_i heq; cases heq
  · rename_i heq; simp at heq; exact absurd heq.1 f1
  · rename_i heq; simp at heq; exact absurd heq.1 f1
  · rename_i heq; simp at heq; exact absurd heq.1 f4
  · rw [e2]
    have hqt : skipSpace (a.quote :: (a.raw ++ a.quote :: r)) = a.quote :: (a.raw ++ a.quote :: r) := by
      rcases h.quote with hq | hq <;> simp [skipSpace, hq]
    have e3 : skipSpace (a.before ++ 61 :: (a.after ++ a.quote :: (a.raw ++ a.quote :: r))) = 61 :: (a.after ++ a.quote :: (a.raw ++ a.quote :: r)) := by
      rw [skipSpace_white h.before]
      simp [skipSpace]
    have e4 : skipSpace (a.after ++ a.quote :: (a.raw ++ a.quote :: r)) = a.quote :: (a.raw ++ a.quote :: r) := by
      rw [skipSpace_white h.after, hqt]
    have e5 : attrval u (a.quote :: (a.raw ++ a.quote :: r)) = some (a.value, r) := by
      have := text_decodes (quote := some a.quote) (u := u) (tail := a.quote :: r) (after := r)
        (by rcases h.quote with hq | hq <;> simp [hq]) (Or.inr ⟨_, rfl, rfl⟩) h.value h.chars (fun h => by cases h)
      rcases h.quote with hq | hq
      · rw [hq] at this ⊢; exact this
      · rw [hq] at this ⊢; exact this
    simp only [e3, e4, e5]
    rfl

theorem attrLoop_srcs {u : Unicode} {as : List SrcAttr} (h : ∀ a ∈ as, a.Ok u) (n : Nat) (hn : as.length ≤ n) (r : Str) :
    attrLoop u n (attrsBytes as ++ r) = (attrLoop u (n - as.length) r).map fun (bs, e, r) => (as.map SrcAttr.toAttr ++ bs, e, r) := by
  induction as generalizing n with
  | nil => simp [attrsBytes]
  | cons a as ih =>
    cases n with
    | zero => simp at hn
    | succ n =>
      have := attrLoop_src (h a (by simp)) n (attrsBytes as ++ r)
      have e : attrsBytes (a :: as) ++ r = a.bytes ++ (attrsBytes as ++ r) := by simp [attrsBytes]
      rw [e, this, ih (fun x hx => h x (by simp [hx])) n (by simp at hn; omega)]
      simp only [List.length_cons, Nat.add_sub_add_right, Option.map_map]
      congr 1

/-! ### Tags -/

/-- The bytes of a start tag. -/
def openBytes (pre loc : Str) (attrs : List SrcAttr) (space : Str) (empty : Bool) : Str :=
  b!"<" ++ written pre loc ++ attrsBytes attrs ++ space ++ if empty then b!"/>" else b!">"

/-- The names of attributes, with namespaces. -/
def spaced (ns : Scope) (as : List Attr) : List Attr := as.map fun a => { a with name := translate ns a.name false }

theorem token_open {u : Unicode} {chain : List (List Attr)} {pre loc : Str} {attrs : List SrcAttr} {space : Str}
    (h : TagWf u chain pre loc attrs space) (ns : Scope) (stack : List (XName × Scope)) (rest : Str) (empty : Bool) :
    token u ⟨openBytes pre loc attrs space empty ++ rest, stack, ns, none⟩ =
      some (.start (translate (nsPush ns (attrs.map SrcAttr.toAttr)) ⟨pre, loc⟩ true)
          (spaced (nsPush ns (attrs.map SrcAttr.toAttr)) (attrs.map SrcAttr.toAttr)),
        ⟨rest, (⟨pre, loc⟩, ns) :: stack, nsPush ns (attrs.map SrcAttr.toAttr), if empty then some ⟨pre, loc⟩ else none⟩) := by
  obtain ⟨x, q, hw, hx⟩ := written_ne h.name
  have hq := qualName_ok h.name
  generalize htail : attrsBytes attrs ++ (space ++ ((if empty then b!"/>" else b!">") ++ rest)) = tail
  have hinp : openBytes pre loc attrs space empty ++ rest = 60 :: (written pre loc ++ tail) := by
    rw [← htail]; simp [openBytes]
  have htl : ∃ c r, tail = c :: r ∧ isNameByte c = false := by
    rw [← htail]
    cases attrs with
    | cons a as =>
      obtain ⟨hl, hne⟩ := (h.each a (by simp)).lead
      cases hlead : a.lead with
      | nil => exact absurd hlead hne
      | cons c r => exact ⟨c, _, by simp [attrsBytes, SrcAttr.bytes, hlead]; rfl, white_not_name (hl c (by rw [hlead]; simp))⟩
    | nil =>
      cases space with
      | cons c r => exact ⟨c, _, rfl, white_not_name (h.trailing c (by simp))⟩
      | nil =>
        cases empty
        · exact ⟨62, _, rfl, by decide⟩
        · exact ⟨47, _, rfl, by decide⟩
  have hloop : attrLoop u (tail.length + 1) tail = some (attrs.map SrcAttr.toAttr, empty, rest) := by
    have hlen : attrs.length ≤ tail.length := by
      have h1 : ∀ as : List SrcAttr, as.length ≤ (attrsBytes as).length := by
        intro as
        induction as with
        | nil => simp
        | cons a as ih =>
          have : attrsBytes (a :: as) = a.bytes ++ attrsBytes as := by simp [attrsBytes]
          rw [this]
          have : 1 ≤ a.bytes.length := by simp [SrcAttr.bytes]; omega
          simp only [List.length_append, List.length_cons]; omega
      have := h1 attrs
      rw [← htail]
      simp only [List.length_append]; omega
    generalize hT : tail.length + 1 = T
    rw [← htail, attrLoop_srcs h.each T (by omega)]
    obtain ⟨m, hm⟩ : ∃ m, T - attrs.length = m + 1 := ⟨T - attrs.length - 1, by omega⟩
    rw [hm]
    have e3 : attrLoop u (m + 1) (space ++ ((if empty then b!"/>" else b!">") ++ rest)) = some ([], empty, rest) := by
      rw [attrLoop, skipSpace_white h.trailing]
      cases empty <;> simp [skipSpace]
    rw [e3]
    simp
  obtain ⟨c, r, hc1, hc2⟩ := htl
  have hns : nsname u (written pre loc ++ tail) = some (⟨pre, loc⟩, tail) := by
    rw [hc1]; exact nsname_append hq hc2
  rw [hinp]
  rw [hw] at hns ⊢
  obtain ⟨f1, f2, f3, _⟩ := name_byte_facts hx
  simp only [token, List.cons_append]
  split
  · rename_i heq; cases heq
  · rename_i heq; simp at heq; exact absurd heq.1 f1
  · rename_i heq; simp at heq; exact absurd heq.1 f2
  · rename_i heq; simp at heq; exact absurd heq.1 f3
  · rename_i heq; simp at heq; exact absurd heq.1 f3
  · rename_i heq; simp at heq; exact absurd heq.1 f3
  · rename_i r' _ _ _ _ _ heq
    simp only [List.cons.injEq, true_and] at heq
    subst heq
    simp only [List.cons_append] at hns
    rw [hns]
    simp only [hloop]
    rfl
  · rename_i heq
    exact absurd rfl (heq _)

/-- The bytes of an end tag. -/
def closeBytes (pre loc endSpace : Str) : Str := b!"</" ++ written pre loc ++ endSpace ++ b!">"

theorem token_close {u : Unicode} {pre loc endSpace : Str} (h : QualName u pre loc) (hw : White endSpace) (ns saved : Scope)
    (stack : List (XName × Scope)) (rest : Str) :
    token u ⟨closeBytes pre loc endSpace ++ rest, (⟨pre, loc⟩, saved) :: stack, ns, none⟩ =
      some (.stop (translate ns ⟨pre, loc⟩ true), ⟨rest, stack, saved, none⟩) := by
  have hq := qualName_ok h
  have hinp : closeBytes pre loc endSpace ++ rest = 60 :: 47 :: (written pre loc ++ (endSpace ++ 62 :: rest)) := by simp [closeBytes]
  rw [hinp]
  simp only [token]
  have : nsname u (written pre loc ++ (endSpace ++ 62 :: rest)) = some (⟨pre, loc⟩, endSpace ++ 62 :: rest) := by
    cases endSpace with
    | nil => exact nsname_append hq (by decide)
    | cons c r => exact nsname_append hq (white_not_name (hw c (by simp)))
  have hs : skipSpace (endSpace ++ 62 :: rest) = 62 :: rest := by
    rw [skipSpace_white hw]; simp [skipSpace]
  rw [this]
  simp only [hs, popElement]
  simp

/-! ### Other pieces -/

theorem commentLoop_src {body : Str} (rest : Str) : ∀ b0 b1 : UInt8, ¬ b!"--" <:+: b0 :: b1 :: (body ++ b!"-") →
    commentLoop b0 b1 (body ++ 45 :: 45 :: 62 :: rest) = some rest := by
  induction body with
  | nil =>
    intro b0 b1 h
    have h1 : b1 ≠ 45 := by
      rintro rfl
      exact h ⟨[b0], [], rfl⟩
    simp [commentLoop, h1]
  | cons c cs ih =>
    intro b0 b1 h
    rw [List.cons_append, commentLoop, if_neg ?_]
    · exact ih b1 c fun hin => h (hin.trans (List.suffix_cons b0 _).isInfix)
    · intro hc
      simp only [Bool.and_eq_true, decide_eq_true_eq] at hc
      obtain ⟨rfl, rfl⟩ := hc
      exact h ⟨[], _, rfl⟩

theorem cdataLoop_src {body : Str} (rest : Str) : ∀ b0 b1 : UInt8, ¬ b!"]]>" <:+: b0 :: b1 :: (body ++ b!"]]") →
    cdataLoop b0 b1 (body ++ 93 :: 93 :: 62 :: rest) = some (body ++ b!"]]>", rest) := by
  induction body with
  | nil =>
    intro b0 b1 h
    simp [cdataLoop]
  | cons c cs ih =>
    intro b0 b1 h
    rw [List.cons_append, cdataLoop, if_neg ?_]
    · rw [ih b1 c fun hin => h (hin.trans (List.suffix_cons b0 _).isInfix)]
      rfl
    · intro hc
      simp only [Bool.and_eq_true, decide_eq_true_eq] at hc
      obtain ⟨⟨rfl, rfl⟩, rfl⟩ := hc
      exact h ⟨[], _, rfl⟩

theorem piLoop_src {body : Str} (rest : Str) : ∀ b0 : UInt8, ¬ b!"?>" <:+: b0 :: (body ++ b!"?") →
    piLoop b0 (body ++ 63 :: 62 :: rest) = some rest := by
  induction body with
  | nil =>
    intro b0 h
    simp [piLoop]
  | cons c cs ih =>
    intro b0 h
    rw [List.cons_append, piLoop, if_neg ?_]
    · exact ih c fun hin => h (hin.trans (List.suffix_cons b0 _).isInfix)
    · intro hc
      simp only [Bool.and_eq_true, decide_eq_true_eq] at hc
      obtain ⟨rfl, rfl⟩ := hc
      exact h ⟨[], _, rfl⟩

theorem infix_zero {p : Str} {x : UInt8} {l : Str} (hp : p ≠ []) (h0 : p.head? ≠ some x) (h : p <:+: x :: l) : p <:+: l := by
  obtain ⟨s, t, hst⟩ := h
  cases s with
  | nil =>
    cases p with
    | nil => exact absurd rfl hp
    | cons y p =>
      simp only [List.nil_append, List.cons_append, List.cons.injEq] at hst
      exact absurd (by rw [hst.1]; rfl) h0
  | cons a s =>
    simp only [List.cons_append, List.cons.injEq] at hst
    exact ⟨s, t, hst.2⟩

theorem directiveComment_src {body : Str} (rest : Str) : ∀ b0 b1 : UInt8, ¬ b!"--" <:+: b0 :: b1 :: (body ++ b!"-") →
    directiveComment b0 b1 (body ++ 45 :: 45 :: 62 :: rest) = some rest := by
  induction body with
  | nil =>
    intro b0 b1 h
    have h1 : b1 ≠ 45 := by
      rintro rfl
      exact h ⟨[b0], [], rfl⟩
    simp [directiveComment, h1]
  | cons c cs ih =>
    intro b0 b1 h
    rw [List.cons_append, directiveComment, if_neg ?_]
    · exact ih b1 c fun hin => h (hin.trans (List.suffix_cons b0 _).isInfix)
    · intro hc
      simp only [Bool.and_eq_true, decide_eq_true_eq] at hc
      obtain ⟨⟨rfl, rfl⟩, _⟩ := hc
      exact h ⟨[], _, rfl⟩

theorem directiveLoop_literal {q : UInt8} (hq : q ≠ 0) {t : Str} (ht : q ∉ t) (d : Nat) (r : Str) : ∀ n,
    t.length + 1 ≤ n → directiveLoop n q d (t ++ q :: r) = directiveLoop (n - (t.length + 1)) 0 d r := by
  induction t with
  | nil =>
    intro n hn
    cases n with
    | zero => simp at hn
    | succ n =>
      rw [List.nil_append, directiveLoop, if_pos hq, if_pos rfl]
      simp
  | cons c t ih =>
    intro n hn
    cases n with
    | zero => simp at hn
    | succ n =>
      simp only [List.mem_cons, not_or] at ht
      rw [List.cons_append, directiveLoop, if_pos hq, if_neg (fun h => ht.1 h.symm), ih ht.2 n (by simp at hn; omega)]
      congr 1
      simp

theorem commentStart_none {t : Str} (h : ¬ b!"!--" <+: t) (r : Str) : commentStart (t ++ 62 :: r) = none := by
  unfold commentStart
  split
  · rename_i r' heq
    exfalso
    rcases t with _ | ⟨a, _ | ⟨b, _ | ⟨c, t⟩⟩⟩ <;> simp at heq
    obtain ⟨rfl, rfl, rfl, _⟩ := heq
    exact h ⟨t, rfl⟩
  · rfl

/-- What is inside a document type declaration is skipped. -/
theorem directiveLoop_body {s : Str} (h : DoctypeBody s) : ∀ (n d : Nat) (r : Str), s.length ≤ n →
    ∃ m, n - s.length ≤ m ∧ directiveLoop n 0 d (s ++ r) = directiveLoop m 0 d r := by
  induction h with
  | nil => intro n d r hn; exact ⟨n, by simp, rfl⟩
  | @char c s hc _ ih =>
    intro n d r hn
    cases n with
    | zero => simp at hn
    | succ n =>
      obtain ⟨m, h1, h2⟩ := ih n d r (by simp at hn; omega)
      simp only [List.mem_cons, List.not_mem_nil, or_false, not_or] at hc
      refine ⟨m, by simp; omega, ?_⟩
      rw [List.cons_append, directiveLoop, if_neg (by simp), if_neg hc.2.1, if_neg (by simp [hc]), if_neg hc.1, h2]
  | @literal q t s hq ht _ ih =>
    intro n d r hn
    cases n with
    | zero => simp at hn
    | succ n =>
      simp only [List.length_append, List.length_cons] at hn
      obtain ⟨m, h1, h2⟩ := ih (n - (t.length + 1)) d r (by omega)
      have hq' : q = 39 ∨ q = 34 := by simpa using hq
      refine ⟨m, by simp; omega, ?_⟩
      have e : q :: t ++ q :: s ++ r = q :: (t ++ q :: (s ++ r)) := by simp
      rw [e, directiveLoop, if_neg (by simp), if_neg (by rcases hq' with rfl | rfl <;> decide), if_pos hq',
        directiveLoop_literal (by rcases hq' with rfl | rfl <;> decide) ht d _ n (by omega), h2]
  | @declaration t s _ hc _ ih1 ih2 =>
    intro n d r hn
    cases n with
    | zero => simp at hn
    | succ n =>
      simp only [List.length_append, List.length_cons, List.length_nil] at hn
      obtain ⟨m, h1, h2⟩ := ih1 n (d + 1) (62 :: (s ++ r)) (by omega)
      cases m with
      | zero => omega
      | succ m =>
        obtain ⟨m', h3, h4⟩ := ih2 m d r (by omega)
        refine ⟨m', by simp; omega, ?_⟩
        have e : b!"<" ++ t ++ b!">" ++ s ++ r = 60 :: (t ++ 62 :: (s ++ r)) := by simp
        rw [e, directiveLoop, if_neg (by simp), if_neg (by decide), if_neg (by decide), if_pos rfl, commentStart_none hc]
        simp only
        rw [h2, directiveLoop, if_neg (by simp), if_pos rfl, if_neg (by simp), Nat.add_sub_cancel, h4]
  | @comment t s ht _ ih =>
    intro n d r hn
    cases n with
    | zero => simp at hn
    | succ n =>
      simp only [List.length_append, List.length_cons, List.length_nil] at hn
      obtain ⟨m, h1, h2⟩ := ih n d r (by omega)
      refine ⟨m, by simp; omega, ?_⟩
      have e : b!"<!--" ++ t ++ b!"-->" ++ s ++ r = 60 :: 33 :: 45 :: 45 :: (t ++ 45 :: 45 :: 62 :: (s ++ r)) := by simp
      have hc := directiveComment_src (body := t) (s ++ r) 0 0 (fun h => ht (infix_zero (by simp) (by simp) (infix_zero (by simp) (by simp) h)))
      rw [e, directiveLoop, if_neg (by simp), if_neg (by decide), if_neg (by decide), if_pos rfl]
      simp only [commentStart, hc, Option.bind_some]
      exact h2

/-- A piece that is no element is one token; text is if markup follows. -/
theorem token_misc {u : Unicode} {chain : List (List Attr)} {s : Src} (h : SrcWf u chain s) (hm : s.isMisc = true) (ns : Scope)
    (stack : List (XName × Scope)) (rest : Str) (ht : s.isText = true → ∃ r, rest = 60 :: r) :
    token u ⟨s.bytes ++ rest, stack, ns, none⟩ = some (.other, ⟨rest, stack, ns, none⟩) := by
  cases h with
  | @text _ raw v hne hd hu hi =>
    obtain ⟨r, rfl⟩ := ht rfl
    have htext := text_decodes (u := u) (Or.inl rfl) (Or.inl ⟨rfl, r, rfl, rfl⟩) hd hu (fun _ => hi)
    rw [Src.bytes]
    cases raw with
    | nil => exact absurd rfl hne
    | cons c cs =>
      have hc : c ≠ 60 := by
        rintro rfl
        cases hd with
        | char _ h2 => exact h2 rfl
      simp only [token, List.cons_append] at htext ⊢
      split
      · rename_i heq; cases heq
      · rename_i heq; simp at heq; exact absurd heq.1 hc
      · rename_i heq; simp at heq; exact absurd heq.1 hc
      · rename_i heq; simp at heq; exact absurd heq.1 hc
      · rename_i heq; simp at heq; exact absurd heq.1 hc
      · rename_i heq; simp at heq; exact absurd heq.1 hc
      · rename_i heq; simp at heq; exact absurd heq.1 hc
      · rw [htext]
  | @comment _ body hi =>
    have := commentLoop_src (body := body) rest 0 0 (fun h => hi (infix_zero (by simp) (by simp) (infix_zero (by simp) (by simp) h)))
    simp [Src.bytes, token, this]
  | @cdata _ body hi hu =>
    have := cdataLoop_src (body := body) rest 0 0 (fun h => hi (infix_zero (by simp) (by simp) (infix_zero (by simp) (by simp) h)))
    simp [Src.bytes, token, this, hu]
  | @pi _ target body hn hu hb hi =>
    have := piLoop_src (body := body) rest 0 (fun h => hi (infix_zero (by simp) (by simp) h))
    have hr : readName (target ++ (body ++ 63 :: 62 :: rest)) = (target, body ++ 63 :: 62 :: rest) := by
      rcases hb with rfl | ⟨c, r, rfl, hw⟩
      · exact readName_append (fun x hx => (nameByte_ok (hn.2 x hx)).1) (by decide)
      · exact readName_append (fun x hx => (nameByte_ok (hn.2 x hx)).1) (white_not_name (hw c (by simp)))
    have hne : target ≠ [] := hn.1
    simp [Src.bytes, token, hr, hu, hne, this]
  | @doctype w body hw hb =>
    have hd : DoctypeBody (b!"OCTYPE" ++ w :: body) := by
      have hw' : w ∉ b!"<>'\"" := by rcases hw w (by simp) with rfl | rfl | rfl | rfl <;> decide
      exact .char (by decide) (.char (by decide) (.char (by decide) (.char (by decide) (.char (by decide) (.char (by decide) (.char hw' hb))))))
    obtain ⟨m, h1, h2⟩ := directiveLoop_body hd ((b!"OCTYPE" ++ w :: body ++ 62 :: rest).length + 1) 0 (62 :: rest) (by simp; omega)
    cases m with
    | zero => simp at h1; omega
    | succ m =>
      have e : directive (b!"DOCTYPE" ++ w :: body ++ 62 :: rest) = some rest := by
        have h0 : ∀ r, directive (68 :: r) = directiveLoop (r.length + 1) 0 0 r := by
          intro r
          rw [directive, if_neg (by decide)]
        have : directiveLoop ((b!"OCTYPE" ++ w :: body ++ 62 :: rest).length + 1) 0 0 (b!"OCTYPE" ++ w :: body ++ 62 :: rest) = some rest := by
          rw [h2, directiveLoop, if_neg (by simp), if_pos rfl, if_pos rfl]
        rw [← this]
        exact h0 _
      have eb : Src.bytes (.doctype (w :: body)) ++ rest = 60 :: 33 :: (b!"DOCTYPE" ++ w :: body ++ 62 :: rest) := by simp [Src.bytes]
      rw [eb]
      show (directive (b!"DOCTYPE" ++ w :: body ++ 62 :: rest)).map _ = _
      rw [e]
      rfl
  | empty _ => cases hm
  | elem _ _ _ => cases hm

/-! ### Documents -/

mutual
/-- What the tokenizer makes of a piece when `ns` are the bindings of prefixes. -/
def Src.node (ns : Scope) : Src → Node
  | .empty pre loc attrs space =>
    .elem (openBytes pre loc attrs space true) (translate (nsPush ns (attrs.map SrcAttr.toAttr)) ⟨pre, loc⟩ true)
      (spaced (nsPush ns (attrs.map SrcAttr.toAttr)) (attrs.map SrcAttr.toAttr)) [] []
  | .elem pre loc attrs space kids endSpace =>
    .elem (openBytes pre loc attrs space false) (translate (nsPush ns (attrs.map SrcAttr.toAttr)) ⟨pre, loc⟩ true)
      (spaced (nsPush ns (attrs.map SrcAttr.toAttr)) (attrs.map SrcAttr.toAttr)) (srcNodes (nsPush ns (attrs.map SrcAttr.toAttr)) kids)
      (closeBytes pre loc endSpace)
  | .text raw => .text (Src.text raw).bytes
  | .comment body => .text (Src.comment body).bytes
  | .cdata body => .text (Src.cdata body).bytes
  | .pi target body => .text (Src.pi target body).bytes
  | .doctype body => .text (Src.doctype body).bytes
def srcNodes (ns : Scope) : List Src → List Node
  | [] => []
  | s :: ss => s.node ns :: srcNodes ns ss
end

theorem node_misc {s : Src} (h : s.isMisc = true) (ns : Scope) : s.node ns = .text s.bytes := by
  cases s <;> first | rfl | cases h

mutual
theorem node_bytes (ns : Scope) : ∀ s : Src, (s.node ns).bytes = s.bytes
  | .text _ => rfl
  | .comment _ => rfl
  | .cdata _ => rfl
  | .pi _ _ => rfl
  | .doctype _ => rfl
  | .empty pre loc attrs space => by simp [Src.node, Node.bytes, bytesL, Src.bytes, openBytes]
  | .elem pre loc attrs space kids endSpace => by
    simp [Src.node, Node.bytes, Src.bytes, openBytes, closeBytes, nodes_bytes _ kids]
theorem nodes_bytes (ns : Scope) : ∀ ss : List Src, bytesL (srcNodes ns ss) = srcBytes ss
  | [] => rfl
  | s :: ss => by simp [srcNodes, bytesL, srcBytes, node_bytes ns s, nodes_bytes ns ss]
end

mutual
theorem node_height (ns : Scope) : ∀ s : Src, (s.node ns).height = s.depth
  | .text _ => rfl
  | .comment _ => rfl
  | .cdata _ => rfl
  | .pi _ _ => rfl
  | .doctype _ => rfl
  | .empty pre loc attrs space => by simp [Src.node, Node.height, heightL, Src.depth]
  | .elem pre loc attrs space kids endSpace => by simp [Src.node, Node.height, Src.depth, nodes_height _ kids]
theorem nodes_height (ns : Scope) : ∀ ss : List Src, heightL (srcNodes ns ss) = srcDepth ss
  | [] => rfl
  | s :: ss => by simp [srcNodes, heightL, srcDepth, node_height ns s, nodes_height ns ss]
end

mutual
theorem node_count {u : Unicode} {chain : List (List Attr)} (ns : Scope) : ∀ (s : Src), SrcWf u chain s → ∀ off, ((s.node ns).events off).length ≤ 2 * s.bytes.length
  | .text raw, h, off => by
    cases h with
    | text hne =>
      have : 0 < raw.length := List.length_pos_iff.mpr hne
      simp [Src.node, Node.events, Src.bytes]; omega
  | .comment body, _, off => by simp [Src.node, Node.events, Src.bytes]; omega
  | .cdata body, _, off => by simp [Src.node, Node.events, Src.bytes]; omega
  | .pi target body, _, off => by simp [Src.node, Node.events, Src.bytes]; omega
  | .doctype body, _, off => by simp [Src.node, Node.events, Src.bytes]; omega
  | .empty pre loc attrs space, _, off => by simp [Src.node, Node.events, eventsL, Src.bytes]; omega
  | .elem pre loc attrs space kids endSpace, h, off => by
    cases h with
    | elem _ hk _ =>
      have := nodes_count (nsPush ns (attrs.map SrcAttr.toAttr)) kids hk (off + (openBytes pre loc attrs space false).length)
      simp [Src.node, Node.events, Src.bytes]
      omega
theorem nodes_count {u : Unicode} {chain : List (List Attr)} (ns : Scope) : ∀ (ss : List Src), SrcsWf u chain ss → ∀ off, (eventsL off (srcNodes ns ss)).length ≤ 2 * (srcBytes ss).length
  | [], _, off => by simp [srcNodes, eventsL]
  | s :: ss, h, off => by
    cases h with
    | cons h1 h2 _ =>
      have a := node_count ns s h1 off
      have b := nodes_count ns ss h2 (off + (s.node ns).bytes.length)
      simp only [srcNodes, eventsL, List.length_append, srcBytes]
      omega
end

theorem bytes_start {u : Unicode} {chain : List (List Attr)} {s : Src} (_ : SrcWf u chain s) (ht : s.isText = false) : ∃ r, s.bytes = 60 :: r := by
  cases s with
  | text _ => cases ht
  | comment _ => exact ⟨_, rfl⟩
  | cdata _ => exact ⟨_, rfl⟩
  | pi _ _ => exact ⟨_, rfl⟩
  | doctype _ => exact ⟨_, rfl⟩
  | empty _ _ _ _ => exact ⟨_, rfl⟩
  | elem _ _ _ _ _ _ => exact ⟨_, rfl⟩

mutual
theorem src_lexes {u : Unicode} {chain : List (List Attr)} (ns : Scope) : ∀ (s : Src), SrcWf u chain s → s.isMisc = false → LexesTo u ns (s.node ns)
  | .text _, _, hm => by cases hm
  | .comment _, _, hm => by cases hm
  | .cdata _, _, hm => by cases hm
  | .pi _ _, _, hm => by cases hm
  | .doctype _, _, hm => by cases hm
  | .empty pre loc attrs space, h, _ => by
    cases h with
    | empty ht =>
      intro total off fuel stack rest htot
      simp only [Src.node] at htot ⊢
      rw [events_length_elem]
      simp only [eventsL, List.length_nil, Nat.zero_add]
      have hts := token_open ht ns stack rest true
      simp only [Node.bytes, bytesL, List.append_nil] at htot ⊢
      rw [tokens, hts]
      simp only [if_true, tokens, token, popElement, ne_eq, not_true, if_false]
      have hoff : total - rest.length = off + (openBytes pre loc attrs space true).length := by omega
      simp only [hoff]
      simp [Node.events, eventsL, bytesL]
  | .elem pre loc attrs space kids endSpace, h, _ => by
    cases h with
    | elem ht hk hw =>
      intro total off fuel stack rest htot
      simp only [Src.node] at htot ⊢
      rw [events_length_elem]
      have hkids := srcs_lexes (nsPush ns (attrs.map SrcAttr.toAttr)) kids hk
      simp only [Node.bytes] at htot ⊢
      generalize hns' : nsPush ns (attrs.map SrcAttr.toAttr) = ns' at *
      generalize hO : openBytes pre loc attrs space false = O at *
      have hts := token_open ht ns stack (bytesL (srcNodes ns' kids) ++ (closeBytes pre loc endSpace ++ rest)) false
      rw [hO, hns'] at hts
      have hcl : ∃ r, closeBytes pre loc endSpace ++ rest = 60 :: r := ⟨_, rfl⟩
      obtain ⟨cr, hcr⟩ := hcl
      have hclen : (closeBytes pre loc endSpace).length + rest.length = cr.length + 1 := by
        have := congrArg List.length hcr
        simpa using this
      have e : fuel + ((eventsL (off + O.length) (srcNodes ns' kids)).length + 2) =
          ((fuel + 1) + (eventsL (off + O.length) (srcNodes ns' kids)).length) + 1 := by omega
      rw [e, show O ++ bytesL (srcNodes ns' kids) ++ closeBytes pre loc endSpace ++ rest =
        O ++ (bytesL (srcNodes ns' kids) ++ (closeBytes pre loc endSpace ++ rest)) by simp, tokens, hts]
      simp only [Bool.false_eq_true, if_false]
      have hk2 := hkids total (off + O.length) (fuel + 1) ((⟨pre, loc⟩, ns) :: stack) cr
        (by simp only [List.length_append, List.length_cons] at htot ⊢; omega)
      rw [hcr, hk2, ← hcr, tokens, token_close ht.name hw ns' ns stack rest]
      simp only [Node.events, List.cons_append, List.append_assoc, List.nil_append]
      have h1 : total - (bytesL (srcNodes ns' kids) ++ (closeBytes pre loc endSpace ++ rest)).length = off + O.length := by
        simp only [List.length_append] at htot ⊢; omega
      have h2 : total - rest.length = off + O.length + (bytesL (srcNodes ns' kids)).length + (closeBytes pre loc endSpace).length := by
        simp only [List.length_append] at htot ⊢; omega
      rw [h1, h2]
theorem srcs_lexes {u : Unicode} {chain : List (List Attr)} (ns : Scope) : ∀ (ss : List Src), SrcsWf u chain ss → LexesL u ns (srcNodes ns ss)
  | [], _ => by intro total off fuel stack rest ht; simp [srcNodes, bytesL, eventsL]
  | s :: ss, h => by
    cases h with
    | cons h1 h2 h3 =>
      have ih := srcs_lexes ns ss h2
      cases hm : s.isMisc with
      | false => exact lexesL_cons (src_lexes ns s h1 hm) ih
      | true =>
        intro total off fuel stack rest ht
        simp only [srcNodes, bytesL, eventsL, node_misc hm, Node.bytes, Node.events, List.append_assoc, List.length_append,
          List.length_cons, List.length_nil, List.cons_append, List.nil_append] at *
        have hnext : s.isText = true → ∃ r, bytesL (srcNodes ns ss) ++ 60 :: rest = 60 :: r := by
          intro hs
          cases ss with
          | nil => exact ⟨rest, rfl⟩
          | cons t ts =>
            have hwt : SrcWf u chain t := by cases h2 with | cons a _ _ => exact a
            obtain ⟨r, hr⟩ := bytes_start hwt (h3 hs t (by simp))
            exact ⟨_, by rw [nodes_bytes]; simp [srcBytes, hr]; rfl⟩
        have hlen : (bytesL (srcNodes ns ss) ++ 60 :: rest).length = (bytesL (srcNodes ns ss)).length + (rest.length + 1) := by simp
        have := token_misc h1 hm ns stack _ hnext
        have e : fuel + (1 + (eventsL (off + s.bytes.length) (srcNodes ns ss)).length) =
            (fuel + (eventsL (off + s.bytes.length) (srcNodes ns ss)).length) + 1 := by omega
        have e' : fuel + ((eventsL (off + s.bytes.length) (srcNodes ns ss)).length + 1) =
            (fuel + (eventsL (off + s.bytes.length) (srcNodes ns ss)).length) + 1 := by omega
        first
          | rw [e, tokens, this]
          | rw [e', tokens, this]
        simp only
        congr 1
        · congr 1; rw [hlen]; omega
        · exact ih total (off + s.bytes.length) fuel stack rest (by simp only [List.length_cons]; omega)
end

theorem srcs_misc {u : Unicode} {chain : List (List Attr)} : ∀ {ss : List Src}, SrcsWf u chain ss → (∀ s ∈ ss, s.isMisc = true) →
    Misc u (ss.map Src.bytes)
  | [], _, _ => .nil
  | s :: ss, .cons h1 h2 h3, hm => by
    have ne : s.bytes ≠ [] := by cases h1 <;> simp_all [Src.bytes]
    have ih := srcs_misc h2 fun t ht => hm t (by simp [ht])
    cases hx : s.isText with
    | true =>
      refine .cons ⟨ne, fun stack ns rest => token_misc h1 (hm s (by simp)) ns stack (60 :: rest) fun _ => ⟨rest, rfl⟩⟩ ?_ ih
      cases ss with
      | nil => simp
      | cons s' ss' =>
        cases h2 with
        | cons h4 _ _ =>
          intro t ht
          simp only [List.map_cons, List.head?_cons, Option.mem_def, Option.some.injEq] at ht
          rw [← ht]
          exact bytes_start h4 (h3 hx s' (by simp))
    | false =>
      exact .markup ⟨ne, fun stack ns rest => token_misc h1 (hm s (by simp)) ns stack rest (by simp [hx])⟩ ih

theorem srcBytes_flatten (ss : List Src) : (ss.map Src.bytes).flatten = srcBytes ss := by
  induction ss with
  | nil => rfl
  | cons s ss ih => simp [srcBytes, ih]

end GoXml
