import Verif.Spec.Cli
import Verif.Props.Gen
set_option autoImplicit false

namespace GoXml.Cli
open Xsdgen

/-- Names of flags that the package `flag` can read. -/
def GoodName (n : Str) : Prop := (∃ c cs, n = c :: cs ∧ c ≠ 45 ∧ c ≠ 61) ∧ 61 ∉ n

/-- How the value is attached. -/
def valueText : Option Str → Str
  | none => []
  | some v => b!"=" ++ v

theorem splitEq_plain (n : Str) (h : 61 ∉ n) : splitEq n = (n, none) := by
  induction n with
  | nil => rfl
  | cons c cs ih =>
    simp only [List.mem_cons, not_or] at h
    simp only [splitEq, if_neg (Ne.symm h.1), ih h.2]

theorem splitEq_eq (n v : Str) (h : 61 ∉ n) : splitEq (n ++ b!"=" ++ v) = (n, some v) := by
  induction n with
  | nil => rfl
  | cons c cs ih =>
    simp only [List.mem_cons, not_or] at h
    have := ih h.2
    simp only [List.cons_append, splitEq, if_neg (Ne.symm h.1), this]

theorem splitEq_spec (s : Str) : 61 ∉ (splitEq s).1 ∧
    s = (splitEq s).1 ++ valueText (splitEq s).2 := by
  induction s with
  | nil => exact ⟨by simp [splitEq], rfl⟩
  | cons c cs ih =>
    simp only [splitEq]
    split
    · rename_i h; subst h; exact ⟨by simp, rfl⟩
    · rename_i h
      refine ⟨by simp only [List.mem_cons, not_or]; exact ⟨Ne.symm h, ih.1⟩, ?_⟩
      rw [List.cons_append, ← ih.2]

theorem flagName_plain (n : Str) (h : GoodName n) : flagName n = .flag n none := by
  obtain ⟨⟨c, cs, rfl, h1, h2⟩, h3⟩ := h
  simp only [List.mem_cons, not_or] at h3
  simp only [flagName, h1, h2, or_self, if_false, splitEq_plain cs h3.2]

theorem flagName_eq (n v : Str) (h : GoodName n) : flagName (n ++ b!"=" ++ v) = .flag n (some v) := by
  obtain ⟨⟨c, cs, rfl, h1, h2⟩, h3⟩ := h
  simp only [List.mem_cons, not_or] at h3
  have := splitEq_eq cs v h3.2
  simp only [List.cons_append, flagName, h1, h2, or_self, if_false, this]

theorem flagName_spec (s n : Str) (v : Option Str) (h : flagName s = .flag n v) :
    GoodName n ∧ s = n ++ valueText v := by
  cases s with
  | nil => simp [flagName] at h
  | cons c cs =>
    simp only [flagName] at h
    split at h
    · cases h
    · rename_i hc
      simp only [not_or] at hc
      have hs := splitEq_spec cs
      cases h
      refine ⟨⟨⟨c, _, rfl, hc.1, hc.2⟩, ?_⟩, ?_⟩
      · simp only [List.mem_cons, not_or]; exact ⟨Ne.symm hc.2, hs.1⟩
      · rw [List.cons_append, ← hs.2]

theorem flagName_not (s : Str) : flagName s ≠ .stop ∧ flagName s ≠ .terminator := by
  cases s with
  | nil => simp [flagName]
  | cons c cs => simp only [flagName]; split <;> simp

theorem readArg_stop (a : Str) : readArg a = .stop ↔ (a.head? ≠ some 45 ∨ a = b!"-") := by
  match a with
  | [] => simp [readArg]
  | [c] =>
    simp only [readArg, List.head?_cons, ne_eq, Option.some.injEq, List.cons.injEq, and_true, true_iff]
    exact (Decidable.em (c = 45)).symm
  | a :: b :: rest =>
    simp only [readArg, List.head?_cons, ne_eq, Option.some.injEq, List.cons.injEq]
    by_cases h : a = 45
    · simp only [h, not_true, if_false, false_or]
      refine ⟨fun h => ?_, fun h => by simp at h⟩
      split at h
      · split at h
        · cases h
        · exact absurd h (flagName_not _).1
      · exact absurd h (flagName_not _).1
    · simp [h]

theorem readArg_terminator (a : Str) : readArg a = .terminator ↔ a = b!"--" := by
  match a with
  | [] => simp [readArg]
  | [c] => simp [readArg]
  | a :: b :: rest =>
    simp only [readArg, List.cons.injEq]
    by_cases h : a = 45
    · simp only [h, ne_eq, not_true, if_false, true_and]
      by_cases hb : b = 45
      · simp only [hb, if_true, true_and]
        by_cases hr : rest = []
        · simp [hr]
        · simp only [hr, if_false, iff_false]; exact (flagName_not _).2
      · simp only [hb, if_false, false_and, iff_false]; exact (flagName_not _).2
    · simp [h]

theorem readArg_dash (d s : Str) (hd : Dash d) (hs : ∃ c cs, s = c :: cs ∧ c ≠ 45) : readArg (d ++ s) = flagName s := by
  obtain ⟨c, cs, rfl, hc⟩ := hs
  rcases hd with rfl | rfl
  · simp [readArg, hc]
  · simp [readArg]

theorem readArg_flag (a n : Str) (v : Option Str) (h : readArg a = .flag n v) :
    GoodName n ∧ ∃ d, Dash d ∧ a = d ++ n ++ valueText v := by
  match a with
  | [] => simp [readArg] at h
  | [c] => simp [readArg] at h
  | a :: b :: rest =>
    simp only [readArg] at h
    by_cases ha : a = 45
    · subst ha
      rw [if_neg (by simp)] at h
      split at h
      · rename_i hb
        subst hb
        split at h
        · cases h
        · obtain ⟨h1, h2⟩ := flagName_spec _ _ _ h
          exact ⟨h1, b!"--", .inr rfl, by rw [h2]; simp⟩
      · obtain ⟨h1, h2⟩ := flagName_spec _ _ _ h
        exact ⟨h1, b!"-", .inl rfl, by rw [h2]; simp⟩
    · rw [if_pos ha] at h; cases h

/-- One flag with its value is read as it is written. -/
theorem parseFlags_written {σ : Type} (known : Str → Option Bool) (set : Str → Str → σ → Option σ)
    (f : Str × Str) (part : List Str) (b : Bool) (hk : known f.1 = some b) (hg : GoodName f.1)
    (h : Written (fun n => known n = some true) f part) (rest : List Str) (st : σ) :
    parseFlags known set (part ++ rest) st = (set f.1 f.2 st).bind fun st => parseFlags known set rest st := by
  have hd : ∀ s, ∃ c cs, f.1 ++ s = c :: cs ∧ c ≠ 45 := by
    obtain ⟨⟨c, cs, e, h1, -⟩, -⟩ := hg
    exact fun s => ⟨c, cs ++ s, by rw [e]; rfl, h1⟩
  cases h with
  | attached d name value hdash =>
    have e : readArg (d ++ name ++ b!"=" ++ value) = .flag name (some value) := by
      have := readArg_dash d (name ++ b!"=" ++ value) hdash (by simpa using hd (b!"=" ++ value))
      rw [flagName_eq name value hg] at this
      rw [← this]; simp
    simp only at hk ⊢
    rw [List.singleton_append, parseFlags]
    simp only [e, hk]
    cases b <;> (simp only [Option.getD_some]; cases set name value st <;> rfl)
  | separate d name value hdash hb =>
    have e : readArg (d ++ name) = .flag name none := by
      rw [readArg_dash d name hdash (by simpa using hd []), flagName_plain name hg]
    simp only at hk hb ⊢
    cases b with
    | true => exact absurd hk hb
    | false =>
      rw [List.cons_append, List.singleton_append, parseFlags]
      simp only [e, hk]
      cases set name value st <;> rfl
  | bare d name hdash hb =>
    have e : readArg (d ++ name) = .flag name none := by
      rw [readArg_dash d name hdash (by simpa using hd []), flagName_plain name hg]
    simp only at hk hb ⊢
    rw [List.singleton_append, parseFlags]
    simp only [e, hb, Option.getD_none]
    cases set name b!"true" st <;> rfl

theorem parseFlags_files {σ : Type} (known : Str → Option Bool) (set : Str → Str → σ → Option σ) (files rest : List Str)
    (h : FilesWritten files rest) (st : σ) : parseFlags known set rest st = some (st, files) := by
  cases h with
  | plain h =>
    cases files with
    | nil => rfl
    | cons f fs =>
      rw [parseFlags]
      simp only [(readArg_stop f).2 (h f rfl)]
  | afterDashes =>
    rw [parseFlags]
    simp only [(readArg_terminator _).2]

/-- The flags, one after the other. -/
def setAll {σ : Type} (set : Str → Str → σ → Option σ) : List (Str × Str) → σ → Option σ
  | [], st => some st
  | f :: fs, st => (set f.1 f.2 st).bind fun st => setAll set fs st

theorem parseFlags_line {σ : Type} (known : Str → Option Bool) (set : Str → Str → σ → Option σ)
    (hg : ∀ n, known n ≠ none → GoodName n) (flags : List (Str × Str)) (files args : List Str)
    (hk : ∀ f ∈ flags, known f.1 ≠ none) (h : CommandLine (fun n => known n = some true) flags files args) (st : σ) :
    parseFlags known set args st = (setAll set flags st).map fun st => (st, files) := by
  obtain ⟨parts, rest, h1, h2, rfl⟩ := h
  induction h1 generalizing st with
  | nil => simpa [setAll] using parseFlags_files known set files rest h2 st
  | @cons f part fs ps h1 _ ih =>
    have hk' : ∀ f ∈ fs, known f.1 ≠ none := fun g hgm => hk g (List.mem_cons_of_mem _ hgm)
    have hf := hk f List.mem_cons_self
    obtain ⟨b, hb⟩ := Option.ne_none_iff_exists'.mp hf
    rw [List.flatten_cons, List.append_assoc, parseFlags_written known set f part b hb (hg _ hf) h1, setAll]
    cases set f.1 f.2 st with
    | none => rfl
    | some st => exact ih hk' st

theorem parseFlags_sound {σ : Type} (known : Str → Option Bool) (set : Str → Str → σ → Option σ) (n : Nat) (args : List Str)
    (hn : args.length ≤ n) (st st' : σ) (files : List Str) (h : parseFlags known set args st = some (st', files)) :
    ∃ flags, CommandLine (fun n => known n = some true) flags files args ∧ (∀ f ∈ flags, known f.1 ≠ none) ∧
      setAll set flags st = some st' := by
  induction n generalizing args st with
  | zero =>
    cases args with
    | nil =>
      rw [parseFlags] at h
      cases h
      exact ⟨[], ⟨[], [], .nil, .plain [] (by simp), rfl⟩, by simp, rfl⟩
    | cons a as => simp at hn
  | succ n ih =>
    cases args with
    | nil =>
      rw [parseFlags] at h
      cases h
      exact ⟨[], ⟨[], [], .nil, .plain [] (by simp), rfl⟩, by simp, rfl⟩
    | cons a as =>
      have add : ∀ (f : Str × Str) part rest st1, Written (fun n => known n = some true) f part → a :: as = part ++ rest →
          known f.1 ≠ none → set f.1 f.2 st = some st1 → rest.length ≤ n → parseFlags known set rest st1 = some (st', files) →
          ∃ flags, CommandLine (fun n => known n = some true) flags files (a :: as) ∧ (∀ f ∈ flags, known f.1 ≠ none) ∧
            setAll set flags st = some st' := by
        intro f part rest st1 hw he hk hs hl hp
        obtain ⟨flags, ⟨parts, r, h1, h2, h3⟩, h4, h5⟩ := ih rest hl st1 hp
        refine ⟨f :: flags, ⟨part :: parts, r, .cons hw h1, h2, by rw [he, h3]; simp⟩, ?_, by simp [setAll, hs, h5]⟩
        intro g hg
        rcases List.mem_cons.mp hg with rfl | hg
        · exact hk
        · exact h4 g hg
      simp only [List.length_cons] at hn
      rw [parseFlags] at h
      split at h
      · rename_i hr
        cases h
        refine ⟨[], ⟨[], _, .nil, .plain _ ?_, rfl⟩, by simp, rfl⟩
        intro f hf
        cases hf
        exact (readArg_stop _).1 hr
      · rename_i hr
        cases h
        refine ⟨[], ⟨[], _, .nil, .afterDashes _, ?_⟩, by simp, rfl⟩
        rw [(readArg_terminator _).1 hr]; rfl
      · cases h
      · rename_i name value hr
        obtain ⟨hg, d, hd, ha⟩ := readArg_flag _ _ _ hr
        subst ha
        split at h
        · cases h
        · rename_i hk
          split at h
          · cases h
          · rename_i st1 hs
            cases value with
            | none => exact add (name, b!"true") [d ++ name] as st1 (.bare d name hd hk) (by simp [valueText]) (by simp [hk]) hs (by omega) h
            | some v =>
              exact add (name, v) [d ++ name ++ b!"=" ++ v] as st1 (.attached d name v hd) (by simp [valueText]) (by simp [hk]) hs (by omega) h
        · rename_i hk
          split at h
          · rename_i v
            split at h
            · cases h
            · rename_i st1 hs
              exact add (name, v) [d ++ name ++ b!"=" ++ v] as st1 (.attached d name v hd) (by simp [valueText]) (by simp [hk]) hs (by omega) h
          · split at h
            · cases h
            · rename_i v as'
              split at h
              · cases h
              · rename_i st1 hs
                simp only [List.length_cons] at hn
                exact add (name, v) [d ++ name, v] as' st1 (.separate d name v hd (by simp [hk])) (by simp [valueText]) (by simp [hk]) hs
                  (by omega) h

/-! ### Values of flags -/

theorem lastOf_cons (f : Str × Str) (fs : List (Str × Str)) (name default : Str) :
    lastOf (f :: fs) name default = lastOf fs name (if f.1 = name then f.2 else default) := by
  simp only [lastOf, valuesOf, List.filter_cons]
  by_cases h : f.1 = name
  · simp only [h, decide_true, if_true, List.map_cons]
    cases hl : List.map (·.2) (List.filter (fun f => decide (f.1 = name)) fs) with
    | nil => simp
    | cons x xs => rw [List.getLast?_cons_cons]; simp [List.getLast?_cons]
  · simp only [h, decide_false, if_false, Bool.false_eq_true]

theorem valuesOf_cons (f : Str × Str) (fs : List (Str × Str)) (name : Str) :
    valuesOf (f :: fs) name = (if f.1 = name then [f.2] else []) ++ valuesOf fs name := by
  simp only [valuesOf, List.filter_cons]
  by_cases h : f.1 = name <;> simp [h]

/-- The text of a truth value. -/
def boolText (b : Bool) : Str := if b then b!"true" else b!"false"

theorem truth_boolText (b : Bool) : Truth (boolText b) ↔ b = true := by cases b <;> decide

theorem parseBool_truth (s : Str) (h : Truth s ∨ Falsity s) : parseBool s = some (decide (Truth s)) := by
  simp only [parseBool, Truth, Falsity] at *
  rcases h with h | h
  · rw [if_pos h]; simp [h]
  · by_cases h' : s ∈ [b!"1", b!"t", b!"T", b!"TRUE", b!"true", b!"True"]
    · rw [if_pos h']; simp [h']
    · rw [if_neg h', if_pos h]; simp only [h', decide_false]

theorem parseBool_some (s : Str) (b : Bool) (h : parseBool s = some b) : Truth s ∨ Falsity s := by
  simp only [parseBool] at h
  split at h
  · rename_i h1; exact .inl h1
  · split at h
    · rename_i h1; exact .inr h1
    · cases h

theorem isRule_unique {compile : Str → Option Regexp} {s : Str} {r r' : Regexp × Str} (h : IsRule compile s r)
    (h' : IsRule compile s r') : r = r' := by
  obtain ⟨a, b, f, h1, h2, h3, h4⟩ := h
  obtain ⟨a', b', f', h1', h2', h3', h4'⟩ := h'
  have hlen : a.length = a'.length := Nat.le_antisymm (h1.2 a' b' h1'.1) (h1'.2 a b h1.1)
  have e : a ++ (b!"->" ++ b) = a' ++ (b!"->" ++ b') := by
    rw [← List.append_assoc, ← h1.1, ← List.append_assoc, ← h1'.1]
  obtain ⟨rfl, e2⟩ := List.append_inj e hlen
  have e2 := List.append_cancel_left e2
  subst e2
  have := Gen.trimmedTo_unique h2 h2'
  subst this
  rw [h4] at h4'
  exact Prod.ext (Option.some.inj h4') (Gen.trimmedTo_unique h3 h3')

/-- A rule is appended, with its text. -/
theorem setRule_rule (env : Env) (s : Str) (rules : Rules) (rule : Regexp × Str) (h : IsRule env.compile s rule) :
    ∃ f, env.compile f = some rule.1 ∧ setRule env s rules = some (rules ++ [((f, rule.1), rule.2)]) := by
  obtain ⟨a, b, f, h1, h2, h3, h4⟩ := h
  refine ⟨f, h4, ?_⟩
  have := (Gen.C63_replace_set (compileText env) rules s).1 a b f rule.2 (f, rule.1) h1 h2 h3 (by simp [compileText, h4])
  simp only [setRule, this, if_true]

theorem setRule_some (env : Env) (s : Str) (rules rules' : Rules) (h : setRule env s rules = some rules') :
    ∃ rule, IsRule env.compile s rule := by
  simp only [setRule, Gen.replaceSet] at h
  have hs := Gen.cutArrow_spec s
  cases hc : Gen.cutArrow s with
  | none => simp [hc] at h
  | some ab =>
    obtain ⟨a, b⟩ := ab
    rw [hc] at hs
    simp only [hc] at h
    cases hr : env.compile (trimSpace a) with
    | none => simp [compileText, hr] at h
    | some reg =>
      exact ⟨(reg, trimSpace b), a, b, trimSpace a, hs, Gen.trimSpace_spec a, Gen.trimSpace_spec b, hr⟩

end GoXml.Cli

namespace GoXml.Cli
open Xsdgen

theorem forall₂_append_left {α β : Type} {R : α → β → Prop} {a : α} {as : List α} {bs : List β}
    (h : List.Forall₂ R ([a] ++ as) bs) : ∃ b bs', bs = b :: bs' ∧ R a b ∧ List.Forall₂ R as bs' := by
  cases h with
  | cons h1 h2 => exact ⟨_, _, rfl, h1, h2⟩

theorem decide_truth_cons (f : Str × Str) (fs : List (Str × Str)) (name : Str) (b : Bool) (hf : f.1 = name) :
    lastOf (f :: fs) name (boolText b) = lastOf fs name f.2 := by
  rw [lastOf_cons, if_pos hf]

/-- What matters of the last value of a boolean flag is its truth. -/
theorem truth_lastOf (fs : List (Str × Str)) (name v w : Str) (h : Truth v ↔ Truth w) :
    Truth (lastOf fs name v) ↔ Truth (lastOf fs name w) := by
  simp only [lastOf]
  cases (valuesOf fs name).getLast? with
  | none => simpa using h
  | some x => simp

/-- The flags of xsdgen, one after the other. -/
theorem xSetAll (env : Env) (flags : List (Str × Str)) (rules : List (Regexp × Str))
    (hv : ∀ f ∈ flags, ValidFlag env.compile xBooleans xTexts f)
    (hr : List.Forall₂ (IsRule env.compile) (valuesOf flags b!"r") rules) (st : XFlags) :
    ∃ st' rs, setAll (xSet env) flags st = some st' ∧
      st'.packageName = lastOf flags b!"pkg" st.packageName ∧ st'.output = lastOf flags b!"o" st.output ∧
      (st'.followImports = true ↔ Truth (lastOf flags b!"f" (boolText st.followImports))) ∧
      (st'.verbose = true ↔ Truth (lastOf flags b!"v" (boolText st.verbose))) ∧
      (st'.debug = true ↔ Truth (lastOf flags b!"vv" (boolText st.debug))) ∧
      st'.rules = st.rules ++ rs ∧ rs.map (fun r => (r.1.2, r.2)) = rules ∧ (∀ r ∈ rs, env.compile r.1.1 = some r.1.2) ∧
      st'.xmlns = st.xmlns ++ valuesOf flags b!"ns" := by
  induction flags generalizing st rules with
  | nil =>
    cases hr
    exact ⟨st, [], rfl, rfl, rfl, (truth_boolText _).symm, (truth_boolText _).symm, (truth_boolText _).symm, by simp, rfl, by simp,
      by simp [valuesOf]⟩
  | cons f fs ih =>
    have hv' : ∀ g ∈ fs, ValidFlag env.compile xBooleans xTexts g := fun g hg => hv g (List.mem_cons_of_mem _ hg)
    obtain ⟨name, v⟩ := f
    have h0 := hv (name, v) List.mem_cons_self
    have bt : ∀ b, (Truth v ∨ Falsity v) → parseBool v = some b → (Truth (boolText b) ↔ Truth v) := by
      intro b h1 h2
      rw [parseBool_truth v h1] at h2
      cases h2
      rw [truth_boolText]; simp
    have hrule : name ≠ b!"r" → List.Forall₂ (IsRule env.compile) (valuesOf fs b!"r") rules := by
      intro hne; rw [valuesOf_cons, if_neg hne] at hr; exact hr
    simp only [lastOf_cons, valuesOf_cons]
    rcases h0 with ⟨hb, hval⟩ | ht | ⟨hn, -⟩
    · have hp := parseBool_truth v hval
      have hb' : name = b!"f" ∨ name = b!"v" ∨ name = b!"vv" := by simpa [xBooleans] using hb
      rcases hb' with hn | hn | hn
      all_goals subst hn
      · obtain ⟨st', rs, h1, h2, h3, h4, h5, h6, h7⟩ := ih rules hv' (hrule (by decide)) { st with followImports := decide (Truth v) }
        refine ⟨st', rs, by simp [setAll, xSet, hp, h1], h2, h3, ?_, h5, h6, by simpa using h7⟩
        rw [h4]; exact truth_lastOf _ _ _ _ (bt _ hval hp)
      · obtain ⟨st', rs, h1, h2, h3, h4, h5, h6, h7⟩ := ih rules hv' (hrule (by decide)) { st with verbose := decide (Truth v) }
        refine ⟨st', rs, by simp [setAll, xSet, hp, h1], h2, h3, h4, ?_, h6, by simpa using h7⟩
        rw [h5]; exact truth_lastOf _ _ _ _ (bt _ hval hp)
      · obtain ⟨st', rs, h1, h2, h3, h4, h5, h6, h7⟩ := ih rules hv' (hrule (by decide)) { st with debug := decide (Truth v) }
        refine ⟨st', rs, by simp [setAll, xSet, hp, h1], h2, h3, h4, h5, ?_, by simpa using h7⟩
        rw [h6]; exact truth_lastOf _ _ _ _ (bt _ hval hp)
    · have ht' : name = b!"pkg" ∨ name = b!"o" ∨ name = b!"ns" := by simpa [xTexts] using ht
      rcases ht' with hn | hn | hn
      all_goals subst hn
      · obtain ⟨st', rs, h1, h2⟩ := ih rules hv' (hrule (by decide)) { st with packageName := v }
        exact ⟨st', rs, by simp [setAll, xSet, h1], by simpa using h2⟩
      · obtain ⟨st', rs, h1, h2⟩ := ih rules hv' (hrule (by decide)) { st with output := v }
        exact ⟨st', rs, by simp [setAll, xSet, h1], by simpa using h2⟩
      · obtain ⟨st', rs, h1, h2, h3, h4, h5, h6, h7, h8, h9, h10⟩ :=
          ih rules hv' (hrule (by decide)) { st with xmlns := Gen.stringsSet st.xmlns v }
        exact ⟨st', rs, by simp [setAll, xSet, h1], h2, h3, h4, h5, h6, h7, h8, h9, by simp [h10, Gen.stringsSet]⟩
    · simp only at hn
      subst hn
      rw [valuesOf_cons, if_pos rfl] at hr
      obtain ⟨rule, rules', rfl, hir, hr'⟩ := forall₂_append_left hr
      obtain ⟨text, hc, hs⟩ := setRule_rule env v st.rules rule hir
      obtain ⟨st', rs, h1, h2, h3, h4, h5, h6, h7, h8, h9, h10⟩ := ih rules' hv' hr' { st with rules := st.rules ++ [((text, rule.1), rule.2)] }
      refine ⟨st', ((text, rule.1), rule.2) :: rs, by simp [setAll, xSet, hs, h1], h2, h3, h4, h5, h6, by simp [h7], by simp [h8], ?_, by simpa using h10⟩
      intro r hrm
      rcases List.mem_cons.mp hrm with rfl | hrm
      · exact hc
      · exact h9 r hrm

/-- The flags of wsdlgen, one after the other. -/
theorem wSetAll (env : Env) (flags : List (Str × Str)) (rules : List (Regexp × Str))
    (hv : ∀ f ∈ flags, ValidFlag env.compile wBooleans wTexts f)
    (hr : List.Forall₂ (IsRule env.compile) (valuesOf flags b!"r") rules) (st : WFlags) :
    ∃ st' rs, setAll (wSet env) flags st = some st' ∧
      st'.packageName = lastOf flags b!"pkg" st.packageName ∧ st'.comment = lastOf flags b!"c" st.comment ∧
      st'.output = lastOf flags b!"o" st.output ∧
      (st'.verbose = true ↔ Truth (lastOf flags b!"v" (boolText st.verbose))) ∧
      (st'.debug = true ↔ Truth (lastOf flags b!"vv" (boolText st.debug))) ∧
      st'.rules = st.rules ++ rs ∧ rs.map (fun r => (r.1.2, r.2)) = rules ∧ (∀ r ∈ rs, env.compile r.1.1 = some r.1.2) ∧
      st'.ports = st.ports ++ valuesOf flags b!"port" := by
  induction flags generalizing st rules with
  | nil =>
    cases hr
    exact ⟨st, [], rfl, rfl, rfl, rfl, (truth_boolText _).symm, (truth_boolText _).symm, by simp, rfl, by simp,
      by simp [valuesOf]⟩
  | cons f fs ih =>
    have hv' : ∀ g ∈ fs, ValidFlag env.compile wBooleans wTexts g := fun g hg => hv g (List.mem_cons_of_mem _ hg)
    obtain ⟨name, v⟩ := f
    have h0 := hv (name, v) List.mem_cons_self
    have bt : ∀ b, (Truth v ∨ Falsity v) → parseBool v = some b → (Truth (boolText b) ↔ Truth v) := by
      intro b h1 h2
      rw [parseBool_truth v h1] at h2
      cases h2
      rw [truth_boolText]; simp
    have hrule : name ≠ b!"r" → List.Forall₂ (IsRule env.compile) (valuesOf fs b!"r") rules := by
      intro hne; rw [valuesOf_cons, if_neg hne] at hr; exact hr
    simp only [lastOf_cons, valuesOf_cons]
    rcases h0 with ⟨hb, hval⟩ | ht | ⟨hn, -⟩
    · have hp := parseBool_truth v hval
      have hb' : name = b!"v" ∨ name = b!"vv" := by simpa [wBooleans] using hb
      rcases hb' with hn | hn
      all_goals subst hn
      · obtain ⟨st', rs, h1, h2, h3, h4, h5, h6, h7⟩ := ih rules hv' (hrule (by decide)) { st with verbose := decide (Truth v) }
        refine ⟨st', rs, by simp [setAll, wSet, hp, h1], h2, h3, h4, ?_, h6, by simpa using h7⟩
        rw [h5]; exact truth_lastOf _ _ _ _ (bt _ hval hp)
      · obtain ⟨st', rs, h1, h2, h3, h4, h5, h6, h7⟩ := ih rules hv' (hrule (by decide)) { st with debug := decide (Truth v) }
        refine ⟨st', rs, by simp [setAll, wSet, hp, h1], h2, h3, h4, h5, ?_, by simpa using h7⟩
        rw [h6]; exact truth_lastOf _ _ _ _ (bt _ hval hp)
    · have ht' : name = b!"pkg" ∨ name = b!"c" ∨ name = b!"o" ∨ name = b!"port" := by simpa [wTexts] using ht
      rcases ht' with hn | hn | hn | hn
      all_goals subst hn
      · obtain ⟨st', rs, h1, h2⟩ := ih rules hv' (hrule (by decide)) { st with packageName := v }
        exact ⟨st', rs, by simp [setAll, wSet, h1], by simpa using h2⟩
      · obtain ⟨st', rs, h1, h2⟩ := ih rules hv' (hrule (by decide)) { st with comment := v }
        exact ⟨st', rs, by simp [setAll, wSet, h1], by simpa using h2⟩
      · obtain ⟨st', rs, h1, h2⟩ := ih rules hv' (hrule (by decide)) { st with output := v }
        exact ⟨st', rs, by simp [setAll, wSet, h1], by simpa using h2⟩
      · obtain ⟨st', rs, h1, h2, h3, h4, h5, h6, h7, h8, h9, h10⟩ :=
          ih rules hv' (hrule (by decide)) { st with ports := Gen.stringsSet st.ports v }
        exact ⟨st', rs, by simp [setAll, wSet, h1], h2, h3, h4, h5, h6, h7, h8, h9, by simp [h10, Gen.stringsSet]⟩
    · simp only at hn
      subst hn
      rw [valuesOf_cons, if_pos rfl] at hr
      obtain ⟨rule, rules', rfl, hir, hr'⟩ := forall₂_append_left hr
      obtain ⟨text, hc, hs⟩ := setRule_rule env v st.rules rule hir
      obtain ⟨st', rs, h1, h2, h3, h4, h5, h6, h7, h8, h9, h10⟩ := ih rules' hv' hr' { st with rules := st.rules ++ [((text, rule.1), rule.2)] }
      refine ⟨st', ((text, rule.1), rule.2) :: rs, by simp [setAll, wSet, hs, h1], h2, h3, h4, h5, h6, by simp [h7], by simp [h8], ?_, by simpa using h10⟩
      intro r hrm
      rcases List.mem_cons.mp hrm with rfl | hrm
      · exact hc
      · exact h9 r hrm

theorem setAll_mem {σ : Type} (set : Str → Str → σ → Option σ) (flags : List (Str × Str)) (st st' : σ)
    (h : setAll set flags st = some st') : ∀ f ∈ flags, ∃ s s', set f.1 f.2 s = some s' := by
  induction flags generalizing st with
  | nil => simp
  | cons g gs ih =>
    rw [setAll] at h
    cases hg : set g.1 g.2 st with
    | none => simp [hg] at h
    | some s =>
      rw [hg] at h
      intro f hf
      rcases List.mem_cons.mp hf with rfl | hf
      · exact ⟨_, _, hg⟩
      · exact ih s h f hf

theorem xKnown_iff (n : Str) : (xKnown n = some true ↔ n ∈ xBooleans) ∧ (xKnown n ≠ none ↔ n ∈ xBooleans ∨ n ∈ xTexts ∨ n = b!"r") := by
  by_cases h : n ∈ [b!"f", b!"v", b!"vv", b!"pkg", b!"o", b!"ns", b!"r"]
  · simp only [List.mem_cons, List.not_mem_nil, or_false] at h
    rcases h with rfl | rfl | rfl | rfl | rfl | rfl | rfl <;> decide +kernel
  · simp only [List.mem_cons, List.not_mem_nil, or_false, not_or] at h
    obtain ⟨h1, h2, h3, h4, h5, h6, h7⟩ := h
    simp [xKnown, xBooleans, xTexts, h1, h2, h3, h4, h5, h6, h7]

theorem wKnown_iff (n : Str) : (wKnown n = some true ↔ n ∈ wBooleans) ∧ (wKnown n ≠ none ↔ n ∈ wBooleans ∨ n ∈ wTexts ∨ n = b!"r") := by
  by_cases h : n ∈ [b!"v", b!"vv", b!"pkg", b!"c", b!"o", b!"port", b!"r"]
  · simp only [List.mem_cons, List.not_mem_nil, or_false] at h
    rcases h with rfl | rfl | rfl | rfl | rfl | rfl | rfl <;> decide +kernel
  · simp only [List.mem_cons, List.not_mem_nil, or_false, not_or] at h
    obtain ⟨h1, h2, h3, h4, h5, h6, h7⟩ := h
    simp [wKnown, wBooleans, wTexts, h1, h2, h3, h4, h5, h6, h7]

theorem goodName_of (l : List Str) (h : l.all (fun n => decide ((n.head?.getD 45 ≠ 45) ∧ (n.head?.getD 45 ≠ 61) ∧ 61 ∉ n)) = true) (n : Str)
    (hn : n ∈ l) : GoodName n := by
  have := List.all_eq_true.mp h n hn
  simp only [decide_eq_true_eq] at this
  obtain ⟨h1, h2, h3⟩ := this
  cases n with
  | nil => simp at h1
  | cons c cs => exact ⟨⟨c, cs, rfl, by simpa using h1, by simpa using h2⟩, h3⟩

theorem xGood (n : Str) (h : xKnown n ≠ none) : GoodName n := by
  have := (xKnown_iff n).2.1 h
  refine goodName_of (xBooleans ++ xTexts ++ [b!"r"]) (by decide +kernel) n ?_
  simpa using this

theorem wGood (n : Str) (h : wKnown n ≠ none) : GoodName n := by
  have := (wKnown_iff n).2.1 h
  refine goodName_of (wBooleans ++ wTexts ++ [b!"r"]) (by decide +kernel) n ?_
  simpa using this

theorem xSet_valid (env : Env) (f : Str × Str) (s s' : XFlags) (hk : xKnown f.1 ≠ none) (h : xSet env f.1 f.2 s = some s') :
    ValidFlag env.compile xBooleans xTexts f := by
  obtain ⟨name, v⟩ := f
  rcases (xKnown_iff _).2.1 hk with hb | ht | hn
  · refine .inl ⟨hb, ?_⟩
    have hb' : name = b!"f" ∨ name = b!"v" ∨ name = b!"vv" := by simpa [xBooleans] using hb
    cases hp : parseBool v with
    | some b => exact parseBool_some v b hp
    | none => rcases hb' with rfl | rfl | rfl <;> simp [xSet, hp] at h
  · exact .inr (.inl ht)
  · simp only at hn
    subst hn
    refine .inr (.inr ⟨rfl, ?_⟩)
    cases hr : setRule env v s.rules with
    | some r => exact setRule_some env v _ r hr
    | none => simp [xSet, hr] at h

theorem wSet_valid (env : Env) (f : Str × Str) (s s' : WFlags) (hk : wKnown f.1 ≠ none) (h : wSet env f.1 f.2 s = some s') :
    ValidFlag env.compile wBooleans wTexts f := by
  obtain ⟨name, v⟩ := f
  rcases (wKnown_iff _).2.1 hk with hb | ht | hn
  · refine .inl ⟨hb, ?_⟩
    have hb' : name = b!"v" ∨ name = b!"vv" := by simpa [wBooleans] using hb
    cases hp : parseBool v with
    | some b => exact parseBool_some v b hp
    | none => rcases hb' with rfl | rfl <;> simp [wSet, hp] at h
  · exact .inr (.inl ht)
  · simp only at hn
    subst hn
    refine .inr (.inr ⟨rfl, ?_⟩)
    cases hr : setRule env v s.rules with
    | some r => exact setRule_some env v _ r hr
    | none => simp [wSet, hr] at h

theorem validFlag_known {compile : Str → Option Regexp} {bs ts : List Str} {f : Str × Str} (h : ValidFlag compile bs ts f) :
    f.1 ∈ bs ∨ f.1 ∈ ts ∨ f.1 = b!"r" := by
  rcases h with ⟨h, -⟩ | h | ⟨h, -⟩
  · exact .inl h
  · exact .inr (.inl h)
  · exact .inr (.inr h)

/-- The rules in order, for both ways in which a rule becomes an option. -/
theorem localName_rules (env : Env) (os : List Opt) (rules : List (Regexp × Str)) (p : Option Opt) (cfg : Config) (n : XName)
    (h : List.Forall₂ (fun o r => o = .replaceAllNames r.1 r.2 ∨ ∃ t, o = .replace t r.2 ∧ env.compile t = some r.1) os rules) :
    localName (applyOpts env os p cfg).1 n = rulesApplied rules (localName cfg n) ∧
      { (applyOpts env os p cfg).1 with nameTransform := cfg.nameTransform } = cfg := by
  induction h generalizing p cfg with
  | nil => exact ⟨rfl, rfl⟩
  | @cons o r os rs ho _ ih =>
    simp only [applyOpts, rulesApplied, List.foldl_cons]
    have e1 : localName (applyOpt env o cfg).1 n = r.1.replaceAll (localName cfg n) r.2 := by
      rcases ho with rfl | ⟨t, rfl, ht⟩
      · simp only [localName, applyOpt, thenReplace]; cases cfg.nameTransform <;> rfl
      · simp only [localName, applyOpt, thenReplace, ht]; cases cfg.nameTransform <;> rfl
    have e2 : { (applyOpt env o cfg).1 with nameTransform := cfg.nameTransform } = cfg := by
      rcases ho with rfl | ⟨t, rfl, ht⟩ <;> rfl
    obtain ⟨i1, i2⟩ := ih (some (applyOpt env o cfg).2) (applyOpt env o cfg).1
    refine ⟨by rw [i1, e1]; rfl, ?_⟩
    have := congrArg (fun c : Config => { c with nameTransform := cfg.nameTransform }) i2
    exact this.trans e2

theorem applyOpts_append (env : Env) (os os' : List Opt) (p : Option Opt) (cfg : Config) :
    applyOpts env (os ++ os') p cfg = applyOpts env os' (applyOpts env os p cfg).2 (applyOpts env os p cfg).1 := by
  induction os generalizing p cfg with
  | nil => rfl
  | cons o os ih => simp only [List.cons_append, applyOpts]; exact ih _ _

end GoXml.Cli
