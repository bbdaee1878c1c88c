import Verif.Proofs.Gen
set_option autoImplicit false

/-! Properties C61-C64: identifiers, literals, comments and command line flags. -/

namespace GoXml.Gen

/-! ### C61 -/

/-- C61, partial: `Sanitize` never returns a keyword, and leaves everything else alone. Missing:
distinct names may become equal, see `C61_injective_refuted`. -/
theorem C61_sanitize_partial (name : Str) :
    sanitize name ∉ goKeywords ∧ (name ∉ goKeywords → sanitize name = name) ∧
    (name ∈ goKeywords → sanitize name = name ++ b!"_") := by
  have hsame : ∀ n, n ∈ sanitizeCases ↔ n ∈ goKeywords := by
    have h1 : ∀ n ∈ sanitizeCases, n ∈ goKeywords := by decide +kernel
    have h2 : ∀ n ∈ goKeywords, n ∈ sanitizeCases := by decide +kernel
    exact fun n => ⟨h1 n, h2 n⟩
  have happ : ∀ n ∈ goKeywords, n ++ b!"_" ∉ goKeywords := by decide +kernel
  unfold sanitize
  simp only [hsame]
  refine ⟨?_, fun h => if_neg h, fun h => if_pos h⟩
  split
  · rename_i h; exact happ name h
  · rename_i h; exact h

/-- C61, partial: different names stay different unless one is a keyword followed by an
underscore. -/
theorem C61_injective_partial (a b : Str) (ha : ∀ k ∈ goKeywords, a ≠ k ++ b!"_")
    (hb : ∀ k ∈ goKeywords, b ≠ k ++ b!"_") (h : sanitize a = sanitize b) : a = b := by
  obtain ⟨_, ha1, ha2⟩ := C61_sanitize_partial a
  obtain ⟨_, hb1, hb2⟩ := C61_sanitize_partial b
  by_cases hka : a ∈ goKeywords
  · by_cases hkb : b ∈ goKeywords
    · rw [ha2 hka, hb2 hkb] at h; exact List.append_cancel_right h
    · rw [ha2 hka, hb1 hkb] at h; exact absurd h.symm (hb a hka)
  · by_cases hkb : b ∈ goKeywords
    · rw [ha1 hka, hb2 hkb] at h; exact absurd h (ha b hkb)
    · rw [ha1 hka, hb1 hkb] at h; exact h

/-- C61 is false: `Sanitize` maps `break` and `break_` to the same name. -/
theorem C61_injective_refuted : sanitize b!"break" = sanitize b!"break_" ∧ b!"break" ≠ b!"break_" := by
  decide +kernel

example : sanitize b!"type" = b!"type_" ∧ sanitize b!"Type" = b!"Type" := by decide +kernel

/-! ### C62 -/

/-- A literal denotes only one string, so the theorems below determine the value. -/
theorem C62_literal_unique (l v v' : Str) (h : GoLiteral l v) (h' : GoLiteral l v') : v = v' :=
  goLiteral_unique h h'

/-- C62 for quoted literals: `strconv.Quote(s)` is a Go literal that denotes exactly `s`, for every
string, valid UTF-8 or not, whatever characters beside newline, NUL and the byte order mark
`strconv.IsPrint` accepts. -/
theorem C62_quote (isPrint : Nat → Bool) (h10 : isPrint 10 = false) (h0 : isPrint 0 = false)
    (hbom : isPrint 0xFEFF = false) (s : Str) : GoLiteral (quote isPrint s) s :=
  GoLiteral.interp _ _ (quoteLoop_interp h10 h0 hbom s.length s (Nat.le_refl _))

/-- C62 is false of `String`: a string with a double quote is written between backquotes, where
carriage returns are discarded. -/
theorem C62_string_refuted (isPrint : Nat → Bool) :
    ∀ v, GoLiteral (genString isPrint b!"a=\"\r\"") v → v ≠ b!"a=\"\r\"" := by
  intro v h
  have e : genString isPrint b!"a=\"\r\"" = b!"`a=\"\r\"`" := by simp [genString]
  rw [e] at h
  generalize hl : b!"`a=\"\r\"`" = l at h
  cases h with
  | interp t v hi => simp at hl
  | raw rs hr =>
    intro hv
    have hm : (13 : UInt8) ∈ (rs.filter (· ≠ 13)).flatMap enc := by rw [hv]; decide
    obtain ⟨r, hr1, hr2⟩ := List.mem_flatMap.mp hm
    have hr3 := List.mem_filter.mp hr1
    have := enc_mem (hr r hr3.1).1.1 hr2 (by decide)
    simp at hr3
    exact hr3.2 this

/-- C62 is also false for strings that may not stand in source text: the literal is none at all. -/
theorem C62_string_invalid_refuted (isPrint : Nat → Bool) :
    ∀ v, ¬ GoLiteral (genString isPrint [34, 0]) v := by
  intro v h
  have e : genString isPrint [34, 0] = [96, 34, 0, 96] := by simp [genString]
  rw [e] at h
  generalize hl : ([96, 34, 0, 96] : Str) = l at h
  cases h with
  | interp t v hi => simp at hl
  | raw rs hr =>
    simp only [List.cons_append, List.nil_append, List.cons.injEq, true_and] at hl
    have hb : rs.flatMap enc = [34, 0] := List.append_cancel_right (bs := [96]) (hl.symm.trans rfl)
    have hm : (0 : UInt8) ∈ rs.flatMap enc := by rw [hb]; decide
    obtain ⟨r, hr1, hr2⟩ := List.mem_flatMap.mp hm
    have := enc_mem (hr r hr1).1.1 hr2 (by decide)
    exact (hr r hr1).1.2.1 this

/-- C62, the part that holds: the literal built by `String` denotes `s` if `s` has no double quote,
or has a backquote, or is source text without carriage returns. Missing for C62: the other
strings, for which it is false. -/
theorem C62_string_partial (isPrint : Nat → Bool) (h10 : isPrint 10 = false) (h0 : isPrint 0 = false)
    (hbom : isPrint 0xFEFF = false) (s : Str)
    (h : (34 : UInt8) ∉ s ∨ (96 : UInt8) ∈ s ∨
      ∃ rs : List Nat, (∀ r ∈ rs, SourceChar r ∧ r ≠ 13) ∧ s = rs.flatMap enc) :
    GoLiteral (genString isPrint s) s := by
  unfold genString
  split
  · rename_i hc
    rcases h with h | h | ⟨rs, hrs, rfl⟩
    · exact absurd hc.1 h
    · exact absurd h hc.2
    · have hf : rs.filter (· ≠ 13) = rs := List.filter_eq_self.mpr (fun r hr => by simpa using (hrs r hr).2)
      have h96 : ∀ r ∈ rs, r ≠ 96 := by
        rintro r hr rfl
        exact hc.2 (List.mem_flatMap.mpr ⟨96, hr, by decide⟩)
      have := GoLiteral.raw rs (fun r hr => ⟨(hrs r hr).1, h96 r hr⟩)
      rwa [hf] at this
  · exact C62_quote isPrint h10 h0 hbom s

/-- A struct tag, with a non-ASCII character, and a string of every kind of escape. -/
example :
    let isPrint := fun r => decide (32 ≤ r ∧ r < 127)
    genString isPrint b!"xml:\"ü\"" = b!"`xml:\"ü\"`" ∧
    (∃ rs : List Nat, (∀ r ∈ rs, SourceChar r ∧ r ≠ 13) ∧ b!"xml:\"ü\"" = rs.flatMap enc) ∧
    genString isPrint (b!"`\"\n" ++ [255, 0] ++ b!"ü€𝄞") = b!"\"`\\\"\\n\\xff\\x00\\u00fc\\u20ac\\U0001d11e\"" := by
  refine ⟨by decide +kernel, ⟨[120, 109, 108, 58, 34, 252, 34], ?_, by decide⟩, by decide +kernel⟩
  intro r hr
  have : r < 0xD800 ∧ r ≠ 0 ∧ r ≠ 0xFEFF ∧ r ≠ 13 := by
    simp only [List.mem_cons, List.not_mem_nil, or_false] at hr; omega
  exact ⟨⟨Or.inl this.1, this.2.1, this.2.2.1⟩, this.2.2.2⟩

/-! ### C63 -/

theorem cutArrow_spec (s : Str) : match cutArrow s with
    | none => ¬ ∃ a b, s = a ++ b!"->" ++ b
    | some (a, b) => s = a ++ b!"->" ++ b ∧ ∀ a' b', s = a' ++ b!"->" ++ b' → a.length ≤ a'.length := by
  match s with
  | [] => simp [cutArrow]
  | [c] =>
    simp only [cutArrow]
    rintro ⟨a, b, e⟩
    have := congrArg List.length e
    simp at this; omega
  | a :: b :: rest =>
    have ih := cutArrow_spec (b :: rest)
    rw [cutArrow]
    split
    · rename_i heq
      split at heq
      · cases heq
      · rename_i hn
        split at heq
        · rename_i h
          rw [h] at ih
          rintro ⟨x, y, e⟩
          cases x with
          | nil =>
            simp only [List.nil_append, List.cons_append, List.cons.injEq] at e
            exact hn ⟨e.1, e.2.1⟩
          | cons c x =>
            simp only [List.cons_append, List.cons.injEq] at e
            exact ih ⟨x, y, by simpa using e.2⟩
        · cases heq
    · rename_i x y heq
      split at heq
      · rename_i hab
        cases heq
        exact ⟨by simp [hab.1, hab.2], by simp⟩
      · rename_i hn
        split at heq
        · cases heq
        · rename_i x' y' h
          rw [h] at ih
          simp only [Option.some.injEq, Prod.mk.injEq] at heq
          obtain ⟨rfl, rfl⟩ := heq
          refine ⟨by simpa using ih.1, ?_⟩
          intro a' b' e
          cases a' with
          | nil =>
            simp only [List.nil_append, List.cons_append, List.cons.injEq] at e
            exact absurd ⟨e.1, e.2.1⟩ hn
          | cons c a' =>
            simp only [List.cons_append, List.cons.injEq] at e
            have := ih.2 a' b' (by simpa using e.2)
            simpa using this

/-- C63. With `f`, `t` the trimmed texts before and after the first arrow, `Set` appends the rule
(compiled `f`, `t`) to the list; if there is no arrow or `f` does not compile, it fails and the list is
as before. -/
theorem C63_replace_set {R : Type} (compile : Str → Option R) (list : List (R × Str)) (s : Str) :
    (∀ a b f t reg, FirstArrow s a b → TrimmedTo a f → TrimmedTo b t → compile f = some reg →
      replaceSet compile list s = (list ++ [(reg, t)], true)) ∧
    (∀ a b f, FirstArrow s a b → TrimmedTo a f → compile f = none → replaceSet compile list s = (list, false)) ∧
    ((¬ ∃ a b, s = a ++ b!"->" ++ b) → replaceSet compile list s = (list, false)) := by
  have hs := cutArrow_spec s
  have key : ∀ a b, FirstArrow s a b → cutArrow s = some (a, b) := by
    intro a b h
    cases hc : cutArrow s with
    | none => rw [hc] at hs; exact absurd ⟨a, b, h.1⟩ hs
    | some ab =>
      obtain ⟨a', b'⟩ := ab
      rw [hc] at hs
      have hlen : a.length = a'.length := Nat.le_antisymm (h.2 a' b' hs.1) (hs.2 a b h.1)
      have e : a ++ (b!"->" ++ b) = a' ++ (b!"->" ++ b') := by
        rw [← List.append_assoc, ← h.1, hs.1, List.append_assoc]
      obtain ⟨e1, e2⟩ := List.append_inj e hlen
      rw [e1, List.append_cancel_left e2]
  refine ⟨?_, ?_, ?_⟩
  · intro a b f t reg h hf ht hreg
    simp only [replaceSet, key a b h, trimmedTo_unique (trimSpace_spec a) hf, trimmedTo_unique (trimSpace_spec b) ht, hreg]
  · intro a b f h hf hreg
    simp only [replaceSet, key a b h, trimmedTo_unique (trimSpace_spec a) hf, hreg]
  · intro h
    cases hc : cutArrow s with
    | none => simp only [replaceSet, hc]
    | some ab => rw [hc] at hs; exact absurd ⟨ab.1, ab.2, hs.1⟩ h

/-- C63 for several flags: the rules are in command line order. -/
theorem C63_command_line_order {R : Type} (compile : Str → Option R) (flags : List Str) (rules : List (R × Str))
    (hlen : flags.length = rules.length)
    (h : ∀ (i : Nat) s reg t, flags[i]? = some s → rules[i]? = some (reg, t) →
      ∃ a b f, FirstArrow s a b ∧ TrimmedTo a f ∧ TrimmedTo b t ∧ compile f = some reg)
    (list : List (R × Str)) :
    flags.foldl (fun l s => (replaceSet compile l s).1) list = list ++ rules := by
  induction flags generalizing list rules with
  | nil =>
    have : rules = [] := List.length_eq_zero_iff.mp hlen.symm
    simp [this]
  | cons s flags ih =>
    cases rules with
    | nil => simp at hlen
    | cons r rules =>
      obtain ⟨reg, t⟩ := r
      obtain ⟨a, b, f, h1, h2, h3, h4⟩ := h 0 s reg t rfl rfl
      rw [List.foldl_cons, (C63_replace_set compile list s).1 a b f t reg h1 h2 h3 h4,
        ih rules (by simpa using hlen) (fun i s reg t hi hr => h (i + 1) s reg t (by simpa using hi) (by simpa using hr))]
      simp

/-- C63 for `Strings`: all values, in order. -/
theorem C63_strings_set (flags : List Str) (s : List Str) : flags.foldl stringsSet s = s ++ flags := by
  induction flags generalizing s with
  | nil => simp
  | cons f fs ih => rw [List.foldl_cons, ih]; simp [stringsSet]

example : replaceSet some [(b!"x", b!"y")] b!" a- -> b->c " = ([(b!"x", b!"y"), (b!"a-", b!"b->c")], true) ∧
    replaceSet some [(b!"x", b!"y")] b!"a-b>" = ([(b!"x", b!"y")], false) := by decide +kernel

/-! ### C64 -/

/-- C64. Every comment built from documentation begins with `//` and contains no line break. -/
theorem C64_comment_lines (comments : List Str) :
    ∀ t ∈ commentGroup comments, (∃ l, t = b!"// " ++ l) ∧ (10 : UInt8) ∉ t := by
  intro t ht
  obtain ⟨v, _, hv⟩ := List.mem_flatMap.mp ht
  obtain ⟨l, hl, rfl⟩ := List.mem_map.mp hv
  refine ⟨⟨_, rfl⟩, ?_⟩
  intro h
  have h2 : (10 : UInt8) ∈ trimSpace l := by simpa using h
  exact scanLoop_no_newline _ _ (splitLines_no_newline v) l hl (trimSpace_mem h2)

/-- C64 for the comments of generated functions: one per line of the text, and the only line break is
the last character. -/
theorem C64_function_comment (godoc : Str) (hne : godoc ≠ []) :
    ∃ lines : List Str, List.intercalate b!"\n" lines = godoc ∧ (∀ l ∈ lines, (10 : UInt8) ∉ l) ∧
      funcComments godoc = lines.map fun l => b!"// " ++ l ++ b!"\n" := by
  refine ⟨splitLines godoc, splitLines_join godoc, splitLines_no_newline godoc, ?_⟩
  rw [funcComments, if_neg hne]

/-- All documentation is kept as long as no line is longer than 65535 bytes: the comments are the
trimmed lines, in order; if the text ends with a line break, or is empty, no comment is made for the
empty rest. -/
theorem C64_text_kept (v : Str) (lines : List Str) (hl : lines ≠ []) (hj : List.intercalate b!"\n" lines = v)
    (hn : ∀ l ∈ lines, (10 : UInt8) ∉ l) (hshort : ∀ l ∈ lines, l.length ≤ 65535) :
    commentGroup [v] = ((if lines.getLast? = some [] then lines.dropLast else lines).map fun l => b!"// " ++ trimSpace l) := by
  have hsplit : splitLines v = lines := splitLines_of_join hl hj hn
  have htrim := trimSpace_dropCR
  have hscan : ∀ ls : List Str, ls ≠ [] → (∀ l ∈ ls, l.length ≤ 65535) →
      (scanLoop maxLine ls).map (fun l => b!"// " ++ trimSpace l) =
        (if ls.getLast? = some [] then ls.dropLast else ls).map fun l => b!"// " ++ trimSpace l := by
    intro ls
    induction ls with
    | nil => intro h; exact absurd rfl h
    | cons l ls ih =>
      intro _ hs
      have hle : ¬ l.length > maxLine := by have := hs l (by simp); unfold maxLine; omega
      cases ls with
      | nil =>
        rw [scanLoop]
        by_cases h0 : l = []
        · simp [h0]
        · rw [if_neg (by simp [h0, Nat.not_lt.mp hle])]
          simp [h0, htrim]
      | cons l' ls =>
        rw [scanLoop, if_neg hle, List.map_cons, ih (by simp) (fun x hx => hs x (by simp [hx])), htrim]
        rw [List.getLast?_cons_cons]
        split
        · simp
        · rfl
  show (List.flatMap _ [v]) = _
  rw [List.flatMap_cons, List.flatMap_nil, List.append_nil, hsplit, hscan lines hl hshort]

/-- C126 is false: a line longer than 65535 bytes is dropped, and so is everything after it. -/
theorem C126_long_lines_refuted (v : Str) (before after : List Str) (long : Str) (hlong : long.length > 65535)
    (hj : List.intercalate b!"\n" (before ++ long :: after) = v) (hn : ∀ l ∈ before ++ long :: after, (10 : UInt8) ∉ l)
    (hshort : ∀ l ∈ before, l.length ≤ 65535) :
    commentGroup [v] = before.map fun l => b!"// " ++ trimSpace l := by
  have hsplit : splitLines v = before ++ long :: after := splitLines_of_join (by simp) hj hn
  show (List.flatMap _ [v]) = _
  rw [List.flatMap_cons, List.flatMap_nil, List.append_nil, hsplit]
  clear hj hn hsplit
  induction before with
  | nil =>
    cases after with
    | nil => simp [scanLoop, maxLine, hlong]
    | cons x xs => simp [scanLoop, maxLine, hlong]
  | cons l ls ih =>
    have hle : ¬ l.length > maxLine := by have := hshort l (by simp); unfold maxLine; omega
    obtain ⟨x, xs, hx⟩ : ∃ x xs, ls ++ long :: after = x :: xs := by
      cases ls with
      | nil => exact ⟨_, _, rfl⟩
      | cons y ys => exact ⟨_, _, rfl⟩
    rw [List.cons_append, hx, scanLoop, if_neg hle, ← hx, List.map_cons, ih fun y hy => hshort y (by simp [hy]), trimSpace_dropCR]
    rfl

/-- For example: of a documentation of three lines only the first is kept. -/
example : ∃ long : Str, commentGroup [b!"first\n" ++ long ++ b!"\nlast"] = [b!"// first"] := by
  obtain ⟨long, h1, h2⟩ : ∃ long : Str, long.length > 65535 ∧ (10 : UInt8) ∉ long :=
    ⟨List.replicate 65536 120, by rw [List.length_replicate]; omega, fun h => by have := List.eq_of_mem_replicate h; cases this⟩
  refine ⟨long, ?_⟩
  rw [C126_long_lines_refuted _ [b!"first"] [b!"last"] long h1 (by simp [List.intercalate, List.intersperse]) (by
      simp only [List.cons_append, List.nil_append, List.mem_cons, List.not_mem_nil, or_false, forall_eq_or_imp, forall_eq]
      exact ⟨by decide, h2, by decide⟩) (by decide)]
  decide

example : commentGroup [b!" a \r\n\n b // c\n", b!"d"] = [b!"// a", b!"// ", b!"// b // c", b!"// d"] := by
  decide +kernel

end GoXml.Gen
