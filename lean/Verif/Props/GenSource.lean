import Verif.Model.GenSource
import Verif.Props.Gen
set_option autoImplicit false

/-! C140: functions are declared as described. C141: generated source is marked, documented, and can be made again.
C142: flags show what they were given. C143: a definition shows its operations. -/

namespace GoXml.Gen

/-! ### C140 -/

/-- How Go writes a parameter or result: a type, or an identifier, which is no keyword, and a type. -/
inductive Written : Str → Option Str → Str → Prop
  | unnamed (t : Str) : Written t none t
  | named (n t : Str) : n ≠ [] → n ∉ sanitizeCases →
      (∀ c ∈ n, (97 ≤ c ∧ c ≤ 122) ∨ (65 ≤ c ∧ c ≤ 90) ∨ (48 ≤ c ∧ c ≤ 57) ∨ c = 95 ∨ 128 ≤ c) →
      Written (n ++ b!" " ++ t) (some n) t

/-- The text of a parameter means the parameter `p`. -/
def Means {E : Type} (parseExpr : Str → Option E) (s : Str) (p : Param E) : Prop :=
  ∃ t, Written s p.name t ∧ parseExpr t = some p.type

theorem cutSpace_none {s : Str} (h : (32 : UInt8) ∉ s) : cutSpace s = none := by
  induction s with
  | nil => rfl
  | cons c cs ih =>
    simp only [List.mem_cons, not_or] at h
    rw [cutSpace, if_neg (fun e => h.1 e.symm), ih h.2]

theorem cutSpace_append {n t : Str} (h : (32 : UInt8) ∉ n) : cutSpace (n ++ b!" " ++ t) = some (n, t) := by
  induction n with
  | nil => simp [cutSpace]
  | cons c cs ih =>
    simp only [List.mem_cons, not_or] at h
    simp only [List.cons_append]
    rw [cutSpace, if_neg (fun e => h.1 e.symm), ih h.2]

theorem fieldOf_means {E : Type} {parseExpr : Str → Option E} {s : Str} {p : Param E} (h : Means parseExpr s p)
    (hb : p.name = none → (32 : UInt8) ∉ s) : fieldOf parseExpr s = some p := by
  obtain ⟨n, e⟩ := p
  obtain ⟨t, hw, ht⟩ := h
  cases hw with
  | unnamed =>
    rw [fieldOf, cutSpace_none (hb rfl)]
    simp only at ht
    simp [ht]
  | named n t hn hk hc =>
    have : (32 : UInt8) ∉ n := by
      intro h32
      have := hc 32 h32
      revert this
      decide
    rw [fieldOf, cutSpace_append this]
    simp only at ht
    simp [ht]

theorem fieldList_means {E : Type} {parseExpr : Str → Option E} :
    ∀ (ss : List Str) (ps : List (Param E)), ss.length = ps.length →
      (∀ (i : Nat) s p, ss[i]? = some s → ps[i]? = some p →
        Means parseExpr s p ∧ (p.name = none → (32 : UInt8) ∉ s)) →
      fieldList parseExpr ss = some ps
  | [], [], _, _ => rfl
  | s :: ss, p :: ps, hl, h => by
    obtain ⟨h1, h2⟩ := h 0 s p rfl rfl
    rw [fieldList, fieldOf_means h1 h2,
      fieldList_means ss ps (by simpa using hl) (fun i s p hs hp => h (i + 1) s p (by simpa using hs) (by simpa using hp))]
    rfl

/-- The texts mean the parameters; types without a name contain no blank. -/
def AllMean {E : Type} (parseExpr : Str → Option E) (ss : List Str) (ps : List (Param E)) : Prop :=
  ss.length = ps.length ∧ ∀ (i : Nat) s p, ss[i]? = some s → ps[i]? = some p →
    Means parseExpr s p ∧ (p.name = none → (32 : UInt8) ∉ s)

theorem flOf_means {E : Type} {parseExpr : Str → Option E} (hempty : parseExpr [] = none) {ss : List Str}
    {ps : List (Param E)} (h : AllMean parseExpr ss ps) :
    flOf parseExpr ss = some (if ps = [] then none else some ps) := by
  obtain ⟨hl, h⟩ := h
  cases ss with
  | nil =>
    cases ps with
    | nil => rfl
    | cons p ps => simp at hl
  | cons s ss =>
    cases ps with
    | nil => simp at hl
    | cons p ps =>
      have hs : s ≠ [] := by
        rintro rfl
        obtain ⟨⟨t, hw, ht⟩, _⟩ := h 0 [] p rfl rfl
        generalize hz : ([] : Str) = z at hw
        generalize p.name = m at hw
        cases hw with
        | unnamed => subst hz; rw [hempty] at ht; cases ht
        | named n t hn _ _ => simp at hz
      rw [flOf]
      simp only [hs, if_false]
      rw [fieldList_means (s :: ss) (p :: ps) hl h]
      simp

/-- C140. A function with a name and a body is declared with the parameters, results and receiver that the texts mean
and with the body given, if types without a name contain no blank. -/
theorem C140_declared_partial {E B : Type} (parseExpr : Str → Option E) (parseBlock : Str → Option B)
    (hempty : parseExpr [] = none) (fn : Function) (hf : fn.failed = false) (hn : fn.name ≠ [])
    (params results : List (Param E)) (recv : Option (Param E)) (block : B)
    (hp : AllMean parseExpr fn.args params) (hr : AllMean parseExpr fn.returns results)
    (hrecv : if fn.receiver = [] then recv = none else AllMean parseExpr [fn.receiver] recv.toList)
    (hb0 : fn.body ≠ []) (hb : parseBlock fn.body = some block) :
    ∃ d, decl parseExpr parseBlock fn = .ok d ∧ d.name = fn.name ∧ d.params.getD [] = params ∧
      d.results.getD [] = results ∧ d.recv.getD [] = recv.toList ∧ (d.recv = none ↔ recv = none) ∧ d.body = block ∧
      d.doc = funcComments fn.godoc := by
  have key : ∀ ps : List (Param E), (if ps = [] then none else some ps).getD [] = ps := by
    intro ps
    split
    · simp_all
    · rfl
  have hrv : flOf parseExpr [fn.receiver] = some (if recv.toList = [] then none else some recv.toList) := by
    split at hrecv
    · rename_i h
      simp [flOf, h, hrecv]
    · exact flOf_means hempty hrecv
  refine ⟨⟨funcComments fn.godoc, if recv.toList = [] then none else some recv.toList, fn.name,
      if params = [] then none else some params, if results = [] then none else some results, block⟩, ?_, ?_⟩
  · rw [decl, flOf_means hempty hp, flOf_means hempty hr, hrv, hb]
    simp [hf, hn, hb0]
  · refine ⟨rfl, key _, key _, key _, ?_, rfl, rfl⟩
    cases recv <;> simp

/-- C140. What is missing is reported: without a name, without a body, or with a body or a parameter that is no Go
there is no declaration. -/
theorem C140_reported {E B : Type} (parseExpr : Str → Option E) (parseBlock : Str → Option B) (fn : Function)
    (h : fn.failed = true ∨ fn.name = [] ∨ fn.body = [] ∨ parseBlock fn.body = none ∨
      (∃ s ∈ fn.args, fn.args.head? ≠ some [] ∧ (32 : UInt8) ∉ s ∧ parseExpr s = none)) :
    ∃ e, decl parseExpr parseBlock fn = .error e := by
  have hnone : ∀ (ss : List Str) s, s ∈ ss → (32 : UInt8) ∉ s → parseExpr s = none → fieldList parseExpr ss = none := by
    intro ss s hs hb hp
    induction ss with
    | nil => cases hs
    | cons s' ss ih =>
      rw [fieldList]
      rcases List.mem_cons.mp hs with rfl | hs
      · simp [fieldOf, cutSpace_none hb, hp]
      · rw [ih hs]
        split <;> rfl
  cases hd : decl parseExpr parseBlock fn with
  | error e => exact ⟨e, rfl⟩
  | ok d =>
    exfalso
    rw [decl] at hd
    split at hd; · cases hd
    split at hd; · cases hd
    split at hd; · cases hd
    split at hd; · cases hd
    rename_i a ha
    split at hd; · cases hd
    split at hd; · cases hd
    split at hd; · cases hd
    rename_i b hb
    rcases h with h | h | h | h | ⟨s, hs, hhead, hbl, hp⟩
    · contradiction
    · contradiction
    · contradiction
    · rw [h] at hb; cases hb
    · cases hargs : fn.args with
      | nil => rw [hargs] at hs; cases hs
      | cons a0 rest =>
        rw [hargs] at ha hs hhead
        rw [flOf] at ha
        simp only [List.head?_cons, ne_eq, Option.some.injEq] at hhead
        rw [if_neg hhead, hnone _ s hs hbl hp] at ha
        cases ha

/-- A parser that knows a few types. -/
def fewTypes (s : Str) : Option Nat :=
  if s = b!"int" then some 0 else if s = b!"error" then some 1 else if s = b!"*T" then some 2
  else if s = b!"func(a int) string" then some 3 else if s = b!"chan int" then some 4 else none

/-- C140 is false of types with a blank: a result that is a function cannot be declared, for every parser for which
`int) string` is no type. -/
theorem C140_blank_refuted {E B : Type} (parseExpr : Str → Option E) (parseBlock : Str → Option B)
    (hno : parseExpr b!"int) string" = none) :
    decl parseExpr parseBlock { name := b!"F", returns := [b!"func(a int) string"], body := b!"return nil" } = .error .field := by
  rw [decl]
  simp only [flOf, fieldList, fieldOf]
  have : cutSpace b!"func(a int) string" = some (b!"func(a", b!"int) string") := by decide +kernel
  simp [this, hno]

/-- C140 is false of channels: the result `chan int` becomes a result of type `int` with the name `chan`. -/
theorem C140_channel_refuted : ∃ d, decl fewTypes some { name := b!"F", returns := [b!"chan int"], body := b!"return nil" } = .ok d ∧
    Means fewTypes b!"chan int" ⟨none, 4⟩ ∧ d.results = some [⟨some b!"chan", 0⟩] :=
  ⟨⟨[], none, b!"F", none, some [⟨some b!"chan", 0⟩], b!"return nil"⟩, rfl,
    ⟨b!"chan int", .unnamed _, by decide +kernel⟩, rfl⟩

/-- C140: if the first text is empty all are ignored, without an error. -/
theorem C140_first_refuted : ∃ d, decl fewTypes some { name := b!"F", args := [[], b!"x int"], body := b!"return" } = .ok d ∧
    d.params = none := ⟨_, rfl, rfl⟩

example : AllMean fewTypes [b!"x int", b!"err error"] [⟨some b!"x", 0⟩, ⟨some b!"err", 1⟩] := by
  refine ⟨rfl, ?_⟩
  intro i s p hs hp
  match i with
  | 0 =>
    cases hs; cases hp
    exact ⟨⟨b!"int", .named b!"x" b!"int" (by decide) (by decide +kernel) (by decide), by decide +kernel⟩, by simp⟩
  | 1 =>
    cases hs; cases hp
    exact ⟨⟨b!"error", .named b!"err" b!"error" (by decide) (by decide +kernel) (by decide), by decide +kernel⟩, by simp⟩
  | i + 2 => simp at hs

example : decl fewTypes some ⟨b!"Get", b!"t *T", b!"Get gets.\nIt does.", [b!"x int", b!"error"], [b!"int", b!"error"],
      false, b!"return x, nil"⟩ =
    .ok ⟨[b!"// Get gets.\n", b!"// It does.\n"], some [⟨some b!"t", 2⟩], b!"Get", some [⟨some b!"x", 0⟩, ⟨none, 1⟩],
      some [⟨none, 0⟩, ⟨none, 1⟩], b!"return x, nil"⟩ := rfl

/-! ### C140: constants -/

/-- C140 for constants: `ConstInt` and its like declare the names with the types and values given, in order; strings as
literals that denote them. -/
theorem C140_constants (isPrint : Nat → Bool) (quoted : Bool) (cs : List (Str × Str × Str)) :
    constSpecs isPrint quoted (cs.flatMap fun c => [c.1, c.2.1, c.2.2]) = some (cs.map fun c =>
      { name := c.1, type := if c.2.1 = [] then none else some c.2.1, value := if quoted then quote isPrint c.2.2 else c.2.2 }) := by
  induction cs with
  | nil => rfl
  | cons c cs ih => simp [constSpecs, ih]

/-- C140 for constants: there is no declaration exactly if the number of texts is not a multiple of three. -/
theorem C140_constants_panic (isPrint : Nat → Bool) (quoted : Bool) : ∀ args : List Str,
    constSpecs isPrint quoted args = none ↔ args.length % 3 ≠ 0
  | [] => by simp [constSpecs]
  | [_] => by simp [constSpecs]
  | [_, _] => by simp [constSpecs]
  | a :: b :: c :: rest => by
    have ih := C140_constants_panic isPrint quoted rest
    rw [constSpecs, Option.map_eq_none_iff, ih]
    simp only [List.length_cons]
    omega

example : constSpecs (fun _ => true) true [b!"A", b!"T", b!"x\"y", b!"B", [], b!"z"] =
    some [⟨b!"A", some b!"T", b!"\"x\\\"y\""⟩, ⟨b!"B", none, b!"\"z\""⟩] := by decide +kernel

/-! ### C141 -/

/-- A line that Go tools take for the mark of generated code: `^// Code generated .* DO NOT EDIT\.$`. -/
def Marks (line : Str) : Prop := ∃ who, line = b!"// Code generated " ++ who ++ b!" DO NOT EDIT." ∧ (10 : UInt8) ∉ who

theorem splitLines_cons {l rest : Str} (h : (10 : UInt8) ∉ l) : splitLines (l ++ b!"\n" ++ rest) = l :: splitLines rest := by
  induction l with
  | nil => simp [splitLines]
  | cons c cs ih =>
    simp only [List.mem_cons, not_or] at h
    simp only [List.cons_append]
    rw [splitLines, if_neg (fun e => h.1 e.symm), ih h.2]

theorem docText_lines {ls : List Str} (h : ∀ l ∈ ls, (10 : UInt8) ∉ l) (rest : Str) :
    splitLines (docText ls ++ rest) = ls ++ splitLines rest := by
  induction ls with
  | nil => rfl
  | cons l ls ih =>
    rw [docText, List.append_assoc, splitLines_cons (h l (List.mem_cons_self ..)), ih (fun l hl => h l (List.mem_cons_of_mem _ hl))]
    rfl

/-- C141. The first line of the source marks it as generated, the second is empty, then come the lines of the package
comment and, directly after them, the package clause and the declarations, if the name of the program has no line break. -/
theorem C141_marked_partial {F : Type} (node : F → Option Str) (process : Str → Str → Option Str) (arg0 output : Str)
    (file : Source F) (text : Str) (ht : node file.rest = some text)
    (hname : (10 : UInt8) ∉ trimExe (base arg0)) (hdoc : ∀ l ∈ file.doc.getD [], (10 : UInt8) ∉ l) :
    ∃ mark src, Marks mark ∧ (formattedSource node process arg0 file output).1 = process output src ∧
      splitLines src = mark :: [] :: (file.doc.getD [] ++ splitLines text) := by
  refine ⟨b!"// Code generated by " ++ trimExe (base arg0) ++ b!". DO NOT EDIT.",
    generatedBy arg0 ++ docText (file.doc.getD []) ++ text, ?_, ?_, ?_⟩
  · refine ⟨b!"by " ++ trimExe (base arg0) ++ b!".", ?_, ?_⟩
    · simp
    · simp only [List.mem_append, not_or]
      exact ⟨⟨by decide, hname⟩, by decide⟩
  · simp [formattedSource, ht]
  · have h10 : (10 : UInt8) ∉ b!"// Code generated by " ++ trimExe (base arg0) ++ b!". DO NOT EDIT." := by
      simp only [List.mem_append, not_or]
      exact ⟨⟨by decide, hname⟩, by decide⟩
    have : generatedBy arg0 ++ docText (file.doc.getD []) ++ text =
        (b!"// Code generated by " ++ trimExe (base arg0) ++ b!". DO NOT EDIT.") ++ b!"\n" ++
          ([] ++ b!"\n" ++ (docText (file.doc.getD []) ++ text)) := by
      simp [generatedBy]
    rw [this, splitLines_cons h10, splitLines_cons (by simp), docText_lines hdoc]

/-- C141 for package comments: the condition of `C141_marked_partial` on the comment holds for every comment that
`PackageDoc` has set. -/
theorem C141_documented {F : Type} (file : Source F) (c : Str) (comments : List Str) :
    (packageDoc file (c :: comments)).doc = some (commentGroup (c :: comments)) ∧
      (∀ l ∈ (packageDoc file (c :: comments)).doc.getD [], (10 : UInt8) ∉ l) ∧ (packageDoc file (c :: comments)).rest = file.rest ∧
      packageDoc file [] = file := by
  refine ⟨by simp [packageDoc], ?_, by simp [packageDoc], by simp [packageDoc]⟩
  intro l hl
  simp only [packageDoc, reduceCtorEq, if_false, Option.getD_some] at hl
  exact (C64_comment_lines (c :: comments) l hl).2

/-- C141. If there is no package comment the file stays as it is, and the source can be made again. -/
theorem C141_again_partial {F : Type} (node : F → Option Str) (process : Str → Str → Option Str) (arg0 output : Str)
    (file : Source F) (h : file.doc = none) : (formattedSource node process arg0 file output).2 = file := by
  obtain ⟨doc, rest⟩ := file
  simp only at h
  subst h
  simp only [formattedSource]
  split <;> rfl

/-- C141 is false of files with a package comment: the comment is removed from the file, and is missing the second time. -/
theorem C141_again_refuted : ∃ (file : Source Str),
    let once := formattedSource some (fun _ s => some s) b!"/usr/bin/wsdlgen" file b!"out.go"
    let twice := formattedSource some (fun _ s => some s) b!"/usr/bin/wsdlgen" once.2 b!"out.go"
    once.1 = some b!"// Code generated by wsdlgen. DO NOT EDIT.\n\n// Package ws\npackage ws\n" ∧
      twice.1 = some b!"// Code generated by wsdlgen. DO NOT EDIT.\n\npackage ws\n" :=
  ⟨⟨some [b!"// Package ws"], b!"package ws\n"⟩, by decide +kernel⟩

/-- C141 is false of programs with strange names: the mark is split. -/
theorem C141_name_refuted : (formattedSource some (fun _ s => some s) b!"/tmp/a\nb" ⟨none, b!"package ws\n"⟩ b!"out.go").1 =
    some b!"// Code generated by a\nb. DO NOT EDIT.\n\npackage ws\n" := by decide +kernel

/-- C141: the source is not a function of the file, it depends on the name of the program. -/
theorem C141_program_refuted : ∃ (file : Source Str) (a b : Str),
    (formattedSource some (fun _ s => some s) a file b!"out.go").1 ≠ (formattedSource some (fun _ s => some s) b file b!"out.go").1 :=
  ⟨⟨none, b!"package ws\n"⟩, b!"xsdgen", b!"/tmp/go-build/b001/main.test", by decide +kernel⟩

theorem base_of {name : Str} (hne : name ≠ []) (hs : (47 : UInt8) ∉ name) :
    base name = name ∧ ∀ dir, base (dir ++ b!"/" ++ name) = name := by
  have hlast : ∀ l : Str, (name.reverse ++ l).dropWhile (fun c => decide (c = 47)) = name.reverse ++ l := by
    intro l
    cases hr : name.reverse with
    | nil => simp at hr; exact absurd hr hne
    | cons c cs =>
      have : c ∈ name := by rw [← List.mem_reverse, hr]; exact List.mem_cons_self ..
      have hc : c ≠ 47 := by rintro rfl; exact hs this
      simp [hc]
  have hafter : ∀ d : Str, afterSlash (d ++ b!"/" ++ name) = name := by
    intro d
    induction d with
    | nil => simp [afterSlash, hs]
    | cons c cs ih => simp only [List.cons_append]; rw [afterSlash, if_pos (by simp), ih]
  have hself : afterSlash name = name := by
    cases name with
    | nil => rfl
    | cons c cs =>
      simp only [List.mem_cons, not_or] at hs
      rw [afterSlash, if_neg hs.2, if_neg (fun e => hs.1 e.symm)]
  constructor
  · simp only [base]
    rw [if_neg hne]
    have := hlast []
    simp only [List.append_nil] at this
    rw [this]
    simp only [List.reverse_reverse]
    rw [if_neg hne, hself]
  · intro dir
    have e : (dir ++ b!"/" ++ name).reverse = name.reverse ++ (b!"/".reverse ++ dir.reverse) := by simp
    simp only [base]
    rw [if_neg (by simp), e, hlast]
    simp only [List.reverse_append, List.reverse_reverse]
    rw [if_neg (by simp), hafter]

/-- C141. Nothing else of the program's path has an influence: not the directory. -/
theorem C141_directory (dir : Str) (name : Str) (hne : name ≠ []) (hs : (47 : UInt8) ∉ name) :
    generatedBy (dir ++ b!"/" ++ name) = generatedBy name := by
  rw [generatedBy, generatedBy, (base_of hne hs).2, (base_of hne hs).1]

/-- C141. What the first line says of the program: its name, without the suffix of Windows. The name `.` is given to
a program without one. -/
theorem C141_named (dir name : Str) (hne : name ≠ []) (hs : (47 : UInt8) ∉ name) (hexe : ∀ stem, name ≠ stem ++ b!".exe") :
    generatedBy (dir ++ b!"/" ++ name) = b!"// Code generated by " ++ name ++ b!". DO NOT EDIT.\n\n" ∧
      generatedBy (dir ++ b!"/" ++ name ++ b!".exe") = b!"// Code generated by " ++ name ++ b!". DO NOT EDIT.\n\n" ∧
      generatedBy [] = b!"// Code generated by .. DO NOT EDIT.\n\n" := by
  have k1 : trimExe name = name := by
    rw [trimExe, if_neg]
    intro h
    exact hexe (name.take (name.length - 4)) (by rw [← h, List.take_append_drop])
  have k2 : trimExe (name ++ b!".exe") = name := by
    have : (name ++ b!".exe").length - 4 = name.length := by simp
    rw [trimExe, this]
    simp
  refine ⟨?_, ?_, by decide +kernel⟩
  · rw [generatedBy, (base_of hne hs).2, k1]
  · rw [generatedBy, List.append_assoc _ name, (base_of (by simp) (by simp only [List.mem_append, not_or]; exact ⟨hs, by decide⟩)).2, k2]

example : generatedBy b!"C:/bin/xsdgen.exe" = b!"// Code generated by xsdgen. DO NOT EDIT.\n\n" := by decide +kernel

/-! ### C142 -/

theorem cutArrow_none_iff (s : Str) : cutArrow s = none ↔ ¬ ∃ a b, s = a ++ b!"->" ++ b := by
  have h := cutArrow_spec s
  cases hc : cutArrow s with
  | none => rw [hc] at h; simpa using h
  | some ab => rw [hc] at h; simp only [reduceCtorEq, false_iff, Classical.not_not]; exact ⟨_, _, h.1⟩

theorem cutArrow_append : ∀ (x y : Str), cutArrow x = none → cutArrow (x ++ b!"->" ++ y) = some (x, y)
  | [], y, _ => by simp [cutArrow]
  | [c], y, _ => by
    simp only [List.cons_append, List.nil_append]
    rw [cutArrow, if_neg (by intro h; exact absurd h.2 (by decide)), cutArrow, if_pos (by decide)]
  | c :: d :: x, y, h => by
    have hx : cutArrow (d :: x) = none := by
      rw [cutArrow] at h
      split at h
      · cases h
      · split at h
        · assumption
        · cases h
    have hcd : ¬ (c = 45 ∧ d = 62) := by
      intro e
      rw [cutArrow, if_pos e] at h
      cases h
    have ih := cutArrow_append (d :: x) y hx
    simp only [List.cons_append] at ih ⊢
    rw [cutArrow, if_neg hcd, ih]

/-- What precedes the first arrow contains none. -/
theorem FirstArrow.before {s a b : Str} (h : FirstArrow s a b) : cutArrow a = none := by
  rw [cutArrow_none_iff]
  rintro ⟨p, q, e⟩
  have := h.2 p (q ++ b!"->" ++ b) (by rw [h.1, e]; simp)
  rw [e] at this
  simp at this
  omega

/-- A rule as `Set` makes it: its texts have no space around them, and there is no arrow in the first. -/
def Plain {R : Type} (compile : Str → Option R) (source : R → Str) (r : R × Str) : Prop :=
  cutArrow (source r.1) = none ∧ TrimmedTo (source r.1) (source r.1) ∧ TrimmedTo r.2 r.2 ∧ compile (source r.1) = some r.1

theorem trimmedTo_self {s t : Str} (h : TrimmedTo s t) : TrimmedTo t t := by
  obtain ⟨_, _, _, _, _, h1, h2⟩ := h
  exact ⟨[], [], by simp, by simp, by simp, h1, h2⟩

theorem plain_of_set {R : Type} {compile : Str → Option R} {source : R → Str}
    (hsource : ∀ f reg, compile f = some reg → source reg = f) {list list' : List (R × Str)} {s : Str}
    (h : replaceSet compile list s = (list', true)) : ∃ r, list' = list ++ [r] ∧ Plain compile source r := by
  have hs := cutArrow_spec s
  rw [replaceSet] at h
  cases hc : cutArrow s with
  | none => rw [hc] at h; simp at h
  | some ab =>
    obtain ⟨a, b⟩ := ab
    rw [hc] at h hs
    simp only at h
    cases hr : compile (trimSpace a) with
    | none => rw [hr] at h; simp at h
    | some reg =>
      rw [hr] at h
      simp only [Prod.mk.injEq, and_true] at h
      refine ⟨_, h.symm, ?_⟩
      have he := hsource _ _ hr
      have hbefore : cutArrow a = none := FirstArrow.before (s := s) (b := b) hs
      refine ⟨?_, ?_, trimmedTo_self (trimSpace_spec b), ?_⟩
      · simp only [he]
        rw [cutArrow_none_iff] at hbefore ⊢
        rintro ⟨p, q, e⟩
        obtain ⟨x, y, exy, _⟩ := trimSpace_spec a
        exact hbefore ⟨x ++ p, q ++ y, by rw [exy, e]; simp⟩
      · simp only [he]
        exact trimmedTo_self (trimSpace_spec a)
      · simp only [he]
        exact hr

theorem set_shown {R : Type} {compile : Str → Option R} {source : R → Str} {r : R × Str} (h : Plain compile source r)
    (list : List (R × Str)) : replaceSet compile list (source r.1 ++ b!" -> " ++ r.2) = (list ++ [r], true) := by
  obtain ⟨h1, h2, h3, h4⟩ := h
  have hno : cutArrow (source r.1 ++ b!" ") = none := by
    rw [cutArrow_none_iff] at h1 ⊢
    rintro ⟨p, q, e⟩
    rcases List.eq_nil_or_concat q with rfl | ⟨q', c, rfl⟩
    · have := congrArg List.getLast? e
      simp at this
    · have e' : source r.1 ++ b!" " = (p ++ b!"->" ++ q') ++ [c] := by rw [e]; simp
      exact h1 ⟨p, q', (List.append_inj' e' rfl).1⟩
  have hsplit : source r.1 ++ b!" -> " ++ r.2 = (source r.1 ++ b!" ") ++ b!"->" ++ (b!" " ++ r.2) := by simp
  have t1 : TrimmedTo (source r.1 ++ b!" ") (source r.1) := by
    obtain ⟨_, _, _, _, _, x, y⟩ := h2
    exact ⟨[], b!" ", by simp, by simp, by decide, x, y⟩
  have t2 : TrimmedTo (b!" " ++ r.2) r.2 := by
    obtain ⟨_, _, _, _, _, x, y⟩ := h3
    exact ⟨b!" ", [], by simp, by decide, by simp, x, y⟩
  rw [replaceSet, hsplit, cutArrow_append _ _ hno]
  simp only [trimmedTo_unique (trimSpace_spec _) t1, trimmedTo_unique (trimSpace_spec _) t2, h4]

/-- C142. `String` of a list of replacement rules has one line for each rule, and setting these lines again gives the same rules,
if no replacement and no pattern has a line break. `flags` are the arguments that were set. -/
theorem C142_rules_partial {R : Type} (compile : Str → Option R) (source : R → Str)
    (hsource : ∀ f reg, compile f = some reg → source reg = f) (flags : List Str) (rules : List (R × Str))
    (hset : flags.foldl (fun (l : List (R × Str) × Bool) s => let r := replaceSet compile l.1 s; (r.1, l.2 && r.2)) ([], true) = (rules, true))
    (hline : ∀ r ∈ rules, (10 : UInt8) ∉ source r.1 ∧ (10 : UInt8) ∉ r.2) :
    ∃ lines : List Str, splitLines (rulesString source rules) = lines ++ [[]] ∧ lines.length = flags.length ∧
      lines.foldl (fun l s => (replaceSet compile l s).1) [] = rules := by
  have hplain : ∀ (flags : List Str) (l : List (R × Str)) (b : Bool) (l' : List (R × Str)),
      flags.foldl (fun (l : List (R × Str) × Bool) s => let r := replaceSet compile l.1 s; (r.1, l.2 && r.2)) (l, b) = (l', true) →
      b = true ∧ ∃ rs, l' = l ++ rs ∧ rs.length = flags.length ∧ ∀ r ∈ rs, Plain compile source r := by
    intro flags
    induction flags with
    | nil => intro l b l' h; simp only [List.foldl_nil, Prod.mk.injEq] at h; exact ⟨h.2, [], by simp [h.1], rfl, by simp⟩
    | cons s flags ih =>
      intro l b l' h
      rw [List.foldl_cons] at h
      obtain ⟨hb, rs, e, hlen, hp⟩ := ih _ _ _ h
      simp only [Bool.and_eq_true] at hb
      obtain ⟨r, hr, hpr⟩ := plain_of_set hsource (list := l) (list' := (replaceSet compile l s).1) (s := s)
        (Prod.ext rfl hb.2)
      refine ⟨hb.1, r :: rs, ?_, by simp [hlen], ?_⟩
      · rw [e]
        simp only
        rw [hr]
        simp
      · intro r' h'
        rcases List.mem_cons.mp h' with rfl | h'
        · exact hpr
        · exact hp r' h'
  obtain ⟨_, rs, e, hlen, hp⟩ := hplain flags [] true rules hset
  rw [List.nil_append] at e
  subst e
  refine ⟨rules.map fun r => source r.1 ++ b!" -> " ++ r.2, ?_, by simp [hlen], ?_⟩
  · clear hplain hset hlen hp
    induction rules with
    | nil => rfl
    | cons r rules ih =>
      have h := hline r (List.mem_cons_self ..)
      rw [rulesString, splitLines_cons, ih (fun r hr => hline r (List.mem_cons_of_mem _ hr))]
      · rfl
      · simp only [List.mem_append, not_or]
        exact ⟨⟨h.1, by decide⟩, h.2⟩
  · have : ∀ (rs l : List (R × Str)), (∀ r ∈ rs, Plain compile source r) →
        (rs.map fun r => source r.1 ++ b!" -> " ++ r.2).foldl (fun l s => (replaceSet compile l s).1) l = l ++ rs := by
      intro rs
      induction rs with
      | nil => simp
      | cons r rs ih =>
        intro l h
        rw [List.map_cons, List.foldl_cons, set_shown (h r (List.mem_cons_self ..)), ih _ (fun r hr => h r (List.mem_cons_of_mem _ hr))]
        simp
    simpa using this rules [] hp

/-- C142 is false of replacements with line breaks: one rule is shown like two. -/
theorem C142_rules_refuted : rulesString id [(b!"a", b!"b\nc -> d")] = rulesString id [(b!"a", b!"b"), (b!"c", b!"d")] := by
  decide +kernel

theorem joinWith_comma_mem {s s' : Str} {rest : List Str} : (44 : UInt8) ∈ joinWith b!"," (s :: s' :: rest) := by
  rw [joinWith]
  simp

theorem joinWith_comma_inj : ∀ (ss ss' : List Str), ss ≠ [] → ss' ≠ [] → (∀ s ∈ ss, (44 : UInt8) ∉ s) → (∀ s ∈ ss', (44 : UInt8) ∉ s) →
    joinWith b!"," ss = joinWith b!"," ss' → ss = ss'
  | [], _, h, _, _, _, _ => absurd rfl h
  | _, [], _, h, _, _, _ => absurd rfl h
  | [s], [s'], _, _, _, _, e => by rw [joinWith, joinWith] at e; rw [e]
  | [s], s' :: t :: r, _, _, h, _, e => by
    have := joinWith_comma_mem (s := s') (s' := t) (rest := r)
    rw [← e, joinWith] at this
    exact absurd this (h s (List.mem_cons_self ..))
  | s :: t :: r, [s'], _, _, _, h, e => by
    have := joinWith_comma_mem (s := s) (s' := t) (rest := r)
    rw [e, joinWith] at this
    exact absurd this (h s' (List.mem_cons_self ..))
  | s :: t :: r, s' :: t' :: r', _, _, h, h', e => by
    rw [joinWith, joinWith] at e
    have hh : s = s' ∧ joinWith b!"," (t :: r) = joinWith b!"," (t' :: r') := by
      have h1 := h s (List.mem_cons_self ..)
      have h2 := h' s' (List.mem_cons_self ..)
      clear h h'
      generalize joinWith b!"," (t :: r) = x at e ⊢
      generalize joinWith b!"," (t' :: r') = y at e ⊢
      induction s generalizing s' with
      | nil =>
        cases s' with
        | nil => simpa using e
        | cons c s' =>
          simp only [List.nil_append, List.cons_append, List.cons.injEq] at e
          exact absurd (by simp [← e.1]) h2
      | cons c s ih =>
        cases s' with
        | nil =>
          simp only [List.nil_append, List.cons_append, List.cons.injEq] at e
          exact absurd (by simp [e.1]) h1
        | cons c' s' =>
          simp only [List.cons_append, List.cons.injEq] at e
          simp only [List.mem_cons, not_or] at h1 h2
          obtain ⟨e1, e2⟩ := ih s' (by simp) (by simp) h1.2 h2.2 e.2
          exact ⟨by rw [e.1, e1], e2⟩
    rw [hh.1, joinWith_comma_inj (t :: r) (t' :: r') (by simp) (by simp) (fun x hx => h x (List.mem_cons_of_mem _ hx))
      (fun x hx => h' x (List.mem_cons_of_mem _ hx)) hh.2]

/-- C142. What `String` of a list of values shows tells the values, if there are any and they contain no commas. -/
theorem C142_strings_partial (ss ss' : List Str) (hne : ss ≠ []) (hne' : ss' ≠ []) (h : ∀ s ∈ ss, (44 : UInt8) ∉ s)
    (h' : ∀ s ∈ ss', (44 : UInt8) ∉ s) (e : stringsString (ss.foldl stringsSet []) = stringsString (ss'.foldl stringsSet [])) : ss = ss' := by
  rw [C63_strings_set, C63_strings_set, List.nil_append, List.nil_append] at e
  exact joinWith_comma_inj ss ss' hne hne' h h' e

/-- C142 is false of values with commas, such as namespaces may be, and of no value and an empty one. -/
theorem C142_strings_refuted : stringsString [b!"urn:a,b"] = stringsString [b!"urn:a", b!"b"] ∧ stringsString [] = stringsString [[]] := by
  decide +kernel

example : rulesString id [(b!"^x-", b!"y"), (b!"b", b!"c->d")] = b!"^x- -> y\nb -> c->d\n" ∧
    ([b!" ^x- -> y", b!"b->c->d "].foldl (fun (l : List (Str × Str) × Bool) s => let r := replaceSet some l.1 s; (r.1, l.2 && r.2)) ([], true)) =
      ([(b!"^x-", b!"y"), (b!"b", b!"c->d")], true) := by decide +kernel

end GoXml.Gen

namespace GoXml.Wsdl

/-! ### C143 -/

theorem joinWith_intercalate (sep : Str) : ∀ l : List Str, Gen.joinWith sep l = List.intercalate sep l
  | [] => rfl
  | [s] => by simp [Gen.joinWith, List.intercalate]
  | s :: s' :: rest => by
    rw [Gen.joinWith, joinWith_intercalate sep (s' :: rest)]
    simp [List.intercalate, List.intersperse]

/-- The line for an operation whose messages have parts of the types `ins` and `outs`. -/
def shownAs (name : Str) (ins outs : List Str) : Str :=
  b!"\t" ++ name ++ b!"(" ++ List.intercalate b!", " ins ++ b!") -> " ++ List.intercalate b!", " outs

/-- The types of the parts of the message with the given name. -/
def typesOf (d : Definition) (name : XName) : List Str :=
  match d.message.get name with
  | some m => m.parts.map fun p => p.type.loc
  | none => []

theorem mem_intercalate {sep : Str} {c : UInt8} : ∀ {l : List Str}, c ∈ List.intercalate sep l → c ∈ sep ∨ ∃ s ∈ l, c ∈ s
  | [], h => by simp [List.intercalate] at h
  | [s], h => by simp [List.intercalate] at h; exact .inr ⟨s, by simp, h⟩
  | s :: s' :: rest, h => by
    have e : List.intercalate sep (s :: s' :: rest) = s ++ sep ++ List.intercalate sep (s' :: rest) := by
      simp [List.intercalate, List.intersperse]
    rw [e] at h
    rcases List.mem_append.mp h with h | h
    · rcases List.mem_append.mp h with h | h
      · exact .inr ⟨s, by simp, h⟩
      · exact .inl h
    · rcases mem_intercalate h with h | ⟨x, hx, hc⟩
      · exact .inl h
      · exact .inr ⟨x, List.mem_cons_of_mem _ hx, hc⟩

/-- C143. `String` has a line for the namespace, one for each port, and after it one for each of the operations of the port with
the types of the parts of its messages, if no name has a line break. -/
theorem C143_listed_partial (d : Definition) (hns : (10 : UInt8) ∉ d.targetNS)
    (hp : ∀ p ∈ d.ports, (10 : UInt8) ∉ p.name ∧ (10 : UInt8) ∉ p.address ∧ ∀ op ∈ p.operations, (10 : UInt8) ∉ op.name.loc ∧
      (∀ t ∈ typesOf d op.input, (10 : UInt8) ∉ t) ∧ ∀ t ∈ typesOf d op.output, (10 : UInt8) ∉ t) :
    Gen.splitLines (definitionString d) = (b!"Namespace:  " ++ d.targetNS) :: d.ports.flatMap (fun p =>
      (b!"Port " ++ p.name ++ b!" " ++ p.address) :: p.operations.map fun op =>
        shownAs op.name.loc (typesOf d op.input) (typesOf d op.output)) ++ [[]] := by
  have hmsg : ∀ n, messageString ((d.message.get n).getD ⟨⟨[], []⟩, []⟩) = List.intercalate b!", " (typesOf d n) := by
    intro n
    rw [messageString, typesOf, joinWith_intercalate]
    cases d.message.get n <;> rfl
  have hop : ∀ op, operationString d op = shownAs op.name.loc (typesOf d op.input) (typesOf d op.output) ++ b!"\n" := by
    intro op
    rw [operationString, hmsg, hmsg, shownAs]
  have hops : ∀ (ops : List Operation) (rest : Str), (∀ op ∈ ops, (10 : UInt8) ∉ op.name.loc ∧
      (∀ t ∈ typesOf d op.input, (10 : UInt8) ∉ t) ∧ ∀ t ∈ typesOf d op.output, (10 : UInt8) ∉ t) →
      Gen.splitLines ((ops.map (operationString d)).flatten ++ rest) =
        (ops.map fun op => shownAs op.name.loc (typesOf d op.input) (typesOf d op.output)) ++ Gen.splitLines rest := by
    intro ops rest h
    induction ops with
    | nil => rfl
    | cons op ops ih =>
      obtain ⟨h1, h2, h3⟩ := h op (List.mem_cons_self ..)
      rw [List.map_cons, List.flatten_cons, hop, List.append_assoc, Gen.splitLines_cons, ih (fun o ho => h o (List.mem_cons_of_mem _ ho))]
      · rfl
      · rw [shownAs]
        simp only [List.mem_append, not_or]
        refine ⟨⟨⟨⟨⟨by decide, h1⟩, by decide⟩, ?_⟩, by decide⟩, ?_⟩
        · intro hm
          rcases mem_intercalate hm with hm | ⟨s, hs, hc⟩
          · exact absurd hm (by decide)
          · exact h2 s hs hc
        · intro hm
          rcases mem_intercalate hm with hm | ⟨s, hs, hc⟩
          · exact absurd hm (by decide)
          · exact h3 s hs hc
  have hports : ∀ (ports : List Port), (∀ p ∈ ports, (10 : UInt8) ∉ p.name ∧ (10 : UInt8) ∉ p.address ∧ ∀ op ∈ p.operations, (10 : UInt8) ∉ op.name.loc ∧
      (∀ t ∈ typesOf d op.input, (10 : UInt8) ∉ t) ∧ ∀ t ∈ typesOf d op.output, (10 : UInt8) ∉ t) →
      Gen.splitLines (ports.map (portString d)).flatten = ports.flatMap (fun p =>
      (b!"Port " ++ p.name ++ b!" " ++ p.address) :: p.operations.map fun op =>
        shownAs op.name.loc (typesOf d op.input) (typesOf d op.output)) ++ [[]] := by
    intro ports h
    induction ports with
    | nil => rfl
    | cons p ports ih =>
      obtain ⟨h1, h2, h3⟩ := h p (List.mem_cons_self ..)
      rw [List.map_cons, List.flatten_cons, portString, List.append_assoc, Gen.splitLines_cons, hops _ _ h3,
        ih (fun q hq => h q (List.mem_cons_of_mem _ hq))]
      · simp
      · simp only [List.mem_append, not_or]
        exact ⟨⟨⟨by decide, h1⟩, by decide⟩, h2⟩
  rw [definitionString, Gen.splitLines_cons, hports _ hp]
  · rfl
  · simp only [List.mem_append, not_or]
    exact ⟨by decide, hns⟩

/-- A definition with one operation, whose input has the given parts. -/
def oneOperation (parts : List Part) : Definition where
  doc := []
  ports := [{ name := b!"P", address := b!"http://a", method := b!"POST",
              operations := [{ name := ⟨b!"urn:t", b!"get"⟩, input := ⟨b!"urn:t", b!"in"⟩, output := ⟨b!"urn:t", b!"out"⟩ }] }]
  message := [(⟨b!"urn:t", b!"in"⟩, ⟨⟨b!"urn:t", b!"in"⟩, parts⟩), (⟨b!"urn:t", b!"out"⟩, ⟨⟨b!"urn:t", b!"out"⟩, [⟨b!"r", ⟨b!"urn:x", b!"int"⟩, ⟨[], []⟩⟩]⟩)]
  targetNS := b!"urn:t"

example : definitionString (oneOperation [⟨b!"a", ⟨b!"urn:x", b!"int"⟩, ⟨[], []⟩⟩, ⟨b!"b", ⟨b!"urn:x", b!"string"⟩, ⟨[], []⟩⟩]) =
    b!"Namespace:  urn:t\nPort P http://a\n\tget(int, string) -> int\n" := by decide +kernel

/-- C143 is false of parts that are given by an element: nothing is shown for them, as if the message had no parts. -/
theorem C143_element_refuted :
    definitionString (oneOperation [⟨b!"a", ⟨[], []⟩, ⟨b!"urn:t", b!"order"⟩⟩]) = definitionString (oneOperation []) := by
  decide +kernel

end GoXml.Wsdl
