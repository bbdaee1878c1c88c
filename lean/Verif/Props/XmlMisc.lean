import Verif.Proofs.Misc
import Verif.Props.XmlMarshal
set_option autoImplicit false

/-! Property theorems C21 (documents in other encodings) and C68 (cyclic trees). -/

namespace GoXml

/-! ### C68 -/

/-- C68: on every element graph, cyclic or not, `Marshal` returns, and its recursion is never more
than 3002 calls deep. -/
theorem C68_marshal_terminates (g : Nat → Cell) (root : Nat) :
    ∃ s, encodeG g 3002 none [] root = some s :=
  encodeG_some g 3002 none [] root (by simp [recursionLimit]) (by simp)

/-- C68, consistency: on a graph that is a tree, the output is that of `Marshal` on the tree. -/
theorem C68_tree_output (g : Nat → Cell) (root : Nat) (el : Element) (h : Unfolds g root el) :
    encodeG g 3002 none [] root = some (marshal el) :=
  encodeG_tree g h 3002 none [] (by simp [recursionLimit]) (by simp) (by simp)

/-- An element that contains itself. -/
def selfLoop : Nat → Cell := fun _ => ⟨⟨[], b!"a"⟩, [], [], [], [0]⟩

example : encodeG selfLoop 3002 none [] 0 = some b!"<a><!-- cycle detected --></a>" := by decide +kernel

/-! ### C21 -/

/-- Name and content of the root, if there is one. -/
def rootContent : Except ParseErr Element → Option (Str × Str)
  | .error _ => none
  | .ok el => some (el.name.loc, el.content)

/-- C21 is false: after an XML declaration of 45 bytes, the content of `<a>hello</a>` on the next
line is `>hell`, and if the element follows the declaration directly the document does not parse. -/
theorem C21_content_refuted :
    rootContent (parseCharset asciiTables nsSorter 45 b!"\n<a>hello</a>") = some (b!"a", b!">hell") ∧
    rootContent (parseCharset asciiTables nsSorter 45 b!"<a>hello</a>") = none ∧
    rootContent (parse asciiTables nsSorter b!"<a>hello</a>") = some (b!"a", b!"hello") := by
  decide +kernel

/-- C21, what does hold: let the document, converted to UTF-8, have the byte `x` (in practice a line
break) after the XML declaration of `off` bytes, then `rest`. `Parse` succeeds exactly if it would
succeed on `rest` as a UTF-8 document, and then names, attributes, scopes and the tree structure are
right, but every content is displaced by one byte. Missing: that the contents are right. -/
theorem C21_charset_partial (u : Lex.Unicode) (srt : Sorter nsLess) (off : Nat) (x : UInt8) (rest : Str) :
    (∀ err, parse u srt rest = .error err → parseCharset u srt off (x :: rest) = .error err) ∧
    (∀ el, parse u srt rest = .ok el → ∃ el', parseCharset u srt off (x :: rest) = .ok el' ∧ Shifted el el') := by
  have hin : charsetInput off (x :: rest) = rest := by
    simp [charsetInput, utf8buf, ← List.drop_drop]
  have hmap : ((Lex.lex u rest).map fun t => (t.1, off + t.2)) = (Lex.lex u rest).map (shiftTok off) := rfl
  simp only [parse, parseCharset, hin, hmap]
  have hbuf : utf8buf off (x :: rest) = List.replicate off 0 ++ x :: rest := rfl
  have hlo := Lex.lex_offs u rest
  unfold parseDoc
  have hf : findRoot ((Tok.other, off) :: (Lex.lex u rest).map (shiftTok off)) =
      findRoot ((Lex.lex u rest).map (shiftTok off)) := by simp [findRoot]
  rw [hf, findRoot_shift]
  cases hr : findRoot (Lex.lex u rest) with
  | none => exact ⟨fun err h => h, fun el h => by cases h⟩
  | some r =>
    obtain ⟨n, as, o, toks⟩ := r
    obtain ⟨h1, h2⟩ := findRoot_offs hlo hr
    simp only [Option.map_some, List.length_map]
    obtain ⟨p1, p2⟩ := parseLoop_shift srt (List.replicate off 0) x rest (toks.length + 1) 0 n (pushNS srt [] as).2
      (pushNS srt [] as).1 [] [] o o toks (Nat.le_refl _) h1 h2 rfl (by simp)
    simp only [List.length_replicate] at p1 p2
    cases hp : parseLoop srt rest (toks.length + 1) 0 n (pushNS srt [] as).2 (pushNS srt [] as).1 [] o o toks with
    | error err =>
      rw [hbuf, p1 err hp]
      exact ⟨fun err h => h, fun el h => by cases h⟩
    | ok r =>
      obtain ⟨el, rest1, off1⟩ := r
      obtain ⟨el', q1, q2, _⟩ := p2 el rest1 off1 hp
      rw [hbuf, q1]
      refine ⟨fun err h => (by cases h), fun e h => ?_⟩
      simp only [Except.ok.injEq] at h
      subst h
      exact ⟨el', rfl, q2⟩

/-- A document to which the theorem applies. -/
example : rootContent (parse asciiTables nsSorter b!"<a>hello</a>") ≠ none := by decide +kernel

end GoXml
