import Verif.Model.Charset
import Verif.Spec.Misc
import Verif.Proofs.Parse
import Verif.Proofs.Compare
import Verif.Proofs.RoundTrip
set_option autoImplicit false

/-! Helper lemmas for C21 and C68. -/

namespace GoXml

theorem encodeG_some (g : Nat → Cell) (f : Nat) : ∀ (parent : Option Scope) (visited : List Nat) (id : Nat),
    recursionLimit + 2 ≤ f + visited.length → visited.length ≤ recursionLimit + 1 →
    ∃ s, encodeG g f parent visited id = some s := by
  induction f with
  | zero => intro parent visited id h1 h2; omega
  | succ f ih =>
    intro parent visited id h1 h2
    rw [encodeG]
    split
    · exact ⟨_, rfl⟩
    · rename_i hv
      split
      · exact ⟨_, rfl⟩
      · simp only
        split
        · split <;> exact ⟨_, rfl⟩
        · have : ∀ ks, ∃ s, kidsOut (encodeG g f (some (g id).scope) (id :: visited)) ks = some s := by
            intro ks
            induction ks with
            | nil => exact ⟨[], rfl⟩
            | cons k ks ihk =>
              obtain ⟨s1, e1⟩ := ih (some (g id).scope) (id :: visited) k (by simp; omega) (by simp; omega)
              obtain ⟨s2, e2⟩ := ihk
              exact ⟨s1 ++ s2, by simp [kidsOut, e1, e2]⟩
          obtain ⟨s, e⟩ := this (g id).kids
          exact ⟨_, by rw [e]; rfl⟩

theorem Unfolds.unique {g : Nat → Cell} {id : Nat} {e1 e2 : Element} (h1 : Unfolds g id e1) (h2 : Unfolds g id e2) :
    e1 = e2 := by
  induction h1 generalizing e2 with
  | @mk id ks hl hk ih =>
    cases h2 with
    | @mk _ ks' hl' hk' =>
      congr 1
      apply List.ext_getElem?
      intro i
      cases he : ks[i]? with
      | none =>
        have : ks'[i]? = none := by
          rw [List.getElem?_eq_none_iff] at he ⊢; omega
        rw [this]
      | some e =>
        obtain ⟨hi, _⟩ := List.getElem?_eq_some_iff.mp he
        have h1 : (g id).kids[i]? = some (g id).kids[i] := List.getElem?_eq_getElem (by omega)
        have h2 : ks'[i]? = some ks'[i] := List.getElem?_eq_getElem (by omega)
        rw [h2, ih i _ e h1 he (hk' i _ _ h1 h2)]

theorem encodeG_tree (g : Nat → Cell) {id : Nat} {el : Element} (h : Unfolds g id el) :
    ∀ (f : Nat) (parent : Option Scope) (visited : List Nat),
    recursionLimit + 2 ≤ f + visited.length → visited.length ≤ recursionLimit + 1 →
    (∀ v ∈ visited, ∃ ev, Unfolds g v ev ∧ el.height < ev.height) →
    encodeG g f parent visited id = some (encodeEl plain parent visited.length el) := by
  induction h with
  | @mk id ks hl hk ih =>
    intro f parent visited h1 h2 hv
    cases f with
    | zero => omega
    | succ f =>
      rw [encodeG, encodeEl]
      by_cases hlim : visited.length > recursionLimit
      · simp [hlim]
      · have hnot : id ∉ visited := by
          intro hm
          obtain ⟨ev, e1, e2⟩ := hv id hm
          rw [Unfolds.unique e1 (.mk hl hk)] at e2
          omega
        rw [if_neg hlim, if_neg hnot, if_neg hlim]
        have hemp : (g id).kids.isEmpty = ks.isEmpty := by
          cases hg : (g id).kids <;> cases hks : ks <;> simp [hg, hks] at hl ⊢
        simp only [encodeOpenTag_plain, encodeCloseTag_plain, startText, hemp]
        by_cases hk0 : ks.isEmpty = true
        · simp only [hk0, if_true]
          by_cases hc0 : (g id).content.isEmpty = true
          · simp [hc0]
          · simp [hc0]
        · simp only [hk0, if_false, Bool.false_and, Bool.false_eq_true]
          have hkids : ∀ (ids : List Nat) (es : List Element), ids.length = es.length →
              (∀ (i k : Nat) (e : Element), ids[i]? = some k → es[i]? = some e →
                encodeG g f (some (g id).scope) (id :: visited) k = some (encodeEl plain (some (g id).scope) (visited.length + 1) e)) →
              kidsOut (encodeG g f (some (g id).scope) (id :: visited)) ids =
                some (encodeKids plain (g id).scope (visited.length + 1) es) := by
            intro ids
            induction ids with
            | nil => intro es hl _; cases es with
              | nil => rfl
              | cons e es => simp at hl
            | cons a as iha =>
              intro es hl hh
              cases es with
              | nil => simp at hl
              | cons e es =>
                have e1 := hh 0 a e rfl rfl
                have e2 := iha es (by simpa using hl) (fun i k e' hk' he' => hh (i + 1) k e' (by simpa using hk') (by simpa using he'))
                simp [kidsOut, encodeKids, e1, e2]
          rw [hkids (g id).kids ks hl ?_]
          · simp
          · intro i k e hk' he
            have hmem : e ∈ (Element.mk (g id).name (g id).attrs (g id).scope (g id).content ks).children :=
              List.mem_of_getElem? he
            have hh := height_child hmem
            have := ih i k e hk' he f (some (g id).scope) (id :: visited) (by simp; omega) (by simp; omega) ?_
            · simpa using this
            · intro v hvm
              rcases List.mem_cons.mp hvm with rfl | hvm
              · exact ⟨_, .mk hl hk, hh⟩
              · obtain ⟨ev, e1, e2⟩ := hv v hvm
                exact ⟨ev, e1, by omega⟩

theorem drop1_dropLast {α : Type} (x : α) (l : List α) (b e : Nat) (hbe : b ≤ e) (he : e ≤ l.length) :
    ((((x :: l).drop b).take (e - b)).length = ((l.drop b).take (e - b)).length) ∧
    ((((x :: l).drop b).take (e - b)).drop 1 = ((l.drop b).take (e - b)).dropLast) := by
  constructor
  · simp only [List.length_take, List.length_drop, List.length_cons]; omega
  · apply List.ext_getElem?
    intro i
    simp only [List.getElem?_drop, List.getElem?_take, List.dropLast_eq_take, List.length_take, List.length_drop]
    by_cases h : i + 1 < e - b
    · rw [if_pos (by omega), if_pos (by omega), if_pos (by omega)]
      have : b + (1 + i) = (b + i) + 1 := by omega
      rw [this, List.getElem?_cons_succ]
    · rw [if_neg (by omega)]
      rw [if_neg (by omega)]

theorem slice_shift (pad : Str) (x : UInt8) (l : Str) (b e : Nat) (hbe : b ≤ e) (he : e ≤ l.length) :
    (slice (pad ++ x :: l) (pad.length + b) (pad.length + e)).length = (slice l b e).length ∧
    (slice (pad ++ x :: l) (pad.length + b) (pad.length + e)).drop 1 = (slice l b e).dropLast := by
  unfold slice
  have h1 : ∀ m : Str, (pad ++ m).drop (pad.length + b) = m.drop b := by
    intro m; rw [← List.drop_drop]; simp
  have h2 : pad.length + e - (pad.length + b) = e - b := by omega
  rw [h1, h2]
  exact drop1_dropLast x l _ _ hbe he

/-- Offsets that never go back and stay between two bounds. -/
def OffsOk (lo hi : Nat) : List (Tok × Nat) → Prop
  | [] => True
  | (_, o) :: ts => lo ≤ o ∧ o ≤ hi ∧ OffsOk o hi ts

theorem OffsOk.mono {lo lo' hi : Nat} {ts : List (Tok × Nat)} (h : OffsOk lo hi ts) (hl : lo' ≤ lo) : OffsOk lo' hi ts := by
  cases ts with
  | nil => trivial
  | cons t ts => obtain ⟨t, o⟩ := t; exact ⟨by have := h.1; omega, h.2.1, h.2.2⟩

/-- The token with its offset moved on by `n`. -/
def shiftTok (n : Nat) (t : Tok × Nat) : Tok × Nat := (t.1, n + t.2)

theorem parseLoop_shift (srt : Sorter nsLess) (pad : Str) (x : UInt8) (l : Str) (f : Nat) :
    ∀ (depth : Nat) (name : XName) (attrs : List Attr) (sc : Scope) (kids kids' : List Element) (b e : Nat)
      (toks : List (Tok × Nat)),
    b ≤ e → e ≤ l.length → OffsOk e l.length toks →
    kids.length = kids'.length → (∀ (i : Nat) (p q : Element), kids[i]? = some p → kids'[i]? = some q → Shifted p q) →
    (∀ err, parseLoop srt l f depth name attrs sc kids b e toks = .error err →
      parseLoop srt (pad ++ x :: l) f depth name attrs sc kids' (pad.length + b) (pad.length + e)
        (toks.map (shiftTok pad.length)) = .error err) ∧
    (∀ el rest off, parseLoop srt l f depth name attrs sc kids b e toks = .ok (el, rest, off) →
      ∃ el', parseLoop srt (pad ++ x :: l) f depth name attrs sc kids' (pad.length + b) (pad.length + e)
          (toks.map (shiftTok pad.length)) = .ok (el', rest.map (shiftTok pad.length), pad.length + off) ∧
        Shifted el el' ∧ e ≤ off ∧ off ≤ l.length ∧ OffsOk off l.length rest) := by
  induction f with
  | zero =>
    intro depth name attrs sc kids kids' b e toks _ _ _ _ _
    refine ⟨fun err h => ?_, fun el rest off h => ?_⟩
    · simpa [parseLoop] using h
    · simp [parseLoop] at h
  | succ f ih =>
    intro depth name attrs sc kids kids' b e toks hbe he ho hl hk
    cases toks with
    | nil =>
      refine ⟨fun err h => ?_, fun el rest off h => ?_⟩
      · simpa [parseLoop] using h
      · simp [parseLoop] at h
    | cons t toks =>
      obtain ⟨t, o⟩ := t
      obtain ⟨o1, o2, o3⟩ := ho
      simp only [List.map_cons, shiftTok, parseLoop]
      cases t with
      | start n as =>
        simp only
        by_cases hd : depth + 1 > recursionLimit
        · rw [if_pos hd, if_pos hd]
          exact ⟨fun err h => h, fun el rest off h => by cases h⟩
        · rw [if_neg hd, if_neg hd]
          obtain ⟨c1, c2⟩ := ih (depth + 1) n (pushNS srt sc as).2 (pushNS srt sc as).1 [] [] o o toks
            (Nat.le_refl _) o2 o3 rfl (by simp)
          cases hc : parseLoop srt l f (depth + 1) n (pushNS srt sc as).2 (pushNS srt sc as).1 [] o o toks with
          | error err =>
            have := c1 err hc
            rw [this]
            exact ⟨fun err h => h, fun el rest off h => by cases h⟩
          | ok r =>
            obtain ⟨child, rest1, off1⟩ := r
            obtain ⟨child', d1, d2, d3, d4, d5⟩ := c2 child rest1 off1 hc
            rw [d1]
            simp only
            obtain ⟨e1, e2⟩ := ih depth name attrs sc (kids ++ [child]) (kids' ++ [child']) b off1 rest1
              (by omega) d4 d5 (by simp [hl]) (by
                intro i p q hp hq
                by_cases hi : i < kids.length
                · rw [List.getElem?_append_left hi] at hp
                  rw [List.getElem?_append_left (by omega)] at hq
                  exact hk i p q hp hq
                · rw [List.getElem?_append_right (by omega)] at hp
                  rw [List.getElem?_append_right (by omega), ← hl] at hq
                  cases hj : i - kids.length with
                  | zero => rw [hj] at hp hq; simp at hp hq; subst hp; subst hq; exact d2
                  | succ j => rw [hj] at hp; simp at hp)
            refine ⟨e1, fun el rest off h => ?_⟩
            obtain ⟨el', g1, g2, g3, g4, g5⟩ := e2 el rest off h
            exact ⟨el', g1, g2, by omega, g4, g5⟩
      | stop n =>
        simp only
        by_cases hn : n ≠ name
        · rw [if_pos hn, if_pos hn]
          exact ⟨fun err h => h, fun el rest off h => by cases h⟩
        · rw [if_neg hn, if_neg hn]
          refine ⟨fun err h => (by cases h), fun el rest off h => ?_⟩
          simp only [Except.ok.injEq, Prod.mk.injEq] at h
          obtain ⟨h1, h2, h3⟩ := h
          subst h1; subst h2; subst h3
          obtain ⟨s1, s2⟩ := slice_shift pad x l b e hbe he
          exact ⟨_, rfl, .mk s1 s2 hl hk, o1, o2, o3⟩
      | other =>
        simp only
        obtain ⟨e1, e2⟩ := ih depth name attrs sc kids kids' b o toks (by omega) o2 o3 hl hk
        refine ⟨e1, fun el rest off h => ?_⟩
        obtain ⟨el', g1, g2, g3, g4, g5⟩ := e2 el rest off h
        exact ⟨el', g1, g2, by omega, g4, g5⟩

theorem findRoot_shift (n : Nat) (toks : List (Tok × Nat)) :
    findRoot (toks.map (shiftTok n)) =
      (findRoot toks).map fun (a, b, c, d) => (a, b, n + c, d.map (shiftTok n)) := by
  induction toks with
  | nil => rfl
  | cons t ts ih =>
    obtain ⟨t, o⟩ := t
    cases t <;> simp [findRoot, shiftTok, ih]

theorem findRoot_offs {lo hi : Nat} {toks rest : List (Tok × Nat)} {n : XName} {as : List Attr} {off : Nat}
    (ho : OffsOk lo hi toks) (h : findRoot toks = some (n, as, off, rest)) : off ≤ hi ∧ OffsOk off hi rest := by
  induction toks generalizing lo with
  | nil => simp [findRoot] at h
  | cons t ts ih =>
    obtain ⟨t, o⟩ := t
    obtain ⟨h1, h2, h3⟩ := ho
    cases t with
    | start n' as' => simp [findRoot] at h; obtain ⟨_, _, rfl, rfl⟩ := h; exact ⟨h2, h3⟩
    | stop n' => simp [findRoot] at h; exact ih h3 h
    | other => simp [findRoot] at h; exact ih h3 h

namespace Lex

theorem readName_le (s : Str) : (readName s).2.length ≤ s.length := by
  induction s with
  | nil => simp [readName]
  | cons c cs ih =>
    simp only [readName]
    split
    · simp; omega
    · simp

theorem skipSpace_le (s : Str) : (skipSpace s).length ≤ s.length := by
  induction s with
  | nil => simp [skipSpace]
  | cons c cs ih =>
    simp only [skipSpace]
    split
    · simp; omega
    · simp

theorem nsname_le {u : Unicode} {s : Str} {n : XName} {r : Str} (h : nsname u s = some (n, r)) : r.length ≤ s.length := by
  have hr := readName_le s
  simp only [nsname] at h
  split at h
  · cases h
  · split at h
    · simp only [Option.some.injEq, Prod.mk.injEq] at h; rw [← h.2]; exact hr
    · split at h
      · cases h
      · split at h <;> (simp only [Option.some.injEq, Prod.mk.injEq] at h; rw [← h.2]; exact hr)

theorem refDigits_le (hex : Bool) (s : Str) : ∀ acc, (refDigits hex acc s).2.length ≤ s.length := by
  induction s with
  | nil => intro acc; exact Nat.le_refl _
  | cons c s ih =>
    intro acc
    rw [refDigits]
    split
    · exact Nat.le_succ_of_le (ih _)
    · exact Nat.le_refl _

theorem charRef_le {s t r : Str} (h : charRef s = some (t, r)) : r.length ≤ s.length := by
  unfold charRef at h
  split at h
  · rename_i n r' heq
    split at h
    · simp only [Option.some.injEq, Prod.mk.injEq] at h
      obtain ⟨_, rfl⟩ := h
      split at heq
      · rename_i s'
        have := refDigits_le true s' none
        rw [heq] at this
        simp at this ⊢; omega
      · have := refDigits_le false s none
        rw [heq] at this
        simp at this; omega
    · cases h
  · cases h

theorem entity_le {s t r : Str} (h : entity s = some (t, r)) : r.length ≤ s.length := by
  unfold entity at h
  split at h
  · exact Nat.le_succ_of_le (charRef_le h)
  all_goals simp only [Option.some.injEq, Prod.mk.injEq, reduceCtorEq] at h <;> (obtain ⟨_, rfl⟩ := h; simp; try omega)

theorem textLoop_le (q : Option UInt8) (n : Nat) : ∀ (b0 b1 : UInt8) (s d r : Str),
    textLoop q n b0 b1 s = some (d, r) → r.length ≤ s.length := by
  induction n with
  | zero => intro b0 b1 s d r h; simp only [textLoop, Option.some.injEq, Prod.mk.injEq] at h; rw [h.2]; exact Nat.le_refl _
  | succ n ih =>
    intro b0 b1 s d r h
    cases s with
    | nil => simp only [textLoop, Option.some.injEq, Prod.mk.injEq] at h; rw [← h.2]; exact Nat.le_refl _
    | cons b rest =>
      have key : ∀ (b0 b1 : UInt8) (s : Str) (f : Str → Str), s.length ≤ rest.length →
          ((textLoop q n b0 b1 s).map fun (x : Str × Str) => (f x.1, x.2)) = some (d, r) → r.length ≤ (b :: rest).length := by
        intro b0 b1 s f hs hh
        cases ht : textLoop q n b0 b1 s with
        | none => rw [ht] at hh; cases hh
        | some y =>
          rw [ht] at hh
          simp only [Option.map_some, Option.some.injEq, Prod.mk.injEq] at hh
          have := ih b0 b1 s y.1 y.2 ht
          rw [← hh.2]; simp; omega
      simp only [textLoop] at h
      split at h
      · cases h
      · split at h
        · split at h
          · simp only [Option.some.injEq, Prod.mk.injEq] at h; rw [← h.2]; exact Nat.le_refl _
          · cases h
        · split at h
          · simp only [Option.some.injEq, Prod.mk.injEq] at h; rw [← h.2]; simp
          · split at h
            · split at h
              · cases h
              · rename_i he
                exact key _ _ _ (_ ++ ·) (entity_le he) h
            · split at h
              · exact key _ _ _ (_ :: ·) (Nat.le_refl _) h
              · split at h
                · have := ih _ _ _ _ _ h; simp; omega
                · exact key _ _ _ (_ :: ·) (Nat.le_refl _) h

theorem text_le {u : Unicode} {q : Option UInt8} {s d r : Str} (h : text u q s = some (d, r)) : r.length ≤ s.length := by
  simp only [text] at h
  split at h
  · cases h
  · rename_i ht
    split at h
    · simp only [Option.some.injEq, Prod.mk.injEq] at h
      rw [← h.2]; exact textLoop_le _ _ _ _ _ _ _ ht
    · cases h

theorem attrval_le {u : Unicode} {s d r : Str} (h : attrval u s = some (d, r)) : r.length ≤ s.length := by
  unfold attrval at h
  split at h
  · have := text_le h; simp; omega
  · have := text_le h; simp; omega
  · cases h

theorem attrLoop_le (u : Unicode) (n : Nat) : ∀ (s : Str) (as : List Attr) (e : Bool) (r : Str),
    attrLoop u n s = some (as, e, r) → r.length ≤ s.length := by
  induction n with
  | zero => intro s as e r h; cases h
  | succ n ih =>
    intro s as e r h
    have hs := skipSpace_le s
    simp only [attrLoop] at h
    split at h
    · cases h
    · rename_i heq
      simp only [Option.some.injEq, Prod.mk.injEq] at h
      rw [heq] at hs; rw [← h.2.2]; simp at hs; omega
    · cases h
    · rename_i heq
      simp only [Option.some.injEq, Prod.mk.injEq] at h
      rw [heq] at hs; rw [← h.2.2]; simp at hs; omega
    · split at h
      · cases h
      · rename_i name r1 h1
        have l1 := nsname_le h1
        have l2 := skipSpace_le r1
        split at h
        · rename_i r2 h2
          rw [h2] at l2
          split at h
          · cases h
          · rename_i v r3 h3
            have l3 := attrval_le h3
            have l4 := skipSpace_le r2
            cases ha : attrLoop u n r3 with
            | none => rw [ha] at h; cases h
            | some y =>
              rw [ha] at h
              obtain ⟨y1, y2, y3⟩ := y
              simp only [Option.map_some, Option.some.injEq, Prod.mk.injEq] at h
              have := ih _ _ _ _ ha
              rw [← h.2.2]
              simp only [List.length_cons] at l2
              omega
        · cases h

theorem commentLoop_le (b0 b1 : UInt8) (s r : Str) (h : commentLoop b0 b1 s = some r) : r.length ≤ s.length := by
  induction s generalizing b0 b1 with
  | nil => cases h
  | cons b rest ih =>
    simp only [commentLoop] at h
    split at h
    · split at h
      · obtain rfl := Option.some.inj h; simp
      · cases h
    · have := ih _ _ h; simp; omega

theorem cdataLoop_le (b0 b1 : UInt8) (s d r : Str) (h : cdataLoop b0 b1 s = some (d, r)) : r.length ≤ s.length := by
  induction s generalizing b0 b1 d with
  | nil => cases h
  | cons b rest ih =>
    simp only [cdataLoop] at h
    split at h
    · simp only [Option.some.injEq, Prod.mk.injEq] at h; rw [← h.2]; simp
    · cases hc : cdataLoop b1 b rest with
      | none => rw [hc] at h; cases h
      | some y =>
        rw [hc] at h
        obtain ⟨y1, y2⟩ := y
        simp only [Option.map_some, Option.some.injEq, Prod.mk.injEq] at h
        have := ih _ _ y1 (by rw [hc, h.2])
        simp; omega

theorem piLoop_le (b0 : UInt8) (s r : Str) (h : piLoop b0 s = some r) : r.length ≤ s.length := by
  induction s generalizing b0 with
  | nil => cases h
  | cons b rest ih =>
    simp only [piLoop] at h
    split at h
    · obtain rfl := Option.some.inj h; simp
    · have := ih _ h; simp; omega

theorem directiveComment_le (b0 b1 : UInt8) (s r : Str) (h : directiveComment b0 b1 s = some r) : r.length ≤ s.length := by
  induction s generalizing b0 b1 with
  | nil => cases h
  | cons b rest ih =>
    simp only [directiveComment] at h
    split at h
    · obtain rfl := Option.some.inj h; simp
    · have := ih _ _ h; simp; omega

theorem commentStart_le {s r : Str} (h : commentStart s = some r) : r.length ≤ s.length := by
  unfold commentStart at h
  split at h
  · obtain rfl := Option.some.inj h; simp; omega
  · cases h

theorem directiveLoop_le (n : Nat) : ∀ (q : UInt8) (d : Nat) (s r : Str), directiveLoop n q d s = some r → r.length ≤ s.length := by
  induction n with
  | zero => intro q d s r h; cases h
  | succ n ih =>
    intro q d s r h
    cases s with
    | nil => cases h
    | cons b rest =>
      rw [directiveLoop] at h
      split at h
      · have := ih _ _ _ _ h; simp; omega
      · split at h
        · split at h
          · obtain rfl := Option.some.inj h; simp
          · have := ih _ _ _ _ h; simp; omega
        · split at h
          · have := ih _ _ _ _ h; simp; omega
          · split at h
            · split at h
              · rename_i hc
                have : _ ≤ _ := commentStart_le hc
                obtain ⟨r1, h1, h2⟩ := Option.bind_eq_some_iff.mp h
                have := directiveComment_le _ _ _ _ h1
                have := ih _ _ _ _ h2
                simp; omega
              · have := ih _ _ _ _ h; simp; omega
            · have := ih _ _ _ _ h; simp; omega

theorem directive_le {s r : Str} (h : directive s = some r) : r.length ≤ s.length := by
  unfold directive at h
  split at h
  · cases h
  · split at h
    · cases h
    · have := directiveLoop_le _ _ _ _ _ h; simp; omega

theorem popElement_le {st st' : St} {n : XName} {r : Str} {t : Tok} (h : popElement st n r = some (t, st')) :
    st'.inp = r := by
  unfold popElement at h
  split at h
  · cases h
  · split at h
    · cases h
    · simp only [Option.some.injEq, Prod.mk.injEq] at h; rw [← h.2]

theorem token_le {u : Unicode} {st st' : St} {t : Tok} (h : token u st = some (t, st')) :
    st'.inp.length ≤ st.inp.length := by
  simp only [token] at h
  split at h
  · rw [popElement_le h]; exact Nat.le_refl _
  · split at h
    · cases h
    · rename_i r heq
      rw [heq]
      split at h
      · cases h
      · rename_i n r1 h1
        have l1 := nsname_le h1
        have l2 := skipSpace_le r1
        split at h
        · rename_i r2 h2
          rw [h2] at l2
          rw [popElement_le h]
          simp at l2 ⊢; omega
        · cases h
    · rename_i r heq
      rw [heq]
      have l1 := readName_le r
      split at h
      · cases h
      · cases hp : piLoop 0 (readName r).2 with
        | none => rw [hp] at h; cases h
        | some y =>
          rw [hp] at h
          simp only [Option.map_some, Option.some.injEq, Prod.mk.injEq] at h
          have := piLoop_le _ _ _ hp
          rw [← h.2]; simp; omega
    · rename_i r heq
      rw [heq]
      cases hp : commentLoop 0 0 r with
      | none => rw [hp] at h; cases h
      | some y =>
        rw [hp] at h
        simp only [Option.map_some, Option.some.injEq, Prod.mk.injEq] at h
        have := commentLoop_le _ _ _ _ hp
        rw [← h.2]; simp; omega
    · rename_i r heq
      rw [heq]
      split at h
      · cases h
      · rename_i d rest hc
        have := cdataLoop_le _ _ _ _ _ hc
        split at h
        · simp only [Option.some.injEq, Prod.mk.injEq] at h
          rw [← h.2]; simp; omega
        · cases h
    · rename_i r _ _ heq
      rw [heq]
      cases hp : directive r with
      | none => rw [hp] at h; cases h
      | some y =>
        rw [hp] at h
        simp only [Option.map_some, Option.some.injEq, Prod.mk.injEq] at h
        have := directive_le hp
        rw [← h.2]; simp; omega
    · rename_i r heq
      split at h
      · cases h
      · rename_i n r1 h1
        have l1 := nsname_le h1
        split at h
        · cases h
        · rename_i as empty rest h2
          have l2 := attrLoop_le _ _ _ _ _ _ h2
          simp only [Option.some.injEq, Prod.mk.injEq] at h
          rw [← h.2]
          simp only
          rename_i heq' _ _ _
          simp_all
          omega
    · split at h
      · cases h
      · rename_i d rest ht
        have := text_le ht
        simp only [Option.some.injEq, Prod.mk.injEq] at h
        rw [← h.2]
        exact this

theorem tokens_offs (u : Unicode) (total n : Nat) : ∀ (st : St), st.inp.length ≤ total →
    OffsOk (total - st.inp.length) total (tokens u total n st) := by
  induction n with
  | zero => intro st _; trivial
  | succ n ih =>
    intro st hst
    simp only [tokens]
    split
    · trivial
    · rename_i t st' ht
      have := token_le ht
      exact ⟨by omega, by omega, ih st' (by omega)⟩

theorem lex_offs (u : Unicode) (doc : Str) : OffsOk 0 doc.length (lex u doc) := by
  have := tokens_offs u doc.length (2 * doc.length + 1) ⟨doc, [], [], none⟩ (Nat.le_refl _)
  simpa [lex] using this

end Lex

end GoXml
