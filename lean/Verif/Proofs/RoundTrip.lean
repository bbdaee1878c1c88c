import Verif.Model.Marshal
import Verif.Spec.Wf
import Verif.Proofs.Parse
import Verif.Proofs.XmlTree
set_option autoImplicit false

/-! Helper lemmas for the Marshal/Parse round trip. -/

namespace GoXml

open Lex

/-! ### Tokenizer lemmas -/

theorem readName_append {q : Str} {c : UInt8} {r : Str} (hq : ∀ x ∈ q, isNameByte x = true)
    (hc : isNameByte c = false) : readName (q ++ c :: r) = (q, c :: r) := by
  induction q with
  | nil => simp [readName, hc]
  | cons x xs ih =>
    simp only [List.cons_append, readName]
    rw [if_pos (hq x (by simp)), ih (fun y hy => hq y (by simp [hy]))]

theorem nsname_append {u : Unicode} {q p l : Str} {c : UInt8} {r : Str} (h : QOk u q p l)
    (hc : isNameByte c = false) : nsname u (q ++ c :: r) = some (⟨p, l⟩, c :: r) := by
  have hne : q ≠ [] := by
    have := h.lne
    have hs := h.shape
    split at hs
    · rw [hs]; exact this
    · rw [hs]; simp
  unfold nsname
  rw [readName_append h.bytes hc]
  simp only [h.name, Bool.not_true, Bool.or_false]
  rw [if_neg (by simpa using hne)]
  have hs := h.shape
  by_cases hp : p = []
  · rw [if_pos hp] at hs
    subst hp; subst hs
    rw [cut_eq_none h.lcolon]
  · rw [if_neg hp] at hs
    have : q = p ++ 58 :: l := by rw [hs]; simp
    rw [this, cut_eq h.pcolon]
    simp [h.lcolon, hp, h.lne]

theorem name_byte_facts {c : UInt8} (h : isNameByte c = true) :
    c ≠ 47 ∧ c ≠ 63 ∧ c ≠ 33 ∧ c ≠ 62 ∧ c ≠ 32 ∧ c ≠ 13 ∧ c ≠ 10 ∧ c ≠ 9 ∧ c ≠ 61 := by
  refine ⟨?_, ?_, ?_, ?_, ?_, ?_, ?_, ?_, ?_⟩ <;> rintro rfl <;> exact absurd h (by decide)

theorem skipSpace_name {c : UInt8} {r : Str} (h : isNameByte c = true) : skipSpace (c :: r) = c :: r := by
  obtain ⟨_, _, _, _, h1, h2, h3, h4, _⟩ := name_byte_facts h
  simp [skipSpace, h1, h2, h3, h4]

theorem textLoop_value {v : Str} (hv : ∀ c ∈ v, c ≠ 34 ∧ c ≠ 60 ∧ c ≠ 38 ∧ c ≠ 13) :
    ∀ (n : Nat) (b0 b1 : UInt8) (rest : Str), v.length < n → b1 ≠ 13 →
      textLoop (some 34) n b0 b1 (v ++ 34 :: rest) = some (v, rest) := by
  induction v with
  | nil =>
    intro n b0 b1 rest hn hb
    cases n with
    | zero => omega
    | succ n => simp [textLoop]
  | cons c cs ih =>
    intro n b0 b1 rest hn hb
    cases n with
    | zero => omega
    | succ n =>
      obtain ⟨h1, h2, h3, h4⟩ := hv c (by simp)
      have := ih (fun x hx => hv x (by simp [hx])) n b1 c rest (by simp at hn; omega) h4
      simp only [List.cons_append, textLoop]
      simp [h2, h3, h4, hb, Ne.symm h1, this]

theorem text_value {u : Unicode} {v : Str} (hv : ValueOk u v) (rest : Str) :
    text u (some 34) (v ++ 34 :: rest) = some (v, rest) := by
  unfold text
  rw [textLoop_value hv.2 _ 0 0 rest (by simp; omega) (by decide)]
  simp [hv.1]

/-- One attribute. -/
theorem attrLoop_one {u : Unicode} {q p l v : Str} (h : QOk u q p l) (hv : ValueOk u v) (n : Nat) (r : Str) :
    attrLoop u (n + 1) (b!" " ++ q ++ b!"=\"" ++ v ++ b!"\"" ++ r) =
      (attrLoop u n r).map fun (as, e, r) => (⟨⟨p, l⟩, v⟩ :: as, e, r) := by
  have hne : q ≠ [] := by
    have := h.lne
    have hs := h.shape
    split at hs
    · rw [hs]; exact this
    · rw [hs]; simp
  cases q with
  | nil => exact absurd rfl hne
  | cons x q =>
    have hx := h.bytes x (by simp)
    obtain ⟨f1, _, _, f4, _⟩ := name_byte_facts hx
    have e1 : skipSpace (b!" " ++ (x :: q) ++ b!"=\"" ++ v ++ b!"\"" ++ r) =
        x :: (q ++ 61 :: (34 :: (v ++ 34 :: r))) := by
      simp only [List.cons_append, List.nil_append, List.append_assoc]
      rw [skipSpace]
      simp only [decide_true, Bool.true_or, if_true]
      rw [skipSpace_name hx]
    have e2 : nsname u (x :: (q ++ 61 :: (34 :: (v ++ 34 :: r)))) = some (⟨p, l⟩, 61 :: 34 :: (v ++ 34 :: r)) := by
      have := nsname_append (c := 61) (r := 34 :: (v ++ 34 :: r)) h (by decide)
      simpa using this
    rw [attrLoop, e1]
    split
    · rename_i heq; cases heq
    · rename_i heq; simp at heq; exact absurd heq.1 f1
    · rename_i heq; simp at heq; exact absurd heq.1 f1
    · rename_i heq; simp at heq; exact absurd heq.1 f4
    · rw [e2]
      have e3 : skipSpace (61 :: 34 :: (v ++ 34 :: r)) = 61 :: 34 :: (v ++ 34 :: r) := by simp [skipSpace]
      have e4 : skipSpace (34 :: (v ++ 34 :: r)) = 34 :: (v ++ 34 :: r) := by simp [skipSpace]
      simp only [e3, e4, attrval, text_value hv]

/-- The raw name of an attribute or element as written. -/
def rawName (sc : Scope) (n : XName) : XName :=
  ⟨(splitQName (prefixOf sc n)).1, (splitQName (prefixOf sc n)).2⟩

theorem QOk.parts {u : Unicode} {q p l : Str} (h : QOk u q p l) : QNameParts q p l := by
  have hs := h.shape
  split at hs
  · rename_i hp; right; exact ⟨by rw [hs]; exact h.lcolon, hp, hs.symm⟩
  · left; exact ⟨hs, h.pcolon⟩

theorem rawName_eq {u : Unicode} {sc : Scope} {n : XName} {p l : Str} (h : QOk u (prefixOf sc n) p l) :
    rawName sc n = ⟨p, l⟩ := by
  unfold rawName; rw [splitQName_eq h.parts]

/-- The attribute with which a declaration is written. -/
def declAttr (d : XName) : Attr :=
  ⟨if d.loc = [] then ⟨[], b!"xmlns"⟩ else ⟨b!"xmlns", d.loc⟩, d.space⟩

theorem decl_QOk {u : Unicode} {d : XName} (h : DeclOk u d) :
    QOk u (b!"xmlns" ++ (if d.loc = [] then [] else b!":" ++ d.loc)) (declAttr d).name.space (declAttr d).name.loc := by
  obtain ⟨_, h2, h3, h4⟩ := h
  unfold declAttr
  by_cases hl : d.loc = []
  · simp only [if_pos hl] at h4 ⊢
    exact ⟨by simp, by decide, h4, by simp, by decide, by simp⟩
  · simp only [if_neg hl] at h4 ⊢
    refine ⟨by simp, ?_, h4, by decide, h2, hl⟩
    intro c hc
    simp only [List.cons_append, List.nil_append, List.mem_cons] at hc
    rcases hc with rfl | rfl | rfl | rfl | rfl | rfl | hc
    · decide
    · decide
    · decide
    · decide
    · decide
    · decide
    · exact h3 c hc

theorem attrLoop_ns {u : Unicode} {own : Scope} (h : ∀ d ∈ own, DeclOk u d) (n : Nat) (hn : own.length ≤ n) (r : Str) :
    attrLoop u n (nsText own ++ r) =
      (attrLoop u (n - own.length) r).map fun (as, e, r) => (own.map declAttr ++ as, e, r) := by
  induction own generalizing n with
  | nil => simp [nsText]
  | cons d ds ih =>
    cases n with
    | zero => simp at hn
    | succ n =>
      have hd := h d (by simp)
      have := attrLoop_one (decl_QOk hd) hd.1 n (nsText ds ++ r)
      have e : nsText (d :: ds) ++ r = b!" " ++ (b!"xmlns" ++ (if d.loc = [] then [] else b!":" ++ d.loc)) ++
          b!"=\"" ++ d.space ++ b!"\"" ++ (nsText ds ++ r) := by
        simp [nsText]
      rw [e, this, ih (fun x hx => h x (by simp [hx])) n (by simp at hn; omega)]
      simp only [List.length_cons, Nat.add_sub_add_right, Option.map_map]
      congr 1

theorem attrLoop_attrs {u : Unicode} {sc : Scope} {as : List Attr}
    (h : ∀ a ∈ as, AttrNameOk u sc a.name ∧ ValueOk u a.value) (n : Nat) (hn : as.length ≤ n) (r : Str) :
    attrLoop u n (attrsText sc as ++ r) =
      (attrLoop u (n - as.length) r).map fun (bs, e, r) =>
        (as.map (fun a => ⟨rawName sc a.name, a.value⟩) ++ bs, e, r) := by
  induction as generalizing n with
  | nil => simp [attrsText]
  | cons a as ih =>
    cases n with
    | zero => simp at hn
    | succ n =>
      obtain ⟨⟨_, _, p, l, hq, _⟩, hv⟩ := h a (by simp)
      have := attrLoop_one hq hv n (attrsText sc as ++ r)
      have e : attrsText sc (a :: as) ++ r = b!" " ++ prefixOf sc a.name ++
          b!"=\"" ++ a.value ++ b!"\"" ++ (attrsText sc as ++ r) := by
        simp [attrsText]
      rw [e, this, ih (fun x hx => h x (by simp [hx])) n (by simp at hn; omega)]
      simp only [List.length_cons, Nat.add_sub_add_right, Option.map_map]
      rw [← rawName_eq hq]
      congr 1

theorem nsPush_append (ns : Scope) (a b : List Attr) : nsPush ns (a ++ b) = nsPush (nsPush ns a) b := by
  induction a generalizing ns with
  | nil => rfl
  | cons x xs ih => simp [nsPush, ih]

theorem nsPush_decls (ns own : Scope) : nsPush ns (own.map declAttr) = ns ++ own := by
  induction own generalizing ns with
  | nil => simp [nsPush]
  | cons d ds ih =>
    simp only [List.map_cons, nsPush]
    rw [ih]
    unfold declAttr
    obtain ⟨sp, lo⟩ := d
    by_cases hl : lo = []
    · subst hl; simp
    · simp [hl]

theorem nsPush_plain (ns : Scope) (as : List Attr)
    (h : ∀ a ∈ as, a.name.space ≠ b!"xmlns" ∧ a.name.loc ≠ b!"xmlns") : nsPush ns as = ns := by
  induction as with
  | nil => rfl
  | cons a as ih =>
    obtain ⟨h1, h2⟩ := h a (by simp)
    simp only [nsPush, if_neg h1]
    rw [if_neg (by intro h; exact h2 h.2)]
    exact ih (fun x hx => h x (by simp [hx]))

theorem resolveLoop_lookup (p l : Str) (ds : List XName) :
    resolveLoop p l ds = (nsLookup p ds).map (fun v => ⟨v, l⟩) := by
  induction ds with
  | nil => rfl
  | cons d ds ih =>
    simp only [resolveLoop, nsLookup]
    split <;> simp_all

theorem translate_resolve {sc : Scope} {q p l : Str} (h : QNameParts q p l) (hp : p ≠ b!"xmlns")
    (isEl : Bool) (h1 : p ≠ [] ∨ (isEl = true ∧ l ≠ b!"xmlns")) :
    translate sc ⟨p, l⟩ isEl = resolve sc q := by
  unfold translate resolve resolveNS
  rw [splitQName_eq h]
  simp only [if_neg hp]
  have c2 : ¬ (p = [] ∧ (!isEl) = true) := by
    rintro ⟨a, b⟩
    rcases h1 with h1 | h1
    · exact h1 a
    · rw [h1.1] at b; cases b
  rw [if_neg c2]
  by_cases hx : p = b!"xml"
  · simp [hx]
  · rw [if_neg hx, if_neg hx]
    have c4 : ¬ (p = [] ∧ l = b!"xmlns") := by
      rintro ⟨a, b⟩
      rcases h1 with h1 | h1
      · exact h1 a
      · exact h1.2 b
    rw [if_neg c4]
    simp only [resolveLoop_lookup]
    cases nsLookup p (List.reverse sc) <;> rfl

theorem translate_elem {u : Unicode} {sc : Scope} {n : XName} (h : ElemNameOk u sc n) :
    translate sc (rawName sc n) true = n := by
  obtain ⟨p, l, hq, hp, hx, hr⟩ := h
  rw [rawName_eq hq]
  rw [translate_resolve hq.parts hp true, hr]
  by_cases hp0 : p = []
  · right; exact ⟨rfl, fun hl => hx ⟨hp0, hl⟩⟩
  · left; exact hp0

theorem translate_attr {u : Unicode} {sc : Scope} {n : XName} (h : AttrNameOk u sc n) :
    translate sc (rawName sc n) false = n := by
  obtain ⟨_, _, p, l, hq, hp, hx, hr⟩ := h
  rw [rawName_eq hq]
  rcases hr with ⟨rfl, hr⟩ | ⟨hp0, hr⟩
  · rw [hr]; simp [translate]
  · rw [translate_resolve hq.parts hp false (Or.inl hp0), hr]

theorem translate_decl (sc : Scope) (d : XName) : translate sc (declAttr d).name false = (declAttr d).name := by
  unfold declAttr translate
  by_cases hl : d.loc = [] <;> simp [hl]

/-- The start tag of a writable element. -/
theorem token_start {u : Unicode} {ps own : Scope} {name : XName} {attrs : List Attr}
    (hd : ∀ d ∈ own, DeclOk u d) (hn : ElemNameOk u (ps ++ own) name)
    (ha : ∀ a ∈ attrs, AttrNameOk u (ps ++ own) a.name ∧ ValueOk u a.value)
    (stack : List (XName × Scope)) (rest : Str) (empty : Bool) :
    token u ⟨b!"<" ++ prefixOf (ps ++ own) name ++ attrsText (ps ++ own) attrs ++ nsText own ++
        (if empty then b!" />" else b!">") ++ rest, stack, ps, none⟩ =
      some (.start name (attrs ++ own.map declAttr),
        ⟨rest, (rawName (ps ++ own) name, ps) :: stack, ps ++ own,
          if empty then some (rawName (ps ++ own) name) else none⟩) := by
  have hname := hn
  obtain ⟨p, l, hq, hp, hx, hr⟩ := hn
  have hne : prefixOf (ps ++ own) name ≠ [] := by
    have := hq.lne
    have hs := hq.shape
    split at hs
    · rw [hs]; exact this
    · rw [hs]; simp
  generalize htail : attrsText (ps ++ own) attrs ++ nsText own ++ (if empty then b!" />" else b!">") ++ rest = tail
  have hraw := rawName_eq hq
  -- what follows the name is not a name byte
  have htl : ∃ c r, tail = c :: r ∧ isNameByte c = false := by
    rw [← htail]
    cases attrs with
    | cons a as => exact ⟨32, _, rfl, by decide⟩
    | nil =>
      cases own with
      | cons d ds => exact ⟨32, _, rfl, by decide⟩
      | nil =>
        cases empty
        · exact ⟨62, _, rfl, by decide⟩
        · exact ⟨32, _, rfl, by decide⟩
  have hloop : attrLoop u (tail.length + 1) tail =
      some (attrs.map (fun a => ⟨rawName (ps ++ own) a.name, a.value⟩) ++ own.map declAttr, empty, rest) := by
    have hlen : attrs.length + own.length ≤ tail.length := by
      rw [← htail]
      have h1 : ∀ as : List Attr, as.length ≤ (attrsText (ps ++ own) as).length := by
        intro as
        induction as with
        | nil => simp
        | cons a as ih => simp [attrsText]; omega
      have h2 : ∀ ds : Scope, ds.length ≤ (nsText ds).length := by
        intro ds
        induction ds with
        | nil => simp
        | cons a as ih => simp [nsText]; omega
      have := h1 attrs
      have := h2 own
      simp only [List.length_append]; omega
    generalize hT : tail.length + 1 = T
    rw [← htail]
    have e1 : attrsText (ps ++ own) attrs ++ nsText own ++ (if empty then b!" />" else b!">") ++ rest =
        attrsText (ps ++ own) attrs ++ (nsText own ++ ((if empty then b!" />" else b!">") ++ rest)) := by simp
    rw [e1, attrLoop_attrs ha T (by omega), attrLoop_ns hd (T - attrs.length) (by omega)]
    have e2 : ∃ m, T - attrs.length - own.length = m + 1 := ⟨T - attrs.length - own.length - 1, by omega⟩
    obtain ⟨m, hm⟩ := e2
    rw [hm]
    have e3 : attrLoop u (m + 1) ((if empty then b!" />" else b!">") ++ rest) = some ([], empty, rest) := by
      cases empty <;> simp [attrLoop, skipSpace]
    rw [e3]
    simp
  obtain ⟨c, r, hc1, hc2⟩ := htl
  have hinp : b!"<" ++ prefixOf (ps ++ own) name ++ attrsText (ps ++ own) attrs ++ nsText own ++
        (if empty then b!" />" else b!">") ++ rest = 60 :: (prefixOf (ps ++ own) name ++ tail) := by
    rw [← htail]; simp
  rw [hinp]
  have hns : nsname u (prefixOf (ps ++ own) name ++ tail) = some (⟨p, l⟩, tail) := by
    rw [hc1]; exact nsname_append hq hc2
  generalize hQ : prefixOf (ps ++ own) name = Q at *
  cases Q with
  | nil => exact absurd rfl hne
  | cons x q =>
    obtain ⟨f1, f2, f3, _⟩ := name_byte_facts (hq.bytes x (by simp))
    simp only [token, List.cons_append]
    split
    · rename_i heq; cases heq
    · rename_i heq; simp at heq; exact absurd heq.1 f1
    · rename_i heq; simp at heq; exact absurd heq.1 f2
    · rename_i heq; simp at heq; exact absurd heq.1 f3
    · rename_i heq; simp at heq; exact absurd heq.1 f3
    · rename_i heq; simp at heq; exact absurd heq.1 f3
    · rename_i r' _ _ _ _ _ heq
      simp only [List.cons.injEq, true_and] at heq
      subst heq
      simp only [List.cons_append] at hns
      rw [hns]
      simp only [hloop]
      have hpush : nsPush ps (attrs.map (fun a => ⟨rawName (ps ++ own) a.name, a.value⟩) ++ own.map declAttr) = ps ++ own := by
        rw [nsPush_append, nsPush_decls, nsPush_plain]
        intro a hm
        simp only [List.mem_map] at hm
        obtain ⟨a', ha', rfl⟩ := hm
        obtain ⟨⟨_, _, p', l', hq', h1', h2', _⟩, _⟩ := ha a' ha'
        simp only [rawName_eq hq']
        exact ⟨h1', h2'⟩
      rw [hpush]
      have e4 := translate_elem hname
      rw [hraw] at e4 ⊢
      rw [e4]
      simp only [List.map_append, List.map_map]
      congr 4
      congr 1
      · congr 1
        conv => rhs; rw [← List.map_id attrs]
        apply List.map_congr_left
        intro a hm
        simp only [Function.comp, id]
        rw [translate_attr (ha a hm).1]
      · apply List.map_congr_left
        intro d hm
        simp only [Function.comp]
        rw [translate_decl]
    · rename_i heq
      exact absurd rfl (heq _)

/-- The end tag of a writable element. -/
theorem token_end {u : Unicode} {ps sc : Scope} {name : XName} (hn : ElemNameOk u sc name)
    (stack : List (XName × Scope)) (rest : Str) :
    token u ⟨endText name sc ++ rest, (rawName sc name, ps) :: stack, sc, none⟩ =
      some (.stop name, ⟨rest, stack, ps, none⟩) := by
  have hname := hn
  obtain ⟨p, l, hq, hp, hx, hr⟩ := hn
  have hinp : endText name sc ++ rest = 60 :: 47 :: (prefixOf sc name ++ 62 :: rest) := by simp [endText]
  rw [hinp]
  simp only [token]
  rw [nsname_append hq (by decide)]
  have : skipSpace (62 :: rest) = 62 :: rest := by simp [skipSpace]
  simp only [this, popElement]
  rw [← rawName_eq hq]
  simp only [ne_eq, not_true, if_false]
  rw [translate_elem hname]

/-! ### Plain Marshal output -/

theorem dropCommon_append (ps own : Scope) : dropCommon ps (ps ++ own) = own := by
  induction ps with
  | nil => cases own <;> simp [dropCommon]
  | cons p ps ih => simp [dropCommon, ih]

def plain : Encoder := ⟨[], [], false⟩

theorem encodeOpenTag_plain (name : XName) (attrs : List Attr) (sc : Scope) (content : Str)
    (kids : List Element) (ns : Scope) (depth : Nat) :
    encodeOpenTag plain name attrs sc content kids ns depth = startText name attrs sc content kids ns := by
  simp [encodeOpenTag, plain]

theorem encodeCloseTag_plain (name : XName) (sc : Scope) (kids : List Element) (depth : Nat) :
    encodeCloseTag plain name sc kids depth = endText name sc := by
  simp [encodeCloseTag, plain]

/-- The re-parsed tree: `acc` is the new scope of the parent, `ps` the old one. -/
inductive Re (srt : Sorter nsLess) : Scope → Scope → Element → Element → Prop
  | mk {acc ps own : Scope} {name : XName} {attrs : List Attr} {c c' : Str} {ks ks' : List Element} :
      (ks = [] → c = c') →
      ks.length = ks'.length →
      (∀ (i : Nat) (k k' : Element), ks[i]? = some k → ks'[i]? = some k' →
        Re srt (acc ++ srt.sort own) (ps ++ own) k k') →
      Re srt acc ps (.mk name attrs (ps ++ own) c ks) (.mk name attrs (acc ++ srt.sort own) c' ks')

/-- The tokenizer reads the node's bytes as its events, and is back in the same state after it. -/
def LexesTo (u : Unicode) (ps : Scope) (node : Node) : Prop :=
  ∀ (total off fuel : Nat) (stack : List (XName × Scope)) (rest : Str),
    total = off + node.bytes.length + rest.length →
    tokens u total (fuel + (node.events off).length) ⟨node.bytes ++ rest, stack, ps, none⟩ =
      node.events off ++ tokens u total fuel ⟨rest, stack, ps, none⟩

/-- The same for a list of nodes followed by markup. -/
def LexesL (u : Unicode) (ps : Scope) (ns : List Node) : Prop :=
  ∀ (total off fuel : Nat) (stack : List (XName × Scope)) (rest : Str),
    total = off + (bytesL ns).length + (60 :: rest).length →
    tokens u total (fuel + (eventsL off ns).length) ⟨bytesL ns ++ 60 :: rest, stack, ps, none⟩ =
      eventsL off ns ++ tokens u total fuel ⟨60 :: rest, stack, ps, none⟩

theorem lexesL_misc {u : Unicode} {ps : Scope} {pieces : List Str} (h : Misc u pieces) :
    LexesL u ps (pieces.map .text) := by
  induction h with
  | nil => intro total off fuel stack rest ht; simp [bytesL, eventsL]
  | @cons t ts h1 h2 h3 ih =>
    intro total off fuel stack rest ht
    simp only [List.map_cons, bytesL, eventsL, Node.bytes, Node.events, List.append_assoc, List.length_append,
      List.length_cons, List.length_nil, List.cons_append, List.nil_append] at *
    have hnext : ∃ r, bytesL (ts.map .text) ++ 60 :: rest = 60 :: r := by
      cases ts with
      | nil => exact ⟨rest, rfl⟩
      | cons t' ts' =>
        obtain ⟨r, hr⟩ := h2 t' (by simp)
        subst hr
        exact ⟨_, by simp [bytesL, Node.bytes]; rfl⟩
    obtain ⟨r, hr⟩ := hnext
    have hlen : (bytesL (ts.map .text)).length + (rest.length + 1) = r.length + 1 := by
      have := congrArg List.length hr
      simpa using this
    have := h1.2 stack ps r
    rw [← hr] at this
    have e : fuel + ((eventsL (off + t.length) (ts.map .text)).length + 1) =
        (fuel + (eventsL (off + t.length) (ts.map .text)).length) + 1 := by omega
    rw [e, tokens, this]
    simp only
    congr 1
    · congr 1; simp only [List.length_append, List.length_cons]; omega
    · exact ih total (off + t.length) fuel stack rest (by simp only [List.length_cons]; omega)
  | @markup t ts h1 h3 ih =>
    intro total off fuel stack rest ht
    simp only [List.map_cons, bytesL, eventsL, Node.bytes, Node.events, List.append_assoc, List.length_append,
      List.length_cons, List.length_nil, List.cons_append, List.nil_append] at *
    have := h1.2 stack ps (bytesL (ts.map .text) ++ 60 :: rest)
    have e : fuel + ((eventsL (off + t.length) (ts.map .text)).length + 1) =
        (fuel + (eventsL (off + t.length) (ts.map .text)).length) + 1 := by omega
    rw [e, tokens, this]
    simp only
    congr 1
    · congr 1; simp only [List.length_append, List.length_cons]; omega
    · exact ih total (off + t.length) fuel stack rest (by simp only [List.length_cons]; omega)

theorem lexesL_cons {u : Unicode} {ps : Scope} {n : Node} {ns : List Node}
    (h1 : LexesTo u ps n) (h2 : LexesL u ps ns) : LexesL u ps (n :: ns) := by
  intro total off fuel stack rest ht
  simp only [bytesL, eventsL, List.length_append, List.append_assoc] at *
  have e : fuel + ((n.events off).length + (eventsL (off + n.bytes.length) ns).length) =
      (fuel + (eventsL (off + n.bytes.length) ns).length) + (n.events off).length := by omega
  rw [e, h1 total off _ stack (bytesL ns ++ 60 :: rest) (by simp only [List.length_append, List.length_cons] at *; omega)]
  rw [h2 total (off + n.bytes.length) fuel stack rest (by omega)]

theorem denoteL_text (srt : Sorter nsLess) (sc : Scope) (pieces : List Str) :
    denoteL srt sc (pieces.map .text) = [] := by
  induction pieces with
  | nil => simp [denoteL]
  | cons t ts ih => simp [denoteL, denote, ih]

theorem bytesL_text (pieces : List Str) : bytesL (pieces.map .text) = pieces.flatten := by
  induction pieces with
  | nil => simp [bytesL]
  | cons t ts ih => simp [bytesL, Node.bytes, ih]

theorem heightL_text (pieces : List Str) : heightL (pieces.map .text) = 0 := by
  induction pieces with
  | nil => simp [heightL]
  | cons t ts ih => simp [heightL, Node.height, ih]

theorem misc_ne {u : Unicode} {pieces : List Str} (h : Misc u pieces) : ∀ t ∈ pieces, t ≠ [] := by
  induction h with
  | nil => simp
  | cons h1 _ _ ih => exact List.forall_mem_cons.mpr ⟨h1.1, ih⟩
  | markup h1 _ ih => exact List.forall_mem_cons.mpr ⟨h1.1, ih⟩

theorem events_text_le {u : Unicode} {pieces : List Str} (h : Misc u pieces) (off : Nat) :
    (eventsL off (pieces.map .text)).length ≤ 2 * pieces.flatten.length := by
  replace h := misc_ne h
  induction pieces generalizing off with
  | nil => simp [eventsL]
  | cons t ts ih =>
    have : 0 < t.length := by
      have := h t (by simp)
      cases t with
      | nil => exact absurd rfl this
      | cons x xs => simp
    have := ih (off + t.length) (fun t' ht => h t' (by simp [ht]))
    simp only [List.map_cons, eventsL, Node.events, Node.bytes, List.length_append, List.length_cons,
      List.length_nil, List.flatten_cons]
    omega

theorem nsDecls_written {u : Unicode} {sc own : Scope} {attrs : List Attr}
    (ha : ∀ a ∈ attrs, AttrNameOk u sc a.name ∧ ValueOk u a.value) :
    nsDecls (attrs ++ own.map declAttr) = own ∧ nonNsAttrs (attrs ++ own.map declAttr) = attrs := by
  rw [nsDecls_eq, nonNsAttrs_eq]
  have h1 : ∀ a ∈ attrs, isNsAttr a = false := by
    intro a hm
    obtain ⟨⟨n1, n2, _⟩, _⟩ := ha a hm
    simp [isNsAttr, n1, n2]
  have h2 : ∀ d : XName, isNsAttr (declAttr d) = true := by
    intro d; unfold declAttr isNsAttr
    by_cases hl : d.loc = [] <;> simp [hl]
  have h3 : ∀ d : XName, declOf (declAttr d) = d := by
    intro d; unfold declAttr declOf
    obtain ⟨sp, lo⟩ := d
    by_cases hl : lo = [] <;> simp [hl]
  constructor
  · rw [List.filter_append, List.filter_eq_nil_iff.mpr (by intro a hm; simp [h1 a hm])]
    rw [List.filter_eq_self.mpr (by intro a hm; obtain ⟨d, _, rfl⟩ := List.mem_map.mp hm; exact h2 d)]
    simp only [List.nil_append, List.map_map]
    conv => rhs; rw [← List.map_id own]
    apply List.map_congr_left
    intro d _; exact h3 d
  · rw [List.filter_append, List.filter_eq_self.mpr (by intro a hm; simp [h1 a hm])]
    rw [List.filter_eq_nil_iff.mpr (by intro a hm; obtain ⟨d, _, rfl⟩ := List.mem_map.mp hm; simp [h2 d])]
    simp

theorem startText_length (name : XName) (attrs : List Attr) (sc : Scope) (content : Str) (kids : List Element)
    (ns : List XName) : 2 ≤ (startText name attrs sc content kids ns).length := by
  unfold startText
  split <;> simp <;> omega

mutual
/-- What is inside the tags of a written element: its content if it has no children, otherwise the
children and nothing between them. -/
inductive Shape (u : Unicode) : Element → Node → Prop
  | leaf {name : XName} {attrs as : List Attr} {sc : Scope} {pieces : List Str} {o c : Str} :
      Misc u pieces → Shape u (.mk name attrs sc pieces.flatten []) (.elem o name as (pieces.map .text) c)
  | node {name : XName} {attrs as : List Attr} {sc : Scope} {content : Str} {k : Element} {ks : List Element}
      {ns : List Node} {o c : Str} :
      ShapeL u (k :: ks) ns → Shape u (.mk name attrs sc content (k :: ks)) (.elem o name as ns c)
inductive ShapeL (u : Unicode) : List Element → List Node → Prop
  | nil : ShapeL u [] []
  | cons {k : Element} {ks : List Element} {n : Node} {ns : List Node} :
      Shape u k n → ShapeL u ks ns → ShapeL u (k :: ks) (n :: ns)
end

/-- Everything the round trip needs about one written element. -/
structure Written (u : Unicode) (srt : Sorter nsLess) (ps : Scope) (parent : Option Scope) (depth : Nat)
    (el : Element) (o : Str) (as : List Attr) (kids : List Node) (c : Str) : Prop where
  bytes : (Node.elem o el.name as kids c).bytes = encodeEl plain parent depth el
  lexes : LexesTo u ps (.elem o el.name as kids c)
  height : (Node.elem o el.name as kids c).height = el.height
  count : ∀ off, ((Node.elem o el.name as kids c).events off).length ≤ 2 * (Node.elem o el.name as kids c).bytes.length
  re : ∀ acc, ∃ el', denote srt acc (.elem o el.name as kids c) = [el'] ∧ Re srt acc ps el el'
  shape : Shape u el (.elem o el.name as kids c)

structure WrittenL (u : Unicode) (srt : Sorter nsLess) (ps : Scope) (depth : Nat)
    (els : List Element) (ns : List Node) : Prop where
  bytes : bytesL ns = encodeKids plain ps depth els
  lexes : LexesL u ps ns
  height : heightL ns = elHeightL els
  count : ∀ off, (eventsL off ns).length ≤ 2 * (bytesL ns).length
  re : ∀ acc, ∃ els', denoteL srt acc ns = els' ∧ els.length = els'.length ∧
    ∀ (i : Nat) (k k' : Element), els[i]? = some k → els'[i]? = some k' → Re srt acc ps k k'
  shape : ShapeL u els ns

theorem events_length_elem (off : Nat) (o : Str) (n : XName) (as : List Attr) (ks : List Node) (c : Str) :
    ((Node.elem o n as ks c).events off).length = (eventsL (off + o.length) ks).length + 2 := by
  simp [Node.events]

mutual
theorem written_el (u : Unicode) (srt : Sorter nsLess) {ps : Scope} (parent : Option Scope) (depth : Nat)
    (hpar : ∀ own, diffScope parent (ps ++ own) = own) (el : Element) (hw : Wf u ps el)
    (hdep : depth + el.height ≤ recursionLimit + 1) :
    ∃ o as kids c, Written u srt ps parent depth el o as kids c := by
  match el, hw with
  | .mk name attrs _ _ [], .leaf (own := own) (pieces := pieces) h1 h2 h3 h4 =>
    have hdl : ¬ depth > recursionLimit := by simp [Element.height] at hdep; omega
    obtain ⟨d1, d2⟩ := nsDecls_written (own := own) h3
    by_cases hc : pieces.flatten = []
    · -- self-closing
      have hp : pieces = [] := by
        cases h4 with
        | nil => rfl
        | cons a b c => exact absurd (List.append_eq_nil_iff.mp hc).1 a.1
        | markup a b => exact absurd (List.append_eq_nil_iff.mp hc).1 a.1
      subst hp
      refine ⟨startText name attrs (ps ++ own) [] [] own, attrs ++ own.map declAttr, [], [], ?_, ?_, ?_, ?_, ?_, .leaf h4⟩
      · simp [Node.bytes, bytesL, encodeEl, hdl, hpar, encodeOpenTag_plain]
      · intro total off fuel stack rest ht
        rw [events_length_elem]
        simp only [eventsL, List.length_nil, Nat.zero_add]
        have hts := token_start h1 h2 h3 stack rest true
        have hst : startText name attrs (ps ++ own) [] [] own ++ rest =
            b!"<" ++ prefixOf (ps ++ own) name ++ attrsText (ps ++ own) attrs ++ nsText own ++
              (if true then b!" />" else b!">") ++ rest := by simp [startText]
        simp only [Node.bytes, bytesL, List.append_nil] at ht ⊢
        rw [hst, tokens, hts]
        simp only [if_true, tokens, token, popElement, ne_eq, not_true, if_false]
        rw [translate_elem h2]
        have hoff : total - rest.length = off + (startText name attrs (ps ++ own) [] [] own).length := by omega
        simp only [hoff]
        simp [Node.events, eventsL, bytesL, Element.name]
      · simp [Node.height, heightL, Element.height, elHeightL]
      · intro off
        rw [events_length_elem]
        have := startText_length name attrs (ps ++ own) [] [] own
        simp [eventsL, Node.bytes, bytesL]; omega
      · intro acc
        refine ⟨_, rfl, ?_⟩
        rw [d1, d2]
        simp only [denoteL, bytesL, Element.name]
        exact Re.mk (fun _ => by simpa using hc) rfl (by simp)
    · refine ⟨startText name attrs (ps ++ own) pieces.flatten [] own, attrs ++ own.map declAttr,
        pieces.map .text, endText name (ps ++ own), ?_, ?_, ?_, ?_, ?_, .leaf h4⟩
      · have hc' : pieces.flatten.isEmpty = false := by simpa using hc
        simp only [Node.bytes, bytesL_text, encodeEl, if_neg hdl, hpar, encodeOpenTag_plain, encodeCloseTag_plain,
          List.isEmpty_nil, if_true, hc', Bool.false_eq_true, if_false, List.append_assoc]
      · intro total off fuel stack rest ht
        rw [events_length_elem]
        have hts := token_start h1 h2 h3 stack (pieces.flatten ++ endText name (ps ++ own) ++ rest) false
        have hc' : pieces.flatten.isEmpty = false := by simpa using hc
        have hst : startText name attrs (ps ++ own) pieces.flatten [] own ++ (pieces.flatten ++ endText name (ps ++ own) ++ rest) =
            b!"<" ++ prefixOf (ps ++ own) name ++ attrsText (ps ++ own) attrs ++ nsText own ++
              (if false then b!" />" else b!">") ++ (pieces.flatten ++ endText name (ps ++ own) ++ rest) := by
          simp only [startText, hc', List.isEmpty_nil, Bool.and_false, Bool.false_eq_true, if_false]
        simp only [Node.bytes, bytesL_text] at ht ⊢
        have e1 : startText name attrs (ps ++ own) pieces.flatten [] own ++ pieces.flatten ++ endText name (ps ++ own) ++ rest =
          startText name attrs (ps ++ own) pieces.flatten [] own ++ (pieces.flatten ++ endText name (ps ++ own) ++ rest) := by simp
        generalize hS : startText name attrs (ps ++ own) pieces.flatten [] own = S at *
        generalize hE : (eventsL (off + S.length) (pieces.map .text)).length = E at *
        have e2 : fuel + (E + 2) = (fuel + 1 + E) + 1 := by omega
        rw [e1, hst, e2, tokens, hts]
        simp only [Bool.false_eq_true, if_false]
        obtain ⟨r, hr⟩ : ∃ r, endText name (ps ++ own) ++ rest = 60 :: r := ⟨_, by simp [endText]; rfl⟩
        have hrlen : (endText name (ps ++ own)).length + rest.length = r.length + 1 := by
          have := congrArg List.length hr
          simpa using this
        have hmisc := lexesL_misc (ps := ps ++ own) h4 total (off + S.length) (fuel + 1)
          ((rawName (ps ++ own) name, ps) :: stack) r (by
            rw [bytesL_text]; simp only [List.length_append, List.length_cons] at *; omega)
        rw [bytesL_text, hE] at hmisc
        rw [List.append_assoc pieces.flatten, hr, hmisc, ← hr, tokens, token_end h2]
        simp only [Node.events, bytesL_text, List.cons_append, List.append_assoc, List.nil_append, Element.name]
        have o1 : total - (pieces.flatten ++ (endText name (ps ++ own) ++ rest)).length = off + S.length := by
          simp only [List.length_append] at *; omega
        have o2 : total - rest.length = off + S.length + pieces.flatten.length + (endText name (ps ++ own)).length := by
          simp only [List.length_append] at *; omega
        rw [o1, o2]
      · simp [Node.height, heightL_text, Element.height, elHeightL]
      · intro off
        rw [events_length_elem]
        have := startText_length name attrs (ps ++ own) pieces.flatten [] own
        have := events_text_le h4 (off + (startText name attrs (ps ++ own) pieces.flatten [] own).length)
        simp only [Node.bytes, bytesL_text, List.length_append]; omega
      · intro acc
        refine ⟨_, rfl, ?_⟩
        rw [d1, d2, denoteL_text, bytesL_text]
        exact Re.mk (fun _ => rfl) rfl (by simp)
  | .mk name attrs _ content (k :: ks), .node (own := own) h1 h2 h3 h4 =>
    have hdl : ¬ depth > recursionLimit := by simp [Element.height] at hdep; omega
    obtain ⟨d1, d2⟩ := nsDecls_written (own := own) h3
    obtain ⟨ns, hk⟩ := written_els u srt (depth + 1) (k :: ks) h4 (by
      simp only [Element.height] at hdep; omega)
    refine ⟨startText name attrs (ps ++ own) content (k :: ks) own, attrs ++ own.map declAttr,
        ns, endText name (ps ++ own), ?_, ?_, ?_, ?_, ?_, .node hk.shape⟩
    · simp only [Node.bytes, encodeEl, if_neg hdl, hpar, encodeOpenTag_plain, encodeCloseTag_plain,
        List.isEmpty_cons, Bool.false_eq_true, if_false, List.append_assoc, hk.bytes]
    · intro total off fuel stack rest ht
      rw [events_length_elem]
      have hts := token_start h1 h2 h3 stack (bytesL ns ++ endText name (ps ++ own) ++ rest) false
      have hst : startText name attrs (ps ++ own) content (k :: ks) own ++ (bytesL ns ++ endText name (ps ++ own) ++ rest) =
          b!"<" ++ prefixOf (ps ++ own) name ++ attrsText (ps ++ own) attrs ++ nsText own ++
            (if false then b!" />" else b!">") ++ (bytesL ns ++ endText name (ps ++ own) ++ rest) := by
        simp only [startText, List.isEmpty_cons, Bool.false_and, Bool.false_eq_true, if_false]
      simp only [Node.bytes] at ht ⊢
      have e1 : startText name attrs (ps ++ own) content (k :: ks) own ++ bytesL ns ++ endText name (ps ++ own) ++ rest =
        startText name attrs (ps ++ own) content (k :: ks) own ++ (bytesL ns ++ endText name (ps ++ own) ++ rest) := by simp
      generalize hS : startText name attrs (ps ++ own) content (k :: ks) own = S at *
      generalize hE : (eventsL (off + S.length) ns).length = E at *
      have e2 : fuel + (E + 2) = (fuel + 1 + E) + 1 := by omega
      rw [e1, hst, e2, tokens, hts]
      simp only [Bool.false_eq_true, if_false]
      obtain ⟨r, hr⟩ : ∃ r, endText name (ps ++ own) ++ rest = 60 :: r := ⟨_, by simp [endText]; rfl⟩
      have hrlen : (endText name (ps ++ own)).length + rest.length = r.length + 1 := by
        have := congrArg List.length hr
        simpa using this
      have hmisc := hk.lexes total (off + S.length) (fuel + 1)
        ((rawName (ps ++ own) name, ps) :: stack) r (by
          simp only [List.length_append, List.length_cons] at *; omega)
      rw [hE] at hmisc
      rw [List.append_assoc (bytesL ns), hr, hmisc, ← hr, tokens, token_end h2]
      simp only [Node.events, List.cons_append, List.append_assoc, List.nil_append, Element.name]
      have o1 : total - (bytesL ns ++ (endText name (ps ++ own) ++ rest)).length = off + S.length := by
        simp only [List.length_append] at *; omega
      have o2 : total - rest.length = off + S.length + (bytesL ns).length + (endText name (ps ++ own)).length := by
        simp only [List.length_append] at *; omega
      rw [o1, o2]
    · simp only [Node.height, Element.height, hk.height]
    · intro off
      rw [events_length_elem]
      have := startText_length name attrs (ps ++ own) content (k :: ks) own
      have := hk.count (off + (startText name attrs (ps ++ own) content (k :: ks) own).length)
      simp only [Node.bytes, List.length_append]; omega
    · intro acc
      refine ⟨_, rfl, ?_⟩
      rw [d1, d2]
      obtain ⟨els', r1, r2, r3⟩ := hk.re (acc ++ srt.sort own)
      rw [r1]
      exact Re.mk (by simp) r2 r3
termination_by sizeOf el
theorem written_els (u : Unicode) (srt : Sorter nsLess) {ps : Scope} (depth : Nat)
    (els : List Element) (hw : WfL u ps els)
    (hdep : depth + elHeightL els ≤ recursionLimit + 1) :
    ∃ ns, WrittenL u srt ps depth els ns := by
  match els, hw with
  | [], _ =>
    refine ⟨[], ?_, ?_, ?_, ?_, ?_, .nil⟩
    · simp [bytesL, encodeKids]
    · intro total off fuel stack rest ht; simp [bytesL, eventsL]
    · simp [heightL, elHeightL]
    · simp [eventsL]
    · intro acc; exact ⟨[], by simp [denoteL], rfl, by simp⟩
  | k :: ks, .cons h1 h2 =>
    simp only [elHeightL] at hdep
    obtain ⟨o, as, kids, c, hk⟩ := written_el u srt (some ps) depth (fun own => dropCommon_append ps own) k h1 (by
      have := Nat.le_max_left k.height (elHeightL ks); omega)
    obtain ⟨ns, hks⟩ := written_els u srt depth ks h2 (by
      have := Nat.le_max_right k.height (elHeightL ks); omega)
    refine ⟨.elem o k.name as kids c :: ns, ?_, ?_, ?_, ?_, ?_, .cons hk.shape hks.shape⟩
    · rw [bytesL, encodeKids, hk.bytes, hks.bytes]
    · exact lexesL_cons hk.lexes hks.lexes
    · rw [heightL, elHeightL, hk.height, hks.height]
    · intro off
      have := hk.count off
      have := hks.count (off + (Node.elem o k.name as kids c).bytes.length)
      simp only [eventsL, bytesL, List.length_append]; omega
    · intro acc
      obtain ⟨el', e1, e2⟩ := hk.re acc
      obtain ⟨els', f1, f2, f3⟩ := hks.re acc
      refine ⟨el' :: els', by rw [denoteL, e1, f1]; rfl, by simp [f2], ?_⟩
      intro i x x' hx hx'
      cases i with
      | zero => simp at hx hx'; subst hx; subst hx'; exact e2
      | succ i => simp at hx hx'; exact f3 i x x' hx hx'
termination_by sizeOf els
end

/-- The tokenizer on the output of `Marshal`. -/
theorem lex_marshal (u : Unicode) (srt : Sorter nsLess) (el : Element) (hw : Wf u [] el)
    (hh : el.height ≤ recursionLimit + 1) :
    ∃ o as kids c more, marshal el = (Node.elem o el.name as kids c).bytes ∧
      Lex.lex u (marshal el) = (Node.elem o el.name as kids c).events 0 ++ more ∧
      Shape u el (.elem o el.name as kids c) := by
  obtain ⟨o, as, kids, c, hk⟩ := written_el u srt none 0 (fun own => by simp [diffScope]) el hw (by omega)
  have hb : marshal el = (Node.elem o el.name as kids c).bytes := hk.bytes.symm
  have hcount := hk.count 0
  rw [← hb] at hcount
  obtain ⟨fuel, hf⟩ : ∃ fuel, 2 * (marshal el).length + 1 = fuel + ((Node.elem o el.name as kids c).events 0).length :=
    ⟨2 * (marshal el).length + 1 - ((Node.elem o el.name as kids c).events 0).length, by omega⟩
  have := hk.lexes (marshal el).length 0 fuel [] [] (by rw [hb]; simp)
  rw [← hb, List.append_nil] at this
  refine ⟨o, as, kids, c, tokens u (marshal el).length fuel ⟨[], [], [], none⟩, hb, ?_, hk.shape⟩
  rw [Lex.lex, hf, this]

/-- The tokenizer and parser on the output of `Marshal`. -/
theorem parse_marshal (u : Unicode) (srt : Sorter nsLess) (el : Element) (hw : Wf u [] el)
    (hh : el.height ≤ recursionLimit + 1) :
    ∃ el', parse u srt (marshal el) = .ok el' ∧ Re srt [] [] el el' := by
  obtain ⟨o, as, kids, c, hk⟩ := written_el u srt none 0 (fun own => by simp [diffScope]) el hw (by omega)
  have hb : marshal el = (Node.elem o el.name as kids c).bytes := hk.bytes.symm
  have hd : (⟨[], o, el.name, as, kids, c⟩ : Doc).root = .elem o el.name as kids c := rfl
  have hdb : (⟨[], o, el.name, as, kids, c⟩ : Doc).bytes = marshal el := by
    rw [hb]; simp [Doc.bytes, Doc.nodes, bytesL, hd]
  have hde : (⟨[], o, el.name, as, kids, c⟩ : Doc).events = (Node.elem o el.name as kids c).events 0 := by
    simp [Doc.events, Doc.nodes, eventsL, hd]
  have hlex : ∃ more, Lex.lex u (marshal el) = (Node.elem o el.name as kids c).events 0 ++ more := by
    unfold Lex.lex
    have hcount := hk.count 0
    rw [← hb] at hcount
    obtain ⟨fuel, hf⟩ : ∃ fuel, 2 * (marshal el).length + 1 = fuel + ((Node.elem o el.name as kids c).events 0).length :=
      ⟨2 * (marshal el).length + 1 - ((Node.elem o el.name as kids c).events 0).length, by omega⟩
    have := hk.lexes (marshal el).length 0 fuel [] [] (by rw [hb]; simp)
    rw [← hb, List.append_nil] at this
    rw [hf, this]
    exact ⟨_, rfl⟩
  obtain ⟨more, hm⟩ := hlex
  have hp := (parseDoc_spec srt ⟨[], o, el.name, as, kids, c⟩ more []).1 (by rw [hd, hk.height]; exact hh)
  rw [hdb, hde, List.append_nil] at hp
  obtain ⟨el', r1, r2⟩ := hk.re []
  refine ⟨el', ?_, r2⟩
  rw [parse, hm, hp]
  simp only [denote, List.nil_append, List.cons.injEq, and_true] at r1
  rw [← r1]

end GoXml
