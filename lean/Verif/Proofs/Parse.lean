import Verif.Spec.Doc
import Verif.Proofs.Sort

/-! Helper lemmas for `Parse`. -/

namespace GoXml

mutual
/-- The elements a piece of a document stands for, given the scope around it. -/
def denote (srt : Sorter nsLess) (sc : Scope) : Node → List Element
  | .text _ => []
  | .elem _ n as ks _ =>
    [.mk n (nonNsAttrs as) (sc ++ srt.sort (nsDecls as)) (bytesL ks)
      (denoteL srt (sc ++ srt.sort (nsDecls as)) ks)]
def denoteL (srt : Sorter nsLess) (sc : Scope) : List Node → List Element
  | [] => []
  | n :: ns => denote srt sc n ++ denoteL srt sc ns
end

theorem pushNS_eq (srt : Sorter nsLess) (sc : Scope) (as : List Attr) :
    pushNS srt sc as = (sc ++ srt.sort (nsDecls as), nonNsAttrs as) := by
  unfold pushNS
  simp only
  split
  · rfl
  · rename_i h
    have : srt.sort (nsDecls as) = [] := List.eq_nil_of_length_eq_zero (by omega)
    simp [this]

theorem slice_mid (pre mid post : Str) :
    slice (pre ++ mid ++ post) pre.length (pre.length + mid.length) = mid := by
  unfold slice
  simp [List.append_assoc]

theorem eventsL_length_pos (off : Nat) (n : Node) : 0 < (n.events off).length := by
  cases n <;> simp [Node.events]

/-- Parsing a list of well-nested pieces: within the depth limit the loop arrives after them with
their denotation appended; beyond it, it fails. -/
theorem parseLoop_kids (srt : Sorter nsLess) (data : Str) (ns : List Node) :
    ∀ (f depth : Nat) (name : XName) (attrs : List Attr) (sc : Scope) (kids : List Element)
      (b off : Nat) (rest : List (Tok × Nat)) (pre post : Str),
      data = pre ++ bytesL ns ++ post → pre.length = off →
      (eventsL off ns).length + rest.length < f →
      (depth + heightL ns ≤ recursionLimit → ∃ f', rest.length < f' ∧
        parseLoop srt data f depth name attrs sc kids b off (eventsL off ns ++ rest) =
        parseLoop srt data f' depth name attrs sc (kids ++ denoteL srt sc ns) b (off + (bytesL ns).length) rest) ∧
      (¬ (depth + heightL ns ≤ recursionLimit) →
        depth ≤ recursionLimit →
        parseLoop srt data f depth name attrs sc kids b off (eventsL off ns ++ rest) = .error .deep) := by
  intro f depth name attrs sc kids b off rest pre post hd hp hf
  match ns with
  | [] =>
    simp only [eventsL, denoteL, bytesL, heightL, List.nil_append, List.append_nil, List.length_nil] at *
    refine ⟨fun _ => ⟨f, by omega, rfl⟩, fun h h' => absurd h' h⟩
  | .text t :: ns =>
    simp only [eventsL, Node.events, bytesL, Node.bytes, heightL, Node.height] at *
    simp only [List.cons_append, List.nil_append, List.length_cons, List.append_assoc] at *
    cases f with
    | zero => omega
    | succ f =>
      have hdata : data = (pre ++ t) ++ bytesL ns ++ post := by rw [hd]; simp
      obtain ⟨ih1, ih2⟩ := parseLoop_kids srt data ns f depth name attrs sc kids b
        (off + t.length) rest (pre ++ t) post hdata (by simp [hp]) (by omega)
      simp only [Nat.zero_max]
      constructor
      · intro h
        obtain ⟨f', hf', e⟩ := ih1 h
        refine ⟨f', hf', ?_⟩
        simp only [parseLoop]
        rw [e]
        simp only [denoteL, denote, List.nil_append, List.length_append]
        rw [Nat.add_assoc]
      · intro h h'
        simp only [parseLoop]
        exact ih2 h h'
  | .elem o n as ks c :: ns =>
    simp only [eventsL, Node.events, bytesL, Node.bytes, heightL, Node.height] at *
    simp only [List.cons_append, List.length_cons, List.length_append, List.append_assoc,
      List.length_nil, List.nil_append] at *
    cases f with
    | zero => omega
    | succ f =>
      simp only [parseLoop]
      by_cases hlim : depth + 1 > recursionLimit
      · rw [if_pos hlim]
        refine ⟨fun h => ?_, fun _ _ => rfl⟩
        exfalso
        have := Nat.le_max_left (heightL ks + 1) (heightL ns)
        omega
      · rw [if_neg hlim, pushNS_eq]
        simp only
        have hdata : data = (pre ++ o) ++ bytesL ks ++ (c ++ (bytesL ns ++ post)) := by
          rw [hd]; simp
        obtain ⟨ih1, ih2⟩ := parseLoop_kids srt data ks f (depth + 1) n (nonNsAttrs as)
          (sc ++ srt.sort (nsDecls as)) [] (off + o.length) (off + o.length)
          ((.stop n, off + (o.length + ((bytesL ks).length + c.length))) ::
            (eventsL (off + (o.length + ((bytesL ks).length + c.length))) ns ++ rest))
          (pre ++ o) (c ++ (bytesL ns ++ post)) hdata (by simp [hp])
          (by simp only [List.length_cons, List.length_append]; omega)
        have hoff : off + o.length + (bytesL ks).length + c.length =
            off + (o.length + ((bytesL ks).length + c.length)) := by omega
        rw [hoff]
        by_cases hk : depth + 1 + heightL ks ≤ recursionLimit
        · obtain ⟨f1, hf1, e1⟩ := ih1 hk
          rw [e1]
          have hdata2 : data = (pre ++ o ++ bytesL ks ++ c) ++ bytesL ns ++ post := by
            rw [hd]; simp
          obtain ⟨jh1, jh2⟩ := parseLoop_kids srt data ns f depth name attrs sc
            (kids ++ [.mk n (nonNsAttrs as) (sc ++ srt.sort (nsDecls as)) (bytesL ks)
              (denoteL srt (sc ++ srt.sort (nsDecls as)) ks)]) b
            (off + (o.length + ((bytesL ks).length + c.length))) rest (pre ++ o ++ bytesL ks ++ c) post hdata2
            (by simp [hp, Nat.add_assoc]) (by omega)
          have hsl : slice data (off + o.length) (off + o.length + (bytesL ks).length) = bytesL ks := by
            have := slice_mid (pre ++ o) (bytesL ks) (c ++ (bytesL ns ++ post))
            rw [← hdata] at this
            simpa [hp] using this
          cases f1 with
          | zero => omega
          | succ f1 =>
            simp only [parseLoop, ne_eq, not_true, if_false, List.nil_append]
            rw [hsl]
            constructor
            · intro h
              obtain ⟨f', hf', e⟩ := jh1 (by
                have := Nat.le_max_right (heightL ks + 1) (heightL ns)
                omega)
              refine ⟨f', hf', ?_⟩
              rw [e]
              simp only [denoteL, denote, List.append_assoc, Nat.add_assoc]
            · intro h h'
              apply jh2 _ h'
              intro h2
              apply h
              have : max (heightL ks + 1) (heightL ns) = heightL ks + 1 ∨
                  max (heightL ks + 1) (heightL ns) = heightL ns := by omega
              omega
        · rw [ih2 hk (by omega)]
          refine ⟨fun h => ?_, fun _ _ => rfl⟩
          exfalso
          have := Nat.le_max_left (heightL ks + 1) (heightL ns)
          omega
termination_by sizeOf ns

theorem findRoot_prolog (ps : List Str) (off : Nat) (rest : List (Tok × Nat)) :
    findRoot (eventsL off (ps.map .text) ++ rest) = findRoot rest := by
  induction ps generalizing off with
  | nil => simp [eventsL]
  | cons p ps ih =>
    simp only [List.map_cons, eventsL, Node.events, List.append_assoc, List.singleton_append, findRoot]
    exact ih _

theorem eventsL_append (off : Nat) (a b : List Node) :
    eventsL off (a ++ b) = eventsL off a ++ eventsL (off + (bytesL a).length) b := by
  induction a generalizing off with
  | nil => simp [eventsL, bytesL]
  | cons n ns ih => simp [eventsL, bytesL, ih, Nat.add_assoc]

theorem bytesL_append (a b : List Node) : bytesL (a ++ b) = bytesL a ++ bytesL b := by
  induction a with
  | nil => simp [bytesL]
  | cons n ns ih => simp [bytesL, ih]

/-- `Parse` on a document, within and beyond the nesting limit. -/
theorem parseDoc_spec (srt : Sorter nsLess) (d : Doc) (trailing : List (Tok × Nat)) (more : Str) :
    (d.root.height ≤ recursionLimit + 1 →
      parseDoc srt (d.bytes ++ more) (d.events ++ trailing) =
        .ok (.mk d.name (nonNsAttrs d.attrs) (srt.sort (nsDecls d.attrs)) (bytesL d.kids)
          (denoteL srt (srt.sort (nsDecls d.attrs)) d.kids))) ∧
    (d.root.height > recursionLimit + 1 →
      parseDoc srt (d.bytes ++ more) (d.events ++ trailing) = .error .deep) := by
  unfold parseDoc
  have hev : findRoot (d.events ++ trailing) =
      some (d.name, d.attrs, (bytesL (d.prolog.map .text)).length + d.openTag.length,
        eventsL ((bytesL (d.prolog.map .text)).length + d.openTag.length) d.kids ++
          ((.stop d.name, (bytesL (d.prolog.map .text)).length + d.openTag.length + (bytesL d.kids).length + d.closeTag.length) :: trailing)) := by
    unfold Doc.events Doc.nodes
    rw [eventsL_append, List.append_assoc, findRoot_prolog]
    simp [eventsL, Doc.root, Node.events, findRoot]
  rw [hev]
  simp only [pushNS_eq, List.nil_append]
  have hb : d.bytes ++ more = (bytesL (d.prolog.map .text) ++ d.openTag) ++ bytesL d.kids ++ (d.closeTag ++ more) := by
    simp [Doc.bytes, Doc.nodes, bytesL_append, Doc.root, bytesL, Node.bytes]
  rw [hb]
  obtain ⟨h1, h2⟩ := parseLoop_kids srt _ d.kids
    ((eventsL ((bytesL (d.prolog.map .text)).length + d.openTag.length) d.kids ++
          ((.stop d.name, (bytesL (d.prolog.map .text)).length + d.openTag.length + (bytesL d.kids).length + d.closeTag.length) :: trailing)).length + 1)
    0 d.name (nonNsAttrs d.attrs) (srt.sort (nsDecls d.attrs)) []
    ((bytesL (d.prolog.map .text)).length + d.openTag.length)
    ((bytesL (d.prolog.map .text)).length + d.openTag.length)
    ((.stop d.name, (bytesL (d.prolog.map .text)).length + d.openTag.length + (bytesL d.kids).length + d.closeTag.length) :: trailing)
    (bytesL (d.prolog.map .text) ++ d.openTag) (d.closeTag ++ more) rfl (by simp) (by simp)
  have hh : d.root.height = heightL d.kids + 1 := by simp [Doc.root, Node.height]
  constructor
  · intro h
    obtain ⟨f', hf', e⟩ := h1 (by omega)
    rw [e]
    cases f' with
    | zero => omega
    | succ f' =>
      simp only [parseLoop, ne_eq, not_true, if_false, List.nil_append]
      have hsl := slice_mid (bytesL (d.prolog.map .text) ++ d.openTag) (bytesL d.kids) (d.closeTag ++ more)
      simp only [List.length_append] at hsl
      rw [hsl]
  · intro h
    rw [h2 (by omega) (by omega)]

end GoXml

namespace GoXml

theorem nsDecls_eq (as : List Attr) : nsDecls as = (as.filter isNsAttr).map declOf := by
  induction as with
  | nil => rfl
  | cons a as ih =>
    rw [nsDecls]
    split
    · rename_i h; simp [isNsAttr, declOf, h, ih]
    · rename_i h
      split
      · rename_i h2
        simp [isNsAttr, declOf, h2, ih]
        intro h3; exact absurd h3 h
      · rename_i h2; simp [isNsAttr, h, h2, ih]

theorem nonNsAttrs_eq (as : List Attr) : nonNsAttrs as = as.filter (fun a => !isNsAttr a) := by
  induction as with
  | nil => rfl
  | cons a as ih =>
    rw [nonNsAttrs]
    split
    · rename_i h; simp [isNsAttr, h, ih]
    · rename_i h
      split
      · rename_i h2; simp [isNsAttr, h2, ih]
      · rename_i h2; simp [isNsAttr, h, h2, ih]

mutual
theorem denote_mirrors (srt : Sorter nsLess) (sc : Scope) (o : Str) (n : XName) (as : List Attr) (ks : List Node) (c : Str) :
    ∃ e, denote srt sc (.elem o n as ks c) = [e] ∧ Mirrors sc (.elem o n as ks c) e := by
  refine ⟨_, rfl, ?_⟩
  rw [nonNsAttrs_eq]
  refine Mirrors.elem ?_ (denoteL_mirrors srt _ ks)
  rw [← nsDecls_eq]; exact srt.perm _
termination_by sizeOf ks + 1
theorem denoteL_mirrors (srt : Sorter nsLess) (sc : Scope) (ns : List Node) :
    MirrorsL sc ns (denoteL srt sc ns) := by
  match ns with
  | [] => simp only [denoteL]; exact MirrorsL.nil
  | .text b :: ns =>
    simp only [denoteL, denote, List.nil_append]
    exact MirrorsL.text (denoteL_mirrors srt sc ns)
  | .elem o n as ks c :: ns =>
    obtain ⟨e, h1, h2⟩ := denote_mirrors srt sc o n as ks c
    simp only [denoteL]
    rw [h1]
    exact MirrorsL.elem h2 (denoteL_mirrors srt sc ns)
termination_by sizeOf ns
decreasing_by all_goals (simp_wf; omega)
end

/-- What `Mirrors` says about the element at a position. -/
structure FoundOk (data : Str) (sc : Scope) (f : Found) (e : Element) : Prop where
  content : ∃ o n as ks c pre post, f.node = .elem o n as ks c ∧
    data = pre ++ (o ++ e.content ++ c) ++ post ∧ pre.length = f.off ∧ e.content = bytesL ks ∧
    e.name = n ∧ e.attrs = as.filter (fun a => !isNsAttr a) ∧ f.chain.getLast? = some as
  scope : ∃ owns : List Scope, e.scope = sc ++ owns.flatten ∧ owns.length = f.chain.length ∧
    ∀ (i : Nat) (own : Scope) (as : List Attr), owns[i]? = some own → f.chain[i]? = some as → own.Perm ((as.filter isNsAttr).map declOf)

mutual
theorem mirrors_find (data : Str) (sc : Scope) (o : Str) (n : XName) (as : List Attr) (ks : List Node) (c : Str)
    (e : Element) (h : Mirrors sc (.elem o n as ks c) e) (off : Nat) (pre post : Str)
    (hd : data = pre ++ (o ++ bytesL ks ++ c) ++ post) (hp : pre.length = off) (p : List Nat) :
    (e.at? p = none ∧ (Node.elem o n as ks c).find? off p = none) ∨
    ∃ e' f, e.at? p = some e' ∧ (Node.elem o n as ks c).find? off p = some f ∧ FoundOk data sc f e' := by
  cases h with
  | elem hperm hk =>
    rename_i own cs
    cases p with
    | nil =>
      right
      refine ⟨_, _, rfl, by rw [Node.find?], ?_, ?_⟩
      · exact ⟨o, n, as, ks, c, pre, post, rfl, hd, hp, rfl, rfl, rfl, rfl⟩
      · refine ⟨[own], by simp [Element.scope], rfl, ?_⟩
        intro i own' as' h1 h2
        cases i with
        | zero => simp at h1 h2; subst h1; subst h2; exact hperm
        | succ i => simp at h1
    | cons i p =>
      have hd2 : data = (pre ++ o) ++ bytesL ks ++ (c ++ post) := by rw [hd]; simp
      have := mirrorsL_find data _ ks cs hk (off + o.length) (pre ++ o) (c ++ post) hd2 (by simp [hp]) i p
      rcases this with ⟨h1, h2⟩ | ⟨e', f, h1, h2, h3⟩
      · left
        refine ⟨?_, by rw [Node.find?, h2]; rfl⟩
        simp only [Element.at?, Element.children]
        cases hi : cs[i]? with
        | none => rfl
        | some ch => rw [hi] at h1; simpa using h1
      · right
        refine ⟨e', { f with chain := as :: f.chain }, ?_, by rw [Node.find?, h2]; rfl, ?_⟩
        · simp only [Element.at?, Element.children]
          cases hi : cs[i]? with
          | none => rw [hi] at h1; simp at h1
          | some ch => rw [hi] at h1; simpa using h1
        · obtain ⟨⟨o', n', as', ks', c', pre', post', q1, q2, q3, q4, q5, q6, q7⟩, ⟨owns, s1, s2, s3⟩⟩ := h3
          refine ⟨⟨o', n', as', ks', c', pre', post', q1, q2, q3, q4, q5, q6, ?_⟩, ?_⟩
          · simp only
            cases hc : f.chain with
            | nil => rw [hc] at q7; simp at q7
            | cons x xs => rw [hc] at q7; simpa using q7
          · refine ⟨own :: owns, by rw [s1]; simp, by simp [s2], ?_⟩
            intro i own' as'' h1 h2
            cases i with
            | zero => simp at h1 h2; subst h1; subst h2; exact hperm
            | succ i => simp at h1 h2; exact s3 i own' as'' h1 h2
termination_by sizeOf ks + 1
theorem mirrorsL_find (data : Str) (sc : Scope) (ns : List Node) (cs : List Element) (h : MirrorsL sc ns cs)
    (off : Nat) (pre post : Str) (hd : data = pre ++ bytesL ns ++ post) (hp : pre.length = off)
    (i : Nat) (p : List Nat) :
    ((cs[i]?.bind (fun c => c.at? p)) = none ∧ findL? off ns i p = none) ∨
    ∃ e' f, (cs[i]?.bind (fun c => c.at? p)) = some e' ∧ findL? off ns i p = some f ∧ FoundOk data sc f e' := by
  match ns, h with
  | [], .nil => left; simp [findL?]
  | .text b :: ns, .text h =>
    rw [findL?]
    exact mirrorsL_find data sc ns cs h (off + b.length) (pre ++ b) post
      (by rw [hd]; simp [bytesL, Node.bytes]) (by simp [hp]) i p
  | .elem o n as ks c :: ns, .elem (e := e) (cs := cs) h1 h2 =>
    cases i with
    | zero =>
      have := mirrors_find data sc o n as ks c e h1 off pre (bytesL ns ++ post)
        (by rw [hd]; simp [bytesL, Node.bytes]) hp p
      rw [findL?]
      simpa using this
    | succ i =>
      rw [findL?]
      have := mirrorsL_find data sc ns cs h2 (off + (o ++ bytesL ks ++ c).length) (pre ++ (o ++ bytesL ks ++ c)) post
        (by rw [hd]; simp [bytesL, Node.bytes]) (by simp [hp]) i p
      simpa using this
termination_by sizeOf ns
decreasing_by all_goals (simp_wf; omega)
end

end GoXml
