import Verif.Spec.Wsdl
import Verif.Proofs.XmlTree
import Verif.Proofs.GoMap
import Verif.Props.XmlScope
set_option autoImplicit false

/-! Lemmas that connect the model of the wsdl package with the specification. -/

namespace GoXml.Wsdl

mutual
theorem searchAt_below (fn : Element → Bool) (path : List Nat) (el : Element) :
    (searchAt (fun _ e => fn e) path el).map (·.2) = (el :: below el).filter fn := by
  cases el with
  | mk n a s c cs =>
    rw [searchAt, List.map_append, walkAt_belows fn path 0 cs, below, List.filter_cons]
    split <;> simp
theorem walkAt_belows (fn : Element → Bool) (path : List Nat) (i : Nat) (cs : List Element) :
    (walkAt (fun _ e => fn e) path i cs).map (·.2) = (belows cs).filter fn := by
  cases cs with
  | nil => simp [walkAt, belows]
  | cons c cs =>
    rw [walkAt, List.map_append, searchAt_below fn _ c, walkAt_belows fn path (i + 1) cs, belows]
    rw [← List.filter_append]; simp
end

theorem searchFuncEl_eq (el : Element) (fn : Element → Bool) : searchFuncEl el fn = (below el).filter fn := by
  cases el with
  | mk n a s c cs => exact walkAt_belows fn [] 0 cs

theorem searchEl_eq (el : Element) (space loc : Str) (hs : space ≠ []) : searchEl el space loc = allNamed el space loc := by
  have : searchEl el space loc = searchFuncEl el (nameMatches space loc) := rfl
  rw [this, searchFuncEl_eq, allNamed]
  apply List.filter_congr
  intro x _
  unfold nameMatches
  cases hx : x.name with
  | mk s l =>
    by_cases h : loc = l
    · subst h
      simp [hs, eq_comm]
    · have h' : ¬ l = loc := fun e => h e.symm
      simp [h, h']

theorem attr_eq (e : Element) (loc : Str) : e.attr [] loc = attrNamed e loc := by
  unfold attrNamed Element.attr
  generalize e.attrs = as
  induction as with
  | nil => rfl
  | cons a as ih =>
    rw [attrGet, List.find?_cons]
    by_cases h : a.name.loc = loc
    · simp [h]
    · have h' : ¬ loc = a.name.loc := fun e => h e.symm
      simp [h, h', ih]

theorem resolveLoop_find (pre loc : Str) (ds : List XName) :
    resolveLoop pre loc ds = ((ds.find? fun d => decide (d.loc = pre)).map fun d => ⟨d.space, loc⟩) := by
  induction ds with
  | nil => rfl
  | cons d ds ih =>
    rw [resolveLoop, List.find?_cons]
    by_cases h : d.loc = pre <;> simp [h, ih]

theorem notMem_takeWhile (q : Str) : (58 : UInt8) ∉ q.takeWhile fun c => decide (c ≠ 58) := by
  induction q with
  | nil => simp
  | cons c q ih =>
    rw [List.takeWhile_cons]
    split
    · rename_i h
      simp only [ne_eq, decide_eq_true_eq] at h
      intro hm
      rcases List.mem_cons.mp hm with hm | hm
      · exact h hm.symm
      · exact ih hm
    · simp

theorem split_eq (q : Str) : splitQName q =
    (if (58 : UInt8) ∈ q then q.takeWhile (fun c => decide (c ≠ 58)) else [],
     if (58 : UInt8) ∈ q then (q.dropWhile fun c => decide (c ≠ 58)).tail else q) := by
  apply splitQName_eq
  by_cases h : (58 : UInt8) ∈ q
  · simp only [if_pos h]
    left
    constructor
    · induction q with
      | nil => cases h
      | cons c q ih =>
        by_cases hc : c = 58
        · subst hc; simp
        · have : (58 : UInt8) ∈ q := by
            rcases List.mem_cons.mp h with h | h
            · exact absurd h.symm hc
            · exact h
          have := ih this
          simp only [ne_eq, decide_not] at this
          simp only [ne_eq, decide_not, List.takeWhile_cons, hc, decide_false, Bool.not_false, if_true,
            List.dropWhile_cons, List.cons_append]
          rw [← this]
    · intro hm
      exact notMem_takeWhile q hm
  · simp only [if_neg h]
    exact Or.inr ⟨h, rfl, rfl⟩

theorem resolve_eq (sc : Scope) (q : Str) : resolve sc q = denoted sc q := by
  unfold resolve resolveNS denoted
  rw [split_eq]
  simp only
  generalize (if (58 : UInt8) ∈ q then q.takeWhile (fun c => decide (c ≠ 58)) else []) = p
  generalize (if (58 : UInt8) ∈ q then (q.dropWhile fun c => decide (c ≠ 58)).tail else q) = l
  by_cases h1 : p = b!"xml"
  · rw [if_pos h1, if_pos h1]; rfl
  · rw [if_neg h1, if_neg h1]
    by_cases h2 : p = b!"xmlns"
    · rw [if_pos h2, if_pos h2]; rfl
    · rw [if_neg h2, if_neg h2, resolveLoop_find]
      cases sc.reverse.find? fun d => decide (d.loc = p) <;> rfl

theorem resolveDefault_eq (tns : Str) (e : Element) :
    resolveDefault e.scope (e.attr [] b!"name") tns = defines tns e := by
  unfold resolveDefault defines
  rw [attr_eq, resolve_eq]
  have hc : colon = 58 := rfl
  rw [hc]
  by_cases h1 : tns = []
  · simp [h1]
  · by_cases h2 : (58 : UInt8) ∈ attrNamed e b!"name" <;> simp [h1, h2]

theorem refersTo_eq (e : Element) (loc : Str) : resolve e.scope (e.attr [] loc) = refersTo e loc := by
  rw [attr_eq, resolve_eq]; rfl

theorem assignLast_eq {α β : Type} (f : α → β) (d : β) (l : List α) : assignLast f d l = lastOr d f l := by
  induction l generalizing d with
  | nil => rfl
  | cons x l ih =>
    rw [assignLast, ih]
    unfold lastOr
    cases l with
    | nil => rfl
    | cons y l => rw [List.getLast?_cons_cons]; simp [List.getLast?_eq_some_getLast]

theorem lastOr_append {α β : Type} (d : β) (f : α → β) (l l' : List α) :
    lastOr d f (l ++ l') = lastOr (lastOr d f l) f l' := by
  unfold lastOr
  rw [List.getLast?_append]
  cases l'.getLast? <;> simp

theorem soapLoop_eq (v : Str) (els : List Element) :
    soapLoop v els = lastOr v (fun s => attrNamed s b!"soapAction") (els.flatMap fun e => allNamed e nsSoap b!"operation") := by
  induction els generalizing v with
  | nil => rfl
  | cons e els ih =>
    rw [soapLoop, ih, assignLast_eq, searchEl_eq _ _ _ (by decide), List.flatMap_cons, lastOr_append]
    simp only [attr_eq]; rfl

theorem joinLines_eq (l : List Str) : joinLines l = List.intercalate b!"\n" l := by
  induction l with
  | nil => rfl
  | cons d l ih =>
    cases l with
    | nil => simp [joinLines, List.intercalate]
    | cons d' l => rw [joinLines, ih]; simp [List.intercalate]

theorem documentation_eq (e : Element) : documentation e = docText e := by
  unfold documentation docText; rw [joinLines_eq]

theorem isBinding_filter (root : Element) (tns : Str) (n : XName) :
    searchFuncEl root (isBinding tns n) = definitions root tns b!"binding" n := by
  rw [searchFuncEl_eq, definitions, allNamed, List.filter_filter]
  apply List.filter_congr
  intro x _
  unfold isBinding
  rw [resolveDefault_eq]
  cases hx : x.name with
  | mk s l =>
    simp only [XName.mk.injEq, Bool.decide_and]
    rw [Bool.and_comm]; rfl

theorem isPortType_filter (root : Element) (tns : Str) (n : XName) :
    searchFuncEl root (isPortType tns n) = definitions root tns b!"portType" n := by
  rw [searchFuncEl_eq, definitions, allNamed, List.filter_filter]
  apply List.filter_congr
  intro x _
  unfold isPortType
  rw [resolveDefault_eq]
  cases hx : x.name with
  | mk s l =>
    simp only [XName.mk.injEq, Bool.decide_and]
    rw [Bool.and_comm]; rfl

theorem parseMessage_eq (tns : Str) (m : Element) : parseMessage tns m = messageOf tns m := by
  unfold parseMessage messageOf
  rw [resolveDefault_eq, searchEl_eq _ _ _ (by decide)]
  have : parsePart = fun p => ⟨attrNamed p b!"name", refersTo p b!"type", refersTo p b!"element"⟩ := by
    funext p
    unfold parsePart
    rw [attr_eq, refersTo_eq, refersTo_eq]
  rw [this]; rfl

theorem messages_fold (tns : Str) (l : List Element) (m : GoMap XName Message) (n : XName) :
    (l.foldl (fun m e => m.set (messageOf tns e).name (messageOf tns e)) m).get n =
      (((l.filter fun e => decide (defines tns e = n)).getLast?).map (messageOf tns)).or (m.get n) := by
  induction l generalizing m with
  | nil => rfl
  | cons e l ih =>
    rw [List.foldl_cons, ih, GoMap.get_set, List.filter_cons]
    have hn : (messageOf tns e).name = defines tns e := rfl
    rw [hn]
    by_cases h : defines tns e = n
    · simp only [h, if_true, decide_true]
      cases hl : l.filter fun e => decide (defines tns e = n) with
      | nil => simp
      | cons a b =>
        rw [List.getLast?_cons_cons]; simp [List.getLast?_eq_some_getLast]
    · simp [h]

theorem methodOfBinding_eq (l : List Element) :
    methodOfBinding l = ((l.find? fun h => decide (attrNamed h b!"verb" ≠ [])).map fun h => toUpper (attrNamed h b!"verb")) := by
  induction l with
  | nil => rfl
  | cons h l ih =>
    rw [methodOfBinding, attr_eq, List.find?_cons]
    by_cases hv : attrNamed h b!"verb" = []
    · simp only [hv, List.length_nil, Nat.lt_irrefl, gt_iff_lt, if_false, ne_eq, not_true, decide_false]
      exact ih
    · have : (attrNamed h b!"verb").length > 0 := List.length_pos_iff.mpr hv
      simp [this, hv]

theorem methodLoop_eq (l : List Element) :
    methodLoop l = (((l.flatMap fun b => allNamed b nsHttp b!"binding").find? fun h => decide (attrNamed h b!"verb" ≠ [])).map
      fun h => toUpper (attrNamed h b!"verb")).getD b!"POST" := by
  induction l with
  | nil => rfl
  | cons b l ih =>
    rw [methodLoop, methodOfBinding_eq, searchEl_eq _ _ _ (by decide), List.flatMap_cons, List.find?_append]
    have : httpNS = nsHttp := rfl
    rw [this]
    cases (allNamed b nsHttp b!"binding").find? fun h => decide (attrNamed h b!"verb" ≠ []) with
    | none => simpa using ih
    | some h => rfl

theorem toUpper_isUpper (s : Str) : IsUpper s (toUpper s) := by
  refine ⟨by simp [toUpper], ?_⟩
  intro i c d hc hd
  unfold toUpper at hd
  rw [List.getElem?_map, hc] at hd
  simp only [Option.map_some, Option.some.injEq] at hd
  subst hd
  split
  · exact (UInt8.sub_add_cancel c 32).symm
  · rfl

theorem serviceLoop_eq (tns : Str) (root : Element) (acc : Str × List Port) (l : List Element) :
    serviceLoop tns root acc l = lastOr acc (fun s => (documentation s, parsePorts tns root s)) l := by
  rw [← assignLast_eq]
  induction l generalizing acc with
  | nil => rfl
  | cons s l ih => rw [serviceLoop, assignLast, ih]

end GoXml.Wsdl
