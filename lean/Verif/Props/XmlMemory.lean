import Verif.Proofs.Alias
import Verif.Proofs.XmlTree
set_option autoImplicit false

/-! Property theorems C22: scopes as values. -/

namespace GoXml.Alias

/-- Go's growth policy for small slices (runtime.growslice, without rounding to size classes). -/
def goGrow (old need : Nat) : Nat := if need > 2 * old then need else 2 * old

/-- Three parsed scopes: two declarations; `p` bound to `v`; `p` bound to `w`. Then the second is
joined to the first, and the second again to the result. -/
def demoOps : List Op :=
  [.push 0 [⟨b!"u", b!"a"⟩, ⟨b!"u", b!"b"⟩], .push 0 [⟨b!"v", b!"p"⟩], .push 0 [⟨b!"w", b!"p"⟩],
   .join 1 2, .join 4 2]

/-- What scope number `i` resolves `q` to after some operations. -/
def resolvesTo (grow : Nat → Nat → Nat) (ops : List Op) (i : Nat) (q : Str) : Option XName :=
  ((run grow ops).scopes[i]?).map fun s => resolve (view (run grow ops).heap s) q

/-- C22 is false for `JoinScope`: joining another scope to a join result changes what an existing
scope (number 5) resolves. -/
theorem C22_join_refuted :
    resolvesTo goGrow demoOps 5 b!"p:x" = some ⟨b!"v", b!"x"⟩ ∧
    resolvesTo goGrow (demoOps ++ [.join 4 3]) 5 b!"p:x" = some ⟨b!"w", b!"x"⟩ := by
  decide +kernel

/-- The scope an operation makes shows the receiver's declarations followed by the new ones, at the
time it is made, for every history and growth policy. -/
theorem C22_new_scope (grow : Nat → Nat → Nat) (ops : List Op) :
    (∀ (i : Nat) (ns : List XName) (s : Slice), (run grow ops).scopes[i]? = some s →
      ∃ s', (run grow (ops ++ [.push i ns])).scopes[(run grow ops).scopes.length]? = some s' ∧
        view (run grow (ops ++ [.push i ns])).heap s' = view (run grow ops).heap s ++ ns) ∧
    (∀ (i j : Nat) (s t : Slice), (run grow ops).scopes[i]? = some s → (run grow ops).scopes[j]? = some t →
      ∃ s', (run grow (ops ++ [.join i j])).scopes[(run grow ops).scopes.length]? = some s' ∧
        view (run grow (ops ++ [.join i j])).heap s' = view (run grow ops).heap s ++ view (run grow ops).heap t) := by
  have hok := run_ok grow ops
  constructor
  · intro i ns s hs
    have hsok := hok s (List.mem_of_getElem? hs)
    rw [run_append]
    simp only [List.foldl_cons, List.foldl_nil, step, hs]
    refine ⟨(pushScope grow (run grow ops).heap s ns).2, by simp, ?_⟩
    unfold pushScope
    split
    · exact append_view grow _ s ns hsok
    · rename_i hn
      have : ns = [] := List.length_eq_zero_iff.mp (by omega)
      rw [this, List.append_nil]
  · intro i j s t hs ht
    rw [run_append]
    simp only [List.foldl_cons, List.foldl_nil, step, hs, ht]
    refine ⟨(append grow (run grow ops).heap s (view (run grow ops).heap t)).2, by simp, ?_⟩
    exact append_view grow _ s _ (hok s (List.mem_of_getElem? hs))

/-- C22, partial: an operation whose receiver has no spare capacity leaves what every existing scope
shows as it is, whatever happened before and whatever the growth policy. Missing: receivers with
spare capacity (join results), for which it is false. -/
theorem C22_full_receiver_partial (grow : Nat → Nat → Nat) (ops : List Op) (op : Op)
    (hf : ∀ s, (run grow ops).scopes[op.receiver]? = some s → s.cap ≤ s.len) (i : Nat) (t : Slice)
    (ht : (run grow ops).scopes[i]? = some t) :
    (run grow (ops ++ [op])).scopes[i]? = some t ∧
      view (run grow (ops ++ [op])).heap t = view (run grow ops).heap t := by
  rw [run_append]
  exact step_full grow _ op (run_ok grow ops) hf i t ht

def isPush : Op → Bool
  | .push _ _ => true
  | .join _ _ => false

theorem pushes_full (grow : Nat → Nat → Nat) (ops : List Op) (st : State) (hok : AllOk st)
    (hfull : ∀ s ∈ st.scopes, s.cap ≤ s.len) (hp : ∀ op ∈ ops, isPush op = true) :
    ∀ s ∈ (ops.foldl (step grow) st).scopes, s.cap ≤ s.len := by
  induction ops generalizing st with
  | nil => exact hfull
  | cons op ops ih =>
    refine ih _ (step_ok grow st op hok) ?_ (fun o ho => hp o (by simp [ho]))
    cases op with
    | join i j => exact absurd (hp (.join i j) (by simp)) (by simp [isPush])
    | push i ns =>
      simp only [step]
      split
      · exact hfull
      · rename_i s hs
        intro t ht
        rcases List.mem_append.mp ht with ht | ht
        · exact hfull t ht
        · simp only [List.mem_singleton] at ht
          subst ht
          unfold pushScope
          split
          · exact Nat.le_refl _
          · exact hfull s (List.mem_of_getElem? hs)

theorem foldl_full (grow : Nat → Nat → Nat) (n : Nat) (more : List Op) (st : State) (hok : AllOk st)
    (hfull : ∀ (i : Nat) (s : Slice), i < n → st.scopes[i]? = some s → s.cap ≤ s.len)
    (hn : n ≤ st.scopes.length)
    (hr : ∀ op ∈ more, op.receiver < n) (i : Nat) (t : Slice) (ht : st.scopes[i]? = some t) :
    (more.foldl (step grow) st).scopes[i]? = some t ∧ view (more.foldl (step grow) st).heap t = view st.heap t := by
  induction more generalizing st with
  | nil => exact ⟨ht, rfl⟩
  | cons op ops ih =>
    have hop := hr op (by simp)
    have hstep := fun j u hu => step_full grow st op hok (fun s hs => hfull _ s hop hs) j u hu
    have hkeep : ∀ j, j < n → (step grow st op).scopes[j]? = st.scopes[j]? := by
      intro j hj
      have : st.scopes[j]? = some st.scopes[j] := List.getElem?_eq_getElem (by omega)
      rw [this, (hstep j _ this).1]
    have hlen : n ≤ (step grow st op).scopes.length := by
      cases n with
      | zero => omega
      | succ n =>
        have := hkeep n (by omega)
        have h0 : st.scopes[n]? = some st.scopes[n] := List.getElem?_eq_getElem (by omega)
        rw [h0] at this
        obtain ⟨h, _⟩ := List.getElem?_eq_some_iff.mp this
        omega
    obtain ⟨h1, h2⟩ := hstep i t ht
    obtain ⟨h3, h4⟩ := ih (step grow st op) (step_ok grow st op hok)
      (fun j s hj hs => hfull j s hj (by rw [← hkeep j hj]; exact hs)) hlen
      (fun o ho => hr o (by simp [ho])) h1
    exact ⟨h3, h4.trans h2⟩

/-- C22, partial: parse any documents, then join scopes in any way and parse further elements, as
long as the receivers are scopes made by parsing: no scope ever changes. Missing: join results as
receivers. -/
theorem C22_parsed_receivers_partial (grow : Nat → Nat → Nat) (parsing more : List Op)
    (hp : ∀ op ∈ parsing, isPush op = true)
    (hr : ∀ op ∈ more, op.receiver < (run grow parsing).scopes.length)
    (before after : List Op) (hsplit : more = before ++ after) (i : Nat) (t : Slice)
    (ht : (run grow (parsing ++ before)).scopes[i]? = some t) :
    (run grow (parsing ++ more)).scopes[i]? = some t ∧
      view (run grow (parsing ++ more)).heap t = view (run grow (parsing ++ before)).heap t := by
  have hfull : ∀ s ∈ (run grow parsing).scopes, s.cap ≤ s.len :=
    pushes_full grow parsing start start_ok (by simp [start]) hp
  subst hsplit
  rw [← List.append_assoc, run_append grow (parsing ++ before)]
  -- the scopes made by parsing are still there, and full, after `before`
  have hkeep : ∀ (j : Nat) (s : Slice), (run grow parsing).scopes[j]? = some s → (run grow (parsing ++ before)).scopes[j]? = some s := by
    intro j s hs
    rw [run_append]
    exact (foldl_full grow (run grow parsing).scopes.length before _ (run_ok grow parsing)
      (fun k s' _ hs' => hfull s' (List.mem_of_getElem? hs')) (Nat.le_refl _)
      (fun o ho => hr o (by simp [ho])) j s hs).1
  refine foldl_full grow (run grow parsing).scopes.length after _ (run_ok grow _) ?_ ?_
    (fun o ho => hr o (by simp [ho])) i t ht
  · intro j s hj hs
    have h1 : (run grow parsing).scopes[j]? = some (run grow parsing).scopes[j] := List.getElem?_eq_getElem hj
    have h2 := hkeep j _ h1
    rw [h2] at hs
    cases hs
    exact hfull _ (List.getElem_mem hj)
  · cases hl : (run grow parsing).scopes.length with
    | zero => omega
    | succ n =>
      have hj : n < (run grow parsing).scopes.length := by omega
      have h1 : (run grow parsing).scopes[n]? = some (run grow parsing).scopes[n] := List.getElem?_eq_getElem hj
      obtain ⟨h, _⟩ := List.getElem?_eq_some_iff.mp (hkeep n _ h1)
      omega

/-- The hypotheses hold for the example up to its first join: receiver 1 was made by parsing. -/
example : (∀ op ∈ demoOps.take 3, isPush op = true) ∧
    ∀ op ∈ ([.join 1 2, .join 1 3] : List Op), op.receiver < (run goGrow (demoOps.take 3)).scopes.length := by
  decide

/-- And then the first join result keeps its meaning. -/
example : resolvesTo goGrow (demoOps.take 3 ++ [.join 1 2]) 4 b!"p:x" = some ⟨b!"v", b!"x"⟩ ∧
    resolvesTo goGrow (demoOps.take 3 ++ [.join 1 2, .join 1 3]) 4 b!"p:x" = some ⟨b!"v", b!"x"⟩ := by
  decide +kernel

end GoXml.Alias
