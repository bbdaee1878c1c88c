import Verif.Spec.WsdlgenClient
set_option autoImplicit false

/-! Lemmas about decoding of responses. -/

namespace GoXml.Wsdl

/-! ### Decoding -/

theorem decodeKids_none {σ : Type} {fields : List (XName × Decode σ)} {n : XName} {kids ks : List Node} {s : σ}
    (hf : fields.find? (fun f => fieldMatches f.1 n) = none) : decodeKids fields s (.elem n kids :: ks) = decodeKids fields s ks := by
  rw [decodeKids, hf]

theorem decodeKids_ok {σ : Type} {fields : List (XName × Decode σ)} {n : XName} {kids ks : List Node} {s s' : σ} {f : XName × Decode σ}
    (hf : fields.find? (fun f => fieldMatches f.1 n) = some f) (hd : f.2 s (.elem n kids) = (s', true)) :
    decodeKids fields s (.elem n kids :: ks) = decodeKids fields s' ks := by
  rw [decodeKids, hf]
  dsimp only
  rw [hd]

theorem decodeKids_bad {σ : Type} {fields : List (XName × Decode σ)} {n : XName} {kids ks : List Node} {s s' : σ} {f : XName × Decode σ}
    (hf : fields.find? (fun f => fieldMatches f.1 n) = some f) (hd : f.2 s (.elem n kids) = (s', false)) :
    decodeKids fields s (.elem n kids :: ks) = (s', false) := by
  rw [decodeKids, hf]
  dsimp only
  rw [hd]

theorem decodeKids_append {σ : Type} (fields : List (XName × Decode σ)) : ∀ (a b : List Node) (s s' : σ),
    decodeKids fields s a = (s', true) → decodeKids fields s (a ++ b) = decodeKids fields s' b := by
  intro a b
  induction a with
  | nil => intro s s' h; cases h; rfl
  | cons k a ih =>
    intro s s' h
    cases k with
    | text t => exact ih s s' h
    | elem n kids =>
      rw [List.cons_append]
      rcases hf : fields.find? (fun f => fieldMatches f.1 n) with _ | f
      · rw [decodeKids_none hf] at h ⊢
        exact ih s s' h
      · rcases hd : f.2 s (.elem n kids) with ⟨s1, ok⟩
        cases ok with
        | true =>
          rw [decodeKids_ok hf hd] at h ⊢
          exact ih s1 s' h
        | false =>
          rw [decodeKids_bad hf hd] at h
          cases h

/-- Elements that no field is for are skipped. -/
theorem decodeKids_skip {σ : Type} (fields : List (XName × Decode σ)) : ∀ (ks : List Node) (s : σ),
    (∀ n ∈ elemNames ks, ∀ f ∈ fields, fieldMatches f.1 n = false) → decodeKids fields s ks = (s, true) := by
  intro ks
  induction ks with
  | nil => intro s _; rfl
  | cons k ks ih =>
    intro s h
    cases k with
    | text t => exact ih s h
    | elem n kids =>
      have hn : fields.find? (fun f => fieldMatches f.1 n) = none := by
        rw [List.find?_eq_none]
        intro f hf
        rw [h n List.mem_cons_self f hf]
        simp
      rw [decodeKids_none hn]
      exact ih s fun m hm => h m (List.mem_cons_of_mem _ hm)

/-- The fields of the body. -/
def bodyFields {σ : Type} (out : Decode σ) : List (XName × Decode (Decoded σ)) :=
  [(⟨[], b!"Message"⟩, fun s n => ({ s with out := (out s.out n).1 }, (out s.out n).2)),
   (⟨soapEnvNS, b!"Fault"⟩, fun s n =>
      ({ s with fault := some (decodeFault (s.fault.getD {}) n).1 }, (decodeFault (s.fault.getD {}) n).2))]

theorem decodeEnvelope_body {σ : Type} (out : Decode σ) (s : Decoded σ) (kids : List Node) (doc : Node) (h : Enveloped kids doc) :
    decodeEnvelope out s doc = decodeKids (bodyFields out) s kids := by
  obtain ⟨hs, rfl, hh⟩ := h
  unfold decodeEnvelope decodeStruct
  dsimp only
  rw [if_pos (by decide)]
  have key : ∀ (fields : List (XName × Decode (Decoded σ))) (f : XName × Decode (Decoded σ)), (∀ s n, f.2 s n = (s, true)) →
      (fields.find? (fun f => fieldMatches f.1 ⟨soap11, b!"Header"⟩) = some f) → ∀ s, decodeKids fields s hs = (s, true) := by
    intro fields f hf hfind
    clear s
    induction hs with
    | nil => intro s; rfl
    | cons h hs ih =>
      intro s
      obtain ⟨k, rfl⟩ := hh h List.mem_cons_self
      rw [decodeKids_ok hfind (hf _ _)]
      exact ih (fun x hx => hh x (List.mem_cons_of_mem _ hx)) s
  rw [decodeKids_append _ _ _ _ _ (key _ (⟨soapEnvNS, b!"Header"⟩, fun s _ => (s, true)) (fun _ _ => rfl) rfl s)]
  have hb : List.find? (fun f => fieldMatches f.1 ⟨soap11, b!"Body"⟩) [((⟨soapEnvNS, b!"Header"⟩ : XName), (fun s _ => (s, true) : Decode (Decoded σ))),
      (⟨soapEnvNS, b!"Body"⟩, decodeStruct none (bodyFields out))] = some (⟨soapEnvNS, b!"Body"⟩, decodeStruct none (bodyFields out)) := rfl
  rcases hd : decodeKids (bodyFields out) s kids with ⟨s', ok⟩
  have hd' : decodeStruct none (bodyFields out) s (.elem ⟨soap11, b!"Body"⟩ kids) = (s', ok) := by
    rw [← hd]; rfl
  cases ok with
  | true => exact decodeKids_ok hb hd'
  | false => exact decodeKids_bad hb hd'

theorem clientDo_plain {σ : Type} (net : Net) (c : Client) (answer : Request → Option Response) (hc : Plain c answer)
    (method uri action : Str) (message : Option Node) (out : Decode σ) (s : σ) (req : Request)
    (hr : makeRequest net c method uri action message = .ok req) (rsp : Response) (ha : answer req = some rsp) :
    clientDo net c method uri action message out s = readResponse c out s rsp := by
  unfold clientDo
  rw [hr]
  simp only [hc.1, Option.getD_some, ha]

theorem readResponse_body {σ : Type} (c : Client) (answer : Request → Option Response) (hc : Plain c answer) (out : Decode σ) (s : σ) (rsp : Response)
    (kids : List Node) (doc : Node) (hd : rsp.body = some doc) (he : Enveloped kids doc) (r : Decoded σ × Bool)
    (hr : decodeKids (bodyFields out) { out := s } kids = r) :
    readResponse c out s rsp = if r.2 = false then (some .decode, r.1.out) else match r.1.fault with
      | some f => (some (.fault f.code f.string), r.1.out)
      | none => (none, r.1.out) := by
  have hb := decodeEnvelope_body out { out := s } kids doc he
  obtain ⟨hs, rfl, _⟩ := he
  unfold readResponse
  simp only [hc.2.1, hd, hb, hr]
  rfl

theorem fields_find {V : Type} (vals : Values V) (fs : List (Str × Str × XName)) (dec : Nat → Str × Str × XName → Decode (List V)) :
    ∀ (i : Nat) f, fs[i]? = some f → (fs.map (·.2.2.loc)).Nodup →
      (fs.mapIdx fun i f => (f.2.2, dec i f)).find? (fun g => fieldMatches g.1 f.2.2) = some (f.2.2, dec i f) := by
  induction fs generalizing dec with
  | nil => intro i f h; cases h
  | cons g fs ih =>
    intro i f h hn
    rw [List.map_cons, List.nodup_cons] at hn
    rw [List.mapIdx_cons]
    cases i with
    | zero =>
      cases h
      rw [List.find?_cons_of_pos (by simp [fieldMatches])]
    | succ i =>
      rw [List.getElem?_cons_succ] at h
      have hne : g.2.2.loc ≠ f.2.2.loc := fun e => hn.1 (e ▸ List.mem_map.mpr ⟨f, List.mem_of_getElem? h, rfl⟩)
      rw [List.find?_cons_of_neg (by simp [fieldMatches, hne])]
      exact ih (fun i f => dec (i + 1) f) i f h hn.2

/-! ### Faults -/

def faultFields : List (XName × Decode Fault) :=
  [(⟨[], b!"faultstring"⟩, fun f n => ({ f with string := nodeText n }, true)),
   (⟨[], b!"faultcode"⟩, fun f n => ({ f with code := nodeText n }, true)),
   (⟨[], b!"detail"⟩, fun f n => ({ f with detail := nodeText n }, true))]

theorem decodeKids_fault : ∀ (fs : List Node) (f : Fault), ∃ g, decodeKids faultFields f fs = (g, true) ∧
    g.string = ((contentsOf b!"faultstring" fs).getLast?.map textIn).getD f.string ∧
    g.code = ((contentsOf b!"faultcode" fs).getLast?.map textIn).getD f.code := by
  intro fs
  induction fs with
  | nil => intro f; exact ⟨f, rfl, rfl, rfl⟩
  | cons k fs ih =>
    intro f
    cases k with
    | text t => exact ih f
    | elem n kids =>
      have last : ∀ (l : List (List Node)) (x : List Node) (d : Str), ((x :: l).getLast?.map textIn).getD d = (l.getLast?.map textIn).getD (textIn x) := by
        intro l x d
        cases l with
        | nil => rfl
        | cons y l => rw [List.getLast?_cons_cons, List.getLast?_cons]; rfl
      by_cases h1 : n.loc = b!"faultstring"
      · obtain ⟨g, hg, hs, hc⟩ := ih { f with string := textIn kids }
        refine ⟨g, ?_, ?_, ?_⟩
        · rw [decodeKids_ok (f := (⟨[], b!"faultstring"⟩, _)) (by rw [faultFields, List.find?_cons_of_pos (by simp [fieldMatches, h1])]) (s' := { f with string := textIn kids }) rfl, hg]
        · rw [contentsOf, if_pos h1, last, hs]
        · rw [contentsOf, if_neg (by rw [h1]; decide), hc]
      · by_cases h2 : n.loc = b!"faultcode"
        · obtain ⟨g, hg, hs, hc⟩ := ih { f with code := textIn kids }
          refine ⟨g, ?_, ?_, ?_⟩
          · rw [decodeKids_ok (f := (⟨[], b!"faultcode"⟩, _)) (by
              rw [faultFields, List.find?_cons_of_neg (by simp [fieldMatches, h2]), List.find?_cons_of_pos (by simp [fieldMatches, h2])])
              (s' := { f with code := textIn kids }) rfl, hg]
          · rw [contentsOf, if_neg h1, hs]
          · rw [contentsOf, if_pos h2, last, hc]
        · by_cases h3 : n.loc = b!"detail"
          · obtain ⟨g, hg, hs, hc⟩ := ih { f with detail := textIn kids }
            refine ⟨g, ?_, ?_, ?_⟩
            · rw [decodeKids_ok (f := (⟨[], b!"detail"⟩, _)) (by
                rw [faultFields, List.find?_cons_of_neg (by simp [fieldMatches, h3]), List.find?_cons_of_neg (by simp [fieldMatches, h3]),
                  List.find?_cons_of_pos (by simp [fieldMatches, h3])]) (s' := { f with detail := textIn kids }) rfl, hg]
            · rw [contentsOf, if_neg h1, hs]
            · rw [contentsOf, if_neg h2, hc]
          · obtain ⟨g, hg, hs, hc⟩ := ih f
            refine ⟨g, ?_, ?_, ?_⟩
            · rw [decodeKids_none (by
                rw [List.find?_eq_none]
                intro x hx
                simp only [faultFields, List.mem_cons, List.not_mem_nil, or_false] at hx
                rcases hx with rfl | rfl | rfl
                · simp [fieldMatches, Ne.symm h1]
                · simp [fieldMatches, Ne.symm h2]
                · simp [fieldMatches, Ne.symm h3]), hg]
            · rw [contentsOf, if_neg h1, hs]
            · rw [contentsOf, if_neg h2, hc]

theorem charData_eq : ∀ kids : List Node, charData kids = textIn kids
  | [] => rfl
  | .text s :: ks => by
    rw [textIn, ← charData_eq ks]
    simp [charData]
  | .elem _ _ :: ks => by
    rw [textIn, ← charData_eq ks]
    simp [charData]

/-- A fault is read. -/
theorem decodeFault_spec (code string : Str) (n : Node) (h : IsFault code string n) (f : Fault) :
    ∃ g, decodeFault f n = (g, true) ∧ g.code = code ∧ g.string = string := by
  obtain ⟨fs, kc, ks, rfl, h1, h2, rfl, rfl⟩ := h
  obtain ⟨g, hg, hs, hc⟩ := decodeKids_fault fs f
  refine ⟨g, hg, ?_, ?_⟩
  · rw [hc, h1, charData_eq]; rfl
  · rw [hs, h2, charData_eq]; rfl

/-- The body has no field for these elements. -/
theorem body_skips {σ : Type} (out : Decode σ) (ks : List Node) (s : Decoded σ)
    (hk : ∀ n ∈ elemNames ks, n.loc ≠ b!"Message" ∧ n ≠ ⟨soap11, b!"Fault"⟩) : decodeKids (bodyFields out) s ks = (s, true) :=
  decodeKids_skip _ ks _ (by
    intro n hn f hf
    obtain ⟨h1, h2⟩ := hk n hn
    simp only [bodyFields, List.mem_cons, List.not_mem_nil, or_false] at hf
    rcases hf with rfl | rfl
    · simp [fieldMatches, Ne.symm h1]
    · have : ¬ (b!"Fault" = n.loc ∧ soapEnvNS = n.space) := by
        rintro ⟨e1, e2⟩
        apply h2
        obtain ⟨sp, lo⟩ := n
        dsimp only at e1 e2
        subst e1 e2
        rfl
      simp only [fieldMatches, Bool.and_eq_false_iff, Bool.or_eq_false_iff, decide_eq_false_iff_not]
      by_cases e : b!"Fault" = n.loc
      · exact Or.inr ⟨by decide, fun e2 => this ⟨e, e2⟩⟩
      · exact Or.inl e)

/-- Without hooks, what a request is. -/
theorem makeRequest_ok (net : Net) (c : Client) (hh : c.requestHook = none) (method uri action : Str) (m : Option Node) (req : Request)
    (h : makeRequest net c method uri action m = .ok req) :
    req.method = method ∧ req.uri = uri ∧ req.header = [(b!"SOAPAction", action)] ∧
      (if method = b!"POST" ∨ method = b!"PUT" then ∃ d, m = some d ∧ req.body = some (encodeEnvelope d) else req.body = none) := by
  unfold makeRequest at h
  by_cases hm : method = b!"POST" ∨ method = b!"PUT"
  · rw [if_pos hm] at h ⊢
    cases m with
    | none => cases h
    | some d =>
      dsimp only at h
      by_cases ha : net.acceptable method uri = true
      · rw [if_pos ha, hh] at h
        cases h
        exact ⟨rfl, rfl, rfl, d, rfl, rfl⟩
      · rw [if_neg ha] at h
        cases h
  · rw [if_neg hm] at h ⊢
    dsimp only at h
    by_cases ha : net.acceptable method uri = true
    · rw [if_pos ha, hh] at h
      cases h
      exact ⟨rfl, rfl, rfl, rfl⟩
    · rw [if_neg ha] at h
      cases h

theorem encodeFields_spec {V : Type} (vals : Values V) : ∀ (ns : List XName) (args : List V) (fs : List Node),
    encodeFields vals ns args = some fs → Encodes vals (args.zip ns) fs := by
  intro ns
  induction ns with
  | nil => intro args fs h; cases args <;> (cases h; exact ⟨[], .nil, rfl⟩)
  | cons n ns ih =>
    intro args fs h
    cases args with
    | nil => cases h; exact ⟨[], .nil, rfl⟩
    | cons v args =>
      rw [encodeFields] at h
      rcases he : vals.encode v n with _ | a
      · rw [he] at h; cases h
      · rcases he' : encodeFields vals ns args with _ | r
        · rw [he, he'] at h; cases h
        · rw [he, he'] at h
          cases h
          obtain ⟨ls, hls, rfl⟩ := ih args r he'
          exact ⟨a :: ls, .cons he hls, rfl⟩

/-- A fault, once there is one, stays. -/
theorem body_fault {σ : Type} (out : Decode σ) : ∀ (ks : List Node) (s s' : Decoded σ), decodeKids (bodyFields out) s ks = (s', true) →
    (s.fault.isSome = true → s'.fault.isSome = true) ∧ ((⟨soap11, b!"Fault"⟩ : XName) ∈ elemNames ks → s'.fault.isSome = true) := by
  intro ks
  induction ks with
  | nil => intro s s' h; cases h; exact ⟨id, fun h => by cases h⟩
  | cons k ks ih =>
    intro s s' h
    cases k with
    | text t => exact ih s s' h
    | elem n kids =>
      rcases hf : (bodyFields out).find? (fun f => fieldMatches f.1 n) with _ | f
      · rw [decodeKids_none hf] at h
        refine ⟨(ih s s' h).1, fun hn => ?_⟩
        rcases List.mem_cons.mp hn with rfl | hn
        · cases hf
        · exact (ih s s' h).2 hn
      · rcases hd : f.2 s (.elem n kids) with ⟨s1, ok⟩
        cases ok with
        | false => rw [decodeKids_bad hf hd] at h; cases h
        | true =>
          rw [decodeKids_ok hf hd] at h
          obtain ⟨i1, i2⟩ := ih s1 s' h
          have keep : s.fault.isSome = true → s1.fault.isSome = true := by
            have := List.mem_of_find?_eq_some hf
            simp only [bodyFields, List.mem_cons, List.not_mem_nil, or_false] at this
            intro hs
            rcases this with rfl | rfl
            · dsimp only at hd
              injection hd with hd _
              rw [← hd]
              exact hs
            · dsimp only at hd
              injection hd with hd _
              rw [← hd]
              rfl
          refine ⟨i1 ∘ keep, fun hn => ?_⟩
          rcases List.mem_cons.mp hn with rfl | hn
          · apply i1
            cases hf
            dsimp only at hd
            injection hd with hd _
            rw [← hd]
            rfl
          · exact i2 hn

/-- What is accepted is an envelope; its faults are seen. -/
theorem decodeEnvelope_ok {σ : Type} (out : Decode σ) (s : σ) (doc : Node) (hdoc : ∃ n k, doc = .elem n k)
    (h : (decodeEnvelope out { out := s } doc).2 = true) (hn : (decodeEnvelope out { out := s } doc).1.fault = none) :
    ∃ kids, doc = .elem ⟨soap11, b!"Envelope"⟩ kids ∧ ∀ k, .elem ⟨soap11, b!"Body"⟩ k ∈ kids → (⟨soap11, b!"Fault"⟩ : XName) ∉ elemNames k := by
  obtain ⟨n, kids, rfl⟩ := hdoc
  have key : ∀ (ks : List Node) (s s' : Decoded σ), decodeKids
      [(⟨soapEnvNS, b!"Header"⟩, fun s _ => (s, true)), (⟨soapEnvNS, b!"Body"⟩, decodeStruct none (bodyFields out))] s ks = (s', true) →
      (s.fault.isSome = true → s'.fault.isSome = true) ∧
      ∀ k, .elem ⟨soap11, b!"Body"⟩ k ∈ ks → (⟨soap11, b!"Fault"⟩ : XName) ∈ elemNames k → s'.fault.isSome = true := by
    intro ks
    induction ks with
    | nil => intro s s' h; cases h; exact ⟨id, fun _ h => by cases h⟩
    | cons k ks ih =>
      intro s s' h
      cases k with
      | text t =>
        refine ⟨(ih s s' h).1, fun k hk => ?_⟩
        rcases List.mem_cons.mp hk with e | hk
        · cases e
        · exact (ih s s' h).2 k hk
      | elem n kids =>
        rcases hf : List.find? (fun f => fieldMatches f.1 n) [((⟨soapEnvNS, b!"Header"⟩ : XName), (fun s _ => (s, true) : Decode (Decoded σ))),
            (⟨soapEnvNS, b!"Body"⟩, decodeStruct none (bodyFields out))] with _ | f
        · rw [decodeKids_none hf] at h
          refine ⟨(ih s s' h).1, fun k hk => ?_⟩
          rcases List.mem_cons.mp hk with e | hk
          · cases e; cases hf
          · exact (ih s s' h).2 k hk
        · rcases hd : f.2 s (.elem n kids) with ⟨s1, ok⟩
          cases ok with
          | false => rw [decodeKids_bad hf hd] at h; cases h
          | true =>
            rw [decodeKids_ok hf hd] at h
            obtain ⟨i1, i2⟩ := ih s1 s' h
            have keep : s.fault.isSome = true → s1.fault.isSome = true := by
              have := List.mem_of_find?_eq_some hf
              simp only [List.mem_cons, List.not_mem_nil, or_false] at this
              intro hs
              rcases this with rfl | rfl
              · cases hd; exact hs
              · exact (body_fault out kids s s1 hd).1 hs
            refine ⟨i1 ∘ keep, fun k hk hfault => ?_⟩
            rcases List.mem_cons.mp hk with e | hk
            · cases e
              apply i1
              cases hf
              exact (body_fault out kids s s1 hd).2 hfault
            · exact i2 k hk hfault
  have hname : n = ⟨soap11, b!"Envelope"⟩ := by
    unfold decodeEnvelope decodeStruct at h
    dsimp only at h
    split at h
    · rename_i hc
      obtain ⟨sp, lo⟩ := n
      simp only [nameAccepted, Bool.and_eq_true, Bool.or_eq_true, decide_eq_true_eq] at hc
      obtain ⟨h1 | h1, h2 | h2⟩ := hc
      · cases h1
      · cases h1
      · cases h2
      · rw [← h1, ← h2]; rfl
    · cases h
  subst hname
  refine ⟨kids, rfl, fun k hk hfault => ?_⟩
  rcases hd : decodeEnvelope out { out := s } (.elem ⟨soap11, b!"Envelope"⟩ kids) with ⟨s', ok⟩
  rw [hd] at h hn
  dsimp only at h hn
  subst h
  have := (key kids { out := s } s' hd).2 k hk hfault
  rw [hn] at this
  cases this

end GoXml.Wsdl
