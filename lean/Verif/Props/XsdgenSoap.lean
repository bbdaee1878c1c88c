import Verif.Proofs.XsdgenSoap
import Verif.Props.XsdDecls
import Verif.Props.XsdSchema
import Verif.Props.XsdgenName
set_option autoImplicit false

/-! Properties of SOAP arrays: C104 to C107. -/

namespace GoXml.Xsdgen
open Xsd

/-! ### C104 -/

/-- C104, for attributes before `arrayType` and for a base type that has attributes: a type that declares
`wsdl:arrayType="item[]"` gets `item` as the type of its wildcard, loses the attribute `arrayType`, and so does its
own copy of its base type. Nothing else changes. The full statement is without the two conditions (`hbn`, and `pre` in
place of `pre ++ post`); it is refuted below. -/
theorem C104_array_partial (H : THeap) (rank : Nat → Nat)
    (hrank : ∀ (id : Nat) o b, H[id]? = some o → o.base = some (.obj b) → rank b < rank id) (s : Schema) (id bid k : Nat) (c basep : ComplexT)
    (pre post : List XAttr) (v : XAttr) (item : XName) (w : XElem) (u : Ty) (hc : H[id]? = some (.complex c))
    (hattrs : c.attributes = pre ++ v :: post) (hpre : ∀ a ∈ pre, a.name.loc ≠ b!"arrayType") (hv : DeclaresItems v item)
    (hu : ∃ e ∈ s.types, OnChain H e.2 u) (hun : xmlName H u = item) (hw : FirstWildcard H k (.obj id) w) (hbid : bid ≠ id)
    (hb : c.base = some (.obj bid)) (hbc : H[bid]? = some (.complex basep)) (hbn : basep.attributes ≠ []) :
    ∃ n0, ∀ n, n0 ≤ n → ∃ H' c' b, parseSOAPArrayType n s (some (.obj id)) H = .ok (some (.obj id), H') ∧
      xmlName H b = item ∧ H'[id]? = some (.complex c') ∧
      (∀ e ∈ c'.elements, e.wildcard = true → e = { w with type := b }) ∧ (∃ e ∈ c'.elements, e.wildcard = true) ∧
      c'.elements.filter (fun e => !e.wildcard) = c.elements.filter (fun e => !e.wildcard) ∧ c'.attributes = pre ∧
      c' = { c with elements := c'.elements, attributes := pre, base := some (.obj H.length) } ∧
      H'[H.length]? = some (.complex { basep with attributes := basep.attributes.filter fun a => decide (a.name.loc ≠ b!"arrayType") }) ∧
      ∀ j, j < H.length → j ≠ id → H'[j]? = H[j]? := by
  obtain ⟨n1, hn1⟩ := C38_findType_partial H rank hrank item s.types
  refine ⟨n1 + k + 1, fun n hn => ?_⟩
  obtain ⟨r, hr⟩ := hn1 n (by omega)
  obtain ⟨b, rfl⟩ : ∃ b, r = some b := by
    cases r with
    | some b => exact ⟨b, rfl⟩
    | none =>
      obtain ⟨e, he, hch⟩ := hu
      exact absurd hun ((C86_find H item n _ _ hr).2 rfl e he u hch)
  have hbname := ((C86_find H item n _ _ hr).1 b rfl).1
  have hloc : item.loc ++ b!"[]" ≠ [] := by simp
  have hitem : ∀ c ∈ item.loc, isSpace c = false := by obtain ⟨-, as, bs, q, p, h⟩ := hv; exact h.2.2.2.2.2.2.2
  have hne : item.loc ≠ [] := by obtain ⟨-, as, bs, q, p, h⟩ := hv; exact h.2.2.2.2.2.2.1
  have hid : id < H.length := (List.getElem?_eq_some_iff.mp hc).1
  have hbidl : bid < H.length := (List.getElem?_eq_some_iff.mp hbc).1
  have hel := override_elements (es := c.elements) (el := { w with type := b }) (show w.wildcard = true from firstWildcard_wildcard hw)
  dsimp only at hel
  generalize hE : (if c.elements.any (·.wildcard) then c.elements.map fun e => if e.wildcard then { w with type := b } else e
    else c.elements ++ [{ w with type := b }]) = E at hel
  have h1 : overrideWildcardType n H id c b = .ok (H.set id (.complex { c with elements := E })) := by
    unfold overrideWildcardType
    rw [findWildcard_eq hw n (by omega)]
    simp only [Run.bind]
    rw [hE]
  have h2 : parseSOAPArrayType n s (some (.obj id)) H = .ok (some (.obj id),
      (H.set id (.complex { c with elements := E }) ++ [TObj.complex { basep with attributes := basep.attributes.filter fun a => decide (a.name.loc ≠ b!"arrayType") }]).set id
        (.complex { c with elements := E, base := some (.obj H.length), attributes := pre })) := by
    simp only [parseSOAPArrayType, hc, hattrs, arrayAttrs_eq hpre hv.1, resolve_items hv, if_neg hloc, trim_item hne hitem, hr, h1, Run.bind,
      List.getElem?_set_self hid, hb, List.getElem?_set_ne (Ne.symm hbid), hbc, if_neg hbn, List.length_set]
  refine ⟨_, { c with elements := E, base := some (.obj H.length), attributes := pre }, b, h2, hbname, ?_, hel.1, hel.2.1, hel.2.2, rfl, rfl, ?_, ?_⟩
  · rw [List.getElem?_set_self (by simp; omega)]
  · rw [List.getElem?_set_ne (by omega), List.getElem?_append_right (by simp)]
    simp
  · intro j hj hji
    rw [List.getElem?_set_ne (Ne.symm hji), List.getElem?_append_left (by simpa using hj), List.getElem?_set_ne (Ne.symm hji)]

/-- A type without the attribute `wsdl:arrayType` is left alone. -/
theorem C104_other_partial (n : Nat) (s : Schema) (H : THeap) (t : Option Ty)
    (h : ∀ (id : Nat) c, t = some (.obj id) → H[id]? = some (.complex c) → ∀ a ∈ c.attributes, ∀ x ∈ a.attr, x.name ≠ wsdlArrayType) :
    parseSOAPArrayType n s t H = .ok (t, H) := by
  unfold parseSOAPArrayType
  split
  · next id =>
    split
    · next c hc => dsimp only; rw [if_pos (by rw [arrayAttrs_none (h id c rfl hc)])]
    · rfl
  · rfl

/-- The type Array of SOAP, an array of integers derived from it, and one with a further attribute. -/
def C104_heap (attrs : List XAttr) : THeap :=
  [.complex { name := ⟨b!"s", b!"Array"⟩, base := some (.builtin AnyType),
              elements := [{ name := ⟨[], []⟩, wildcard := true, plural := true, type := .builtin AnyType }],
              attributes := [{ name := ⟨b!"s", b!"arrayType"⟩, type := .builtin 38 }, { name := ⟨b!"s", b!"offset"⟩, type := .builtin 38 }] },
   .complex { name := ⟨b!"u", b!"Ints"⟩, base := some (.obj 0), attributes := attrs },
   .simple { name := ⟨b!"u", b!"n"⟩, base := some (.builtin 28) }]

def C104_attr : XAttr :=
  { name := ⟨b!"s", b!"arrayType"⟩, type := .builtin 38, scope := [⟨b!"u", b!"x"⟩],
    attr := [⟨⟨[], b!"ref"⟩, b!"s:arrayType"⟩, ⟨wsdlArrayType, b!"x:n[]"⟩] }

def C104_schema : Schema := { targetNS := b!"u", types := [(⟨b!"u", b!"Ints"⟩, .obj 1), (⟨b!"u", b!"n"⟩, .obj 2)] }

theorem C104_declares : DeclaresItems C104_attr ⟨b!"u", b!"n"⟩ := by
  refine ⟨rfl, [⟨⟨[], b!"ref"⟩, b!"s:arrayType"⟩], [], b!"x:n", b!"x", rfl, by decide, .inl ⟨rfl, by decide⟩, by decide, by decide,
    ⟨[], [], rfl, by simp⟩, by decide, by decide⟩

/-- The conditions of C104 hold for an array of integers. -/
example : ∃ c basep w, (C104_heap [C104_attr])[(1 : Nat)]? = some (.complex c) ∧ c.attributes = [] ++ C104_attr :: [] ∧
    (∃ e ∈ C104_schema.types, OnChain (C104_heap [C104_attr]) e.2 (.obj 2)) ∧ xmlName (C104_heap [C104_attr]) (.obj 2) = ⟨b!"u", b!"n"⟩ ∧
    FirstWildcard (C104_heap [C104_attr]) 1 (.obj 1) w ∧ c.base = some (.obj 0) ∧ (C104_heap [C104_attr])[(0 : Nat)]? = some (.complex basep) ∧
    basep.attributes ≠ [] ∧ (∀ (id : Nat) o b, (C104_heap [C104_attr])[id]? = some o → o.base = some (.obj b) → b < id) :=
  ⟨_, _, _, rfl, rfl, ⟨_, List.mem_cons_of_mem _ (List.mem_cons_self ..), .refl _⟩, rfl,
    .up rfl rfl (by decide) (.here (as := []) rfl rfl rfl (by decide) rfl), rfl, rfl, by decide, by
      intro id o b ho hb
      match id with
      | 0 => cases ho; cases hb
      | 1 => cases ho; cases hb; decide
      | 2 => cases ho; cases hb
      | n + 3 => cases ho⟩

/-- C104 is false for attributes after `arrayType`: they are lost. -/
theorem C104_attributes_refuted : let other : XAttr := { name := ⟨b!"u", b!"lang"⟩, type := .builtin 38 }
    DeclaresItems C104_attr ⟨b!"u", b!"n"⟩ ∧
    ∃ H' c', parseSOAPArrayType 9 C104_schema (some (.obj 1)) (C104_heap [C104_attr, other]) = .ok (some (.obj 1), H') ∧
      H'[(1 : Nat)]? = some (.complex c') ∧ c'.attributes = [] := by
  refine ⟨C104_declares, _, _, rfl, rfl, ?_⟩
  decide +kernel

/-- C104 is false for a base type without attributes: the option makes the generator panic. -/
theorem C104_panic_refuted :
    let H : THeap := [.complex { name := ⟨b!"u", b!"B"⟩, base := some (.builtin AnyType), elements := [{ wildcard := true, plural := true, type := .builtin AnyType }] },
      .complex { name := ⟨b!"u", b!"Ints"⟩, base := some (.obj 0), attributes := [C104_attr] },
      .simple { name := ⟨b!"u", b!"n"⟩, base := some (.builtin 28) }]
    DeclaresItems C104_attr ⟨b!"u", b!"n"⟩ ∧ parseSOAPArrayType 9 C104_schema (some (.obj 1)) H = .panic :=
  ⟨C104_declares, rfl⟩

/-! ### C105 -/

/-- C105 is false for every tag that has a value for the key: `TagKey` answers with the empty string. It is also false
for fields without a tag, for which `TagKey` panics. `get` stands for the lookup of a key in a tag. -/
theorem C105_tag_refuted (get : Str → Str → Str) (key : Str) :
    (∀ tag, get tag key ≠ [] → tagKey (some tag) key ≠ .ok (get tag key)) ∧ tagKey none key = .panic :=
  ⟨fun tag h e => h (by simpa [tagKey] using e.symm), rfl⟩

/-- C105, for tags without a value for the key. -/
theorem C105_tag_partial (get : Str → Str → Str) (key tag : Str) (h : get tag key = []) : tagKey (some tag) key = .ok (get tag key) := by
  rw [h]; rfl

/-! ### C106 -/

theorem arrayDecl_run {H : THeap} {s : Spec} {elt : GoExpr} {item : XName} (h : ArrayDecl H s elt item) :
    soapArrayToSlice H s = .ok ({ s with expr := .plain (.array elt)
                                         methods := s.methods ++ [⟨b!"a " ++ s.name, b!"MarshalXML"⟩, ⟨b!"a *" ++ s.name, b!"UnmarshalXML"⟩] },
      some { readTag := ⟨[], b!",any"⟩, writeTag := ⟨[], b!"item"⟩, item := elt, xmlType := item }) := by
  obtain ⟨name, tag, id, c, as, bs, e, h1, h2, h3, h4, h5, h6, h7, h8⟩ := h
  have hf : c.elements.find? (·.wildcard) = some e := by
    rw [h4, List.find?_append, List.find?_eq_none.mpr (by simpa using h5)]
    simp [h6]
  have hne : ¬ (item.space = [] ∧ item.loc = []) := fun h => h8 (by cases item; simp_all)
  simp only [soapArrayToSlice, h1, h2, h3, hf, h7, if_neg hne, tagKey, Run.bind]
  rfl

/-- C106, for declarations that had no such methods: an array becomes a slice with one method of each name that read and
write its items, where they read elements of any name and write elements named `item` whatever the tag of the field was, and any other declaration is left alone. The full statement is without the condition `hm`; it is refuted below. -/
theorem C106_slice_partial (H : THeap) (s : Spec) :
    (∀ elt item, ArrayDecl H s elt item → (hm : ∀ m ∈ s.methods, m.name ≠ b!"MarshalXML" ∧ m.name ≠ b!"UnmarshalXML") →
      ∃ s' codec, soapArrayToSlice H s = .ok (s', some codec) ∧ s'.expr = .plain (.array elt) ∧ s'.name = s.name ∧ s'.xsdType = s.xsdType ∧
        s'.helperTypes = s.helperTypes ∧ codec.item = elt ∧ codec.xmlType = item ∧
        codec.readTag = ⟨[], b!",any"⟩ ∧ codec.writeTag = ⟨[], b!"item"⟩ ∧
        (s'.methods.filter fun m => decide (m.name = b!"MarshalXML")).length = 1 ∧
        (s'.methods.filter fun m => decide (m.name = b!"UnmarshalXML")).length = 1) ∧
    ((∀ elt item, ¬ ArrayDecl H s elt item) → soapArrayToSlice H s = .ok (s, none)) := by
  refine ⟨?_, ?_⟩
  · intro elt item h hm
    refine ⟨_, _, arrayDecl_run h, rfl, rfl, rfl, rfl, rfl, rfl, rfl, rfl, ?_, ?_⟩
    · dsimp only
      rw [List.filter_append, List.filter_eq_nil_iff.mpr (fun m hm' => by simpa using (hm m hm').1)]
      simp [show ¬ (b!"UnmarshalXML" = b!"MarshalXML") by decide]
    · dsimp only
      rw [List.filter_append, List.filter_eq_nil_iff.mpr (fun m hm' => by simpa using (hm m hm').2)]
      simp [show ¬ (b!"MarshalXML" = b!"UnmarshalXML") by decide]
  · intro h
    unfold soapArrayToSlice
    split
    · next f hf =>
      split
      · next elt he =>
        split
        · next id hid =>
          split
          · next c hc =>
            split
            · rfl
            · next el hel =>
              dsimp only
              split
              · rfl
              · next hne =>
                exfalso
                obtain ⟨hw, as, bs, has, hpre⟩ := List.find?_eq_some_iff_append.mp hel
                refine h elt (xmlName H el.type) ⟨f.name, f.tag, id, c, as, bs, el, ?_, hid, hc, has, ?_, hw, rfl, ?_⟩
                · rw [hf, ← he]
                · intro x hx; simpa using hpre x hx
                · intro e; rw [e] at hne; exact hne ⟨rfl, rfl⟩
          · rfl
        · rfl
      · rfl
    · rfl

/-- What is generated for a type derived from the type Array of SOAP whose items are of type `item`. -/
def C106_specs (item : Ty) : Option (THeap × List Spec) :=
  let H : THeap := [.complex { name := ⟨b!"u", b!"As"⟩, base := some (.builtin AnyType), elements := [{ wildcard := true, plural := true, type := item }] }]
  (genTypeSpec asciiEnv (addStandardHelpers {}) 20 H (.obj 0)).toOption

/-- An array of integers is such an array, without methods. -/
example : ((C106_specs (.builtin 28)).map fun r => r.2.map fun s => ((soapArrayToSlice r.1 s).toOption.map fun x => (x.1.expr, x.1.methods, x.2))) =
    some [some (.plain (.array (.ident b!"int")), [⟨b!"a As", b!"MarshalXML"⟩, ⟨b!"a *As", b!"UnmarshalXML"⟩],
      some ⟨⟨[], b!",any"⟩, ⟨[], b!"item"⟩, .ident b!"int", builtinName 28⟩)] := by decide +kernel

/-- C106 is false for arrays of dates: both methods are declared twice. -/
theorem C106_slice_refuted : ∃ H s, C106_specs (.builtin 16) = some (H, [s]) ∧ ArrayDecl H s (.ident b!"time.Time") (builtinName 16) ∧
    ∃ s' codec, soapArrayToSlice H s = .ok (s', some codec) ∧
      (s'.methods.filter fun m => decide (m.name = b!"MarshalXML")).length = 2 ∧
      (s'.methods.filter fun m => decide (m.name = b!"UnmarshalXML")).length = 2 := by
  have h : C106_specs (.builtin 16) = some (_, [_]) := rfl
  refine ⟨_, _, h, ⟨_, _, _, _, [], [], _, rfl, rfl, rfl, rfl, by simp, rfl, rfl, by decide +kernel⟩, _, _, rfl, ?_, ?_⟩ <;> decide +kernel

/-! ### C107 -/

/-- C107 is false for an item that cannot be decoded: it is dropped, and no error is reported. -/
theorem C107_items_refuted : ∃ es : List (Event Nat), es = [.item ⟨[], b!"item"⟩ (some 1), .item ⟨[], b!"item"⟩ none, .item ⟨[], b!"item"⟩ (some 3), .stop] ∧
    unmarshalArray ⟨[], b!",any"⟩ [] es = ([1, 3], false) := ⟨_, rfl, by decide⟩

/-- What the array contains if all items can be decoded. -/
def eventItems {α : Type} : List (Event α) → List α
  | .item _ (some x) :: es => x :: eventItems es
  | _ :: es => eventItems es
  | [] => []

/-- C107, for documents in which all items can be decoded: they are appended to the slice in their order, and the error
that is reported is that of a document that ends too early. The full statement is that an error is reported if an item cannot be decoded. -/
theorem C107_items_partial {α : Type} (space : Str) (a : List α) (es rest : List (Event α)) (hs : ∀ e ∈ es, e ≠ .stop)
    (hd : ∀ name, Event.item name none ∉ es) :
    unmarshalArray ⟨space, b!",any"⟩ a (es ++ .stop :: rest) = (a ++ eventItems es, false) ∧
    unmarshalArray ⟨space, b!",any"⟩ a es = (a ++ eventItems es, true) := by
  induction es generalizing a with
  | nil => simp [unmarshalArray, eventItems]
  | cons e es ih =>
    have ih := fun a => ih a (fun x hx => hs x (by simp [hx])) (fun name h => hd name (by simp [h]))
    cases e with
    | stop => exact absurd rfl (hs .stop (by simp))
    | other => simpa [unmarshalArray, eventItems] using ih a
    | item name v =>
      cases v with
      | none => exact absurd (by simp) (hd name)
      | some x => simpa [unmarshalArray, eventItems] using ih (a ++ [x])

example : unmarshalArray ⟨[], b!",any"⟩ [] [Event.item ⟨[], b!"item"⟩ (some 1), .other, .item ⟨[], b!"x"⟩ (some 2), .stop] = ([1, 2], false) := by decide

end GoXml.Xsdgen
