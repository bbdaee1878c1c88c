import Verif.Model.Cycle
set_option autoImplicit false

/-! Specifications for C21 and C68. -/

namespace GoXml

/-- The graph below address `id` is the tree `el`. (An inductive predicate: there is no cycle.) -/
inductive Unfolds (g : Nat → Cell) : Nat → Element → Prop
  | mk {id : Nat} {ks : List Element} : (g id).kids.length = ks.length →
      (∀ (i k : Nat) (e : Element), (g id).kids[i]? = some k → ks[i]? = some e → Unfolds g k e) →
      Unfolds g id (.mk (g id).name (g id).attrs (g id).scope (g id).content ks)

/-- The same tree, except that each content is shifted by one byte: same length, and from its second
byte on it is the right content without its last byte. -/
inductive Shifted : Element → Element → Prop
  | mk {name : XName} {attrs : List Attr} {s : Scope} {c c' : Str} {ks ks' : List Element} :
      c'.length = c.length → c'.drop 1 = c.dropLast → ks.length = ks'.length →
      (∀ (i : Nat) (x y : Element), ks[i]? = some x → ks'[i]? = some y → Shifted x y) →
      Shifted (.mk name attrs s c ks) (.mk name attrs s c' ks')

end GoXml
