import Verif.Props.XsdgenDerivable
import Verif.Props.XsdAccept
set_option autoImplicit false

/-! Property C153: code is generated for documents that say what they should; that `Parse` accepts them is not assumed. -/

namespace GoXml.Xsdgen
open Xsd GoMap

/-- C153, partial: for documents whose schemas are sound, and whose normalized schemas do not get in each other's way, refer to types as they
should, and derive types as they should, `GenCode` without a function for preprocessing types generates code. -/
theorem C153_sound_partial (env : Env) (srt : Sorter strLt) (grow : Nat → Nat → Nat) (n : Nat) (penv : ParseEnv) (ord : MapOrder) (xmls : List Element)
    (roots : List Element) (cfg : Config) (docs : List Doc) (hdoc : ReadsNotes penv) (hn : ∀ t ∈ xmls, depth t ≤ n)
    (hap : ∀ t ∈ xmls, SchemasApart t) (hd : ∀ t ∈ xmls.flatMap schemasIn, Neat t ∧ 3 * depth t ≤ n) (hl : Xsd.Linked (xmls.flatMap schemasIn))
    (hs : Xsd.SoundSet penv (xmls.flatMap schemasIn)) (hroots : normalize grow n xmls = some roots) (ho : Orderly roots) (hr : Regular roots)
    (hder : Derivable roots) (hpre : cfg.preprocessType = none) (hw : (wanted cfg docs).Nodup) (hf : ∀ x ∈ wanted cfg docs, ∃ r ∈ roots, target r = x) :
    ∃ N, ∀ m, N ≤ m → ∃ cfg' r, genCode env srt m (fun _ => Xsd.parse grow n penv ord xmls) cfg docs = (cfg', .done (.ok r)) := by
  obtain ⟨ss, H, hp⟩ := C151_accepts_partial penv grow n ord xmls hdoc hn hap hd hl hs
  have hpe : Xsd.parse grow n penv ord xmls = parseSchemas penv ord roots := by
    unfold Xsd.parse
    rw [hroots]
  refine ⟨H.length + 3, fun m hm => ?_⟩
  refine C153_schemas_partial env srt m _ penv ord roots cfg docs ss H hpe (hpe.symm.trans hp) ho hr hder ?_ hw hf hm
  intro pre e
  rw [hpre] at e
  cases e

/-- A rank of the names in `neatDoc` and `secondDoc`. -/
def secondRank (n : XName) : Nat :=
  if n.space = w3cSchemaNS then 0 else if n.loc = b!"large" ∨ n.loc = b!"rates" ∨ n.loc = b!"id" then 2 else 1

/-- The names in these documents of types that xsdgen makes no lists of, and of those that are derived from them. -/
def secondUnlisted (n : XName) : Bool := (decide (n.space = w3cSchemaNS) && decide (n.loc ∈ unlisted)) || decide (n.loc ∈ [b!"order", b!"item", b!"large"])

/-- The two documents meet the conditions. -/
example (env : Env) (srt : Sorter strLt) (ord : MapOrder) :
    ∃ N, ∀ m, N ≤ m → ∃ cfg' r, genCode env srt m (fun _ => Xsd.parse doubling 30 boundEnv ord [neatDoc, secondDoc])
      { namespaces := [b!"urn:t", b!"urn:u"] } [] = (cfg', .done (.ok r)) := by
  have : (normalize doubling 30 [neatDoc, secondDoc]).map (fun roots => orderlyOk roots && regularOk roots &&
      derivableOk secondRank secondUnlisted roots && decide (∀ x ∈ [b!"urn:t", b!"urn:u"], ∃ r ∈ roots, target r = x)) = some true := by
    decide +kernel
  obtain ⟨roots, hroots, h⟩ := Option.map_eq_some_iff.mp this
  simp only [Bool.and_eq_true, decide_eq_true_eq] at h
  obtain ⟨⟨⟨ho, hr⟩, hder⟩, hf⟩ := h
  exact C153_sound_partial env srt doubling 30 boundEnv ord [neatDoc, secondDoc] roots _ [] bound_documented (by decide +kernel) (by decide +kernel)
    (by decide +kernel) (by decide +kernel) second_sound hroots (orderly_of ho) (regular_of hr) (derivable_of hder) rfl
    (by decide : [b!"urn:t", b!"urn:u"].Nodup) hf

end GoXml.Xsdgen
