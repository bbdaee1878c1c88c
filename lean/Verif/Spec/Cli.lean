import Verif.Model.Cli
import Verif.Spec.Gen
import Verif.Spec.Xsdgen
import Mathlib.Data.List.Forall2
set_option autoImplicit false

/-! Command lines as they are written: flags with their values in any of the spellings that the package `flag`
documents (`-flag`, `--flag`, `-flag=x`, `-flag x`), then files. -/

namespace GoXml.Cli
open Xsdgen

/-- One minus or two. -/
def Dash (d : Str) : Prop := d = b!"-" ∨ d = b!"--"

/-- The arguments that a flag with its value is written as. A flag that is not boolean may have its value in the
next argument; a boolean flag may have none, and then it is true. -/
inductive Written (boolean : Str → Prop) : Str × Str → List Str → Prop where
  | attached (d name value : Str) : Dash d → Written boolean (name, value) [d ++ name ++ b!"=" ++ value]
  | separate (d name value : Str) : Dash d → ¬ boolean name → Written boolean (name, value) [d ++ name, value]
  | bare (d name : Str) : Dash d → boolean name → Written boolean (name, b!"true") [d ++ name]

/-- The files follow `--`, or the first of them is not taken for a flag. -/
inductive FilesWritten : List Str → List Str → Prop where
  | plain (files : List Str) : (∀ f, files.head? = some f → f.head? ≠ some 45 ∨ f = b!"-") → FilesWritten files files
  | afterDashes (files : List Str) : FilesWritten files (b!"--" :: files)

/-- The arguments are these flags with their values, followed by these files. -/
def CommandLine (boolean : Str → Prop) (flags : List (Str × Str)) (files arguments : List Str) : Prop :=
  ∃ parts rest, List.Forall₂ (Written boolean) flags parts ∧ FilesWritten files rest ∧ arguments = parts.flatten ++ rest

/-- The values that are given for a flag, in their order. -/
def valuesOf (flags : List (Str × Str)) (name : Str) : List Str := (flags.filter fun f => decide (f.1 = name)).map (·.2)

/-- The last value that is given for a flag. -/
def lastOf (flags : List (Str × Str)) (name default : Str) : Str := (valuesOf flags name).getLast?.getD default

/-- The texts for true. -/
def Truth (s : Str) : Prop := s ∈ [b!"1", b!"t", b!"T", b!"TRUE", b!"true", b!"True"]

/-- The texts for false. -/
def Falsity (s : Str) : Prop := s ∈ [b!"0", b!"f", b!"F", b!"FALSE", b!"false", b!"False"]

instance (s : Str) : Decidable (Truth s) := by unfold Truth; infer_instance
instance (s : Str) : Decidable (Falsity s) := by unfold Falsity; infer_instance

/-- The text is a rule `regex -> replacement`. -/
def IsRule (compile : Str → Option Regexp) (s : Str) (rule : Regexp × Str) : Prop :=
  ∃ a b f, Gen.FirstArrow s a b ∧ Gen.TrimmedTo a f ∧ Gen.TrimmedTo b rule.2 ∧ compile f = some rule.1

/-- A flag of a command with a value that it can have; `others` are the names of the flags whose value may be any
text. -/
def ValidFlag (compile : Str → Option Regexp) (booleans others : List Str) (f : Str × Str) : Prop :=
  (f.1 ∈ booleans ∧ (Truth f.2 ∨ Falsity f.2)) ∨ f.1 ∈ others ∨ (f.1 = b!"r" ∧ ∃ rule, IsRule compile f.2 rule)

/-- The boolean flags of xsdgen, and those whose value may be any text. -/
def xBooleans : List Str := [b!"f", b!"v", b!"vv"]
def xTexts : List Str := [b!"pkg", b!"o", b!"ns"]

/-- The boolean flags of wsdlgen, and those whose value may be any text. -/
def wBooleans : List Str := [b!"v", b!"vv"]
def wTexts : List Str := [b!"pkg", b!"c", b!"o", b!"port"]

/-- A name after rules have been applied in their order. -/
def rulesApplied (rules : List (Regexp × Str)) (name : Str) : Str := rules.foldl (fun s r => r.1.replaceAll s r.2) name

end GoXml.Cli
