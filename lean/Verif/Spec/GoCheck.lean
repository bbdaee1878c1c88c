import Verif.Model.XsdgenConfig
set_option autoImplicit false

/-! A type checker for the fragment of Go in which the methods of list types are written. Constant arguments
(bases, sizes, separators) are left out of calls. -/

namespace GoXml.Xsdgen

/-- Expressions. -/
inductive GoTerm where
  | var (name : Str)
  | conv (type : GoExpr) (arg : GoTerm)
  | call (fn : Str) (arg : GoTerm)
deriving DecidableEq, Repr

/-- Statements. `attempt v e rets body` is `if v, err := e; err != nil { return rets, err } else { body }`, and
`attemptOnly e` is `if err := e; err != nil { return err }`. `push x e` is `x = append(x, e)`. The last value of
`ret` is `nil` for the error if there is one value less than results. -/
inductive GoStmt where
  | skip
  | seq (a b : GoStmt)
  | range (v : Str) (over : GoTerm) (body : GoStmt)
  | attempt (v : Str) (e : GoTerm) (rets : List GoTerm) (body : GoStmt)
  | attemptOnly (e : GoTerm)
  | declare (v : Str) (type : GoExpr)
  | push (x : Str) (e : GoTerm)
  | assign (x : Str) (e : GoTerm)
  | ret (values : List GoTerm) (nils : Nat)
deriving Repr

def goString : GoExpr := .ident b!"string"
def goBytes : GoExpr := .array (.ident b!"byte")

/-- The functions of the standard library that are called: the types of the argument and of the result, and whether
there is an error beside it. -/
def library : List (Str × GoExpr × GoExpr × Bool) :=
  [(b!"strconv.FormatInt", .ident b!"int64", goString, false),
   (b!"strconv.FormatUint", .ident b!"uint64", goString, false),
   (b!"strconv.FormatFloat", .ident b!"float64", goString, false),
   (b!"strconv.Itoa", .ident b!"int", goString, false),
   (b!"strconv.ParseInt", goString, .ident b!"int64", true),
   (b!"strconv.ParseUint", goString, .ident b!"uint64", true),
   (b!"strconv.ParseFloat", goString, .ident b!"float64", true),
   (b!"strconv.Atoi", goString, .ident b!"int", true),
   (b!"bytes.Join", .array goBytes, goBytes, false),
   (b!"bytes.Fields", goBytes, .array goBytes, false),
   (b!"strings.Fields", goString, .array goString, false),
   (b!"Time.MarshalText", .ident b!"time.Time", goBytes, true)]

def libraryFn (fn : Str) : Option (GoExpr × GoExpr × Bool) := (library.find? fun e => e.1 = fn).map (·.2)

/-- The numeric types. -/
def numericTypes : List Str :=
  [b!"byte", b!"int", b!"int64", b!"uint", b!"uint64", b!"float32", b!"float64"]

def isNumeric : GoExpr → Bool
  | .ident s => numericTypes.contains s
  | .array _ => false

/-- Which conversions are allowed: between numeric types, between strings and bytes, and of a type to itself. -/
def convertible (a b : GoExpr) : Bool :=
  a == b || (isNumeric a && isNumeric b) || (a == goString && b == goBytes) || (a == goBytes && b == goString)

def varType (vars : List (Str × GoExpr)) (x : Str) : Option GoExpr := (vars.find? fun e => decide (e.1 = x)).map (·.2)

def GoTerm.type (vars : List (Str × GoExpr)) : GoTerm → Option GoExpr
  | .var n => varType vars n
  | .conv t a => match a.type vars with
    | some s => if convertible s t then some t else none
    | none => none
  | .call f a => match libraryFn f, a.type vars with
    | some (s, t, false), some s' => if s = s' then some t else none
    | _, _ => none

/-- The type of the first result of a call that also has an error. -/
def GoTerm.typeTried (vars : List (Str × GoExpr)) : GoTerm → Option GoExpr
  | .call f a => match libraryFn f, a.type vars with
    | some (s, t, true), some s' => if s = s' then some t else none
    | _, _ => none
  | _ => none

/-- The statement type-checks in a function with these results, of which the last is an error; the result is the
variables after it. -/
def GoStmt.check (results : List GoExpr) : List (Str × GoExpr) → GoStmt → Option (List (Str × GoExpr))
  | vars, .skip => some vars
  | vars, .seq a b => match a.check results vars with
    | some vars' => b.check results vars'
    | none => none
  | vars, .range v over body => match over.type vars with
    | some (.array t) => (body.check results ((v, t) :: vars)).map fun _ => vars
    | _ => none
  | vars, .attempt v e rets body => match e.typeTried vars with
    | some t =>
      if rets.map (·.type ((v, t) :: vars)) ++ [some (.ident b!"error")] = results.map some then
        (body.check results ((v, t) :: vars)).map fun _ => vars
      else none
    | none => none
  | vars, .attemptOnly e => match e with
    | .call f a => if f = b!"Time.UnmarshalText" ∧ a.type vars = some goBytes ∧ results = [.ident b!"error"] then some vars else none
    | _ => none
  | vars, .declare v t => some ((v, t) :: vars)
  | vars, .push x e => match varType vars x, e.type vars with
    | some (.array t), some s => if t = s then some vars else none
    | _, _ => none
  | vars, .assign x e => match varType vars x, e.type vars with
    | some t, some s => if t = s then some vars else none
    | _, _ => none
  | vars, .ret values nils =>
    if values.map (·.type vars) ++ List.replicate nils (some (.ident b!"error")) = results.map some then some vars else none

/-- The statement ends with a return. -/
def GoStmt.returns : GoStmt → Bool
  | .seq _ b => b.returns
  | .ret _ _ => true
  | _ => false

/-- The bodies of `MarshalText` and `UnmarshalText` compile for a list of `item`. -/
def ListCompiles (item : GoExpr) (marshal unmarshal : GoStmt) : Prop :=
  (marshal.check [goBytes, .ident b!"error"] [(b!"*x", .array item)]).isSome = true ∧ marshal.returns = true ∧
  (unmarshal.check [.ident b!"error"] [(b!"*x", .array item), (b!"text", goBytes)]).isSome = true ∧ unmarshal.returns = true

instance (item : GoExpr) (m u : GoStmt) : Decidable (ListCompiles item m u) := by unfold ListCompiles; infer_instance

end GoXml.Xsdgen
