import Verif.Model.Ops
import Verif.Model.Int64
/-
Model of the functions for semantic versions: dynaml/semver. The package github.com/Masterminds/semver/v3 is a parameter.
-/
namespace Spiff

/-- the functions used of the package for semantic versions. `setPrerelease` and `setMetadata` return a version also in case of an error (`false`). -/
structure SemLib (V : Type) where
  parse : String → Option V
  original : V → String
  text : V → String
  major : V → Nat
  minor : V → Nat
  patch : V → Nat
  prerelease : V → String
  metadata : V → String
  incMajor : V → V
  incMinor : V → V
  incPatch : V → V
  setPrerelease : V → String → V × Bool
  setMetadata : V → String → V × Bool
  compare : V → V → Int
  constraint : String → Option (V → Bool)
  /-- `sort.Sort(semver.Collection(_))` -/
  sort : List V → List V

section
variable {V E : Type}

/-- dynaml/semver/semver.go:28-41 `parse` -/
def semParse (L : SemLib V) : Val E → Option V
  | .str s => L.parse s
  | _ => none

/-- dynaml/semver/semver.go:43-45, 47-73: `func_semver` and `func_semver2` without setter -/
def semGet (L : SemLib V) (get : V → Val E) : List (Val E) → Out (Val E)
  | [a] => match semParse L a with
    | some v => .ok (get v)
    | none => .err
  | _ => .err

/-- dynaml/semver/semver.go:47-90: `func_semver2` with a setter made by `setter` -/
def semGetSet (L : SemLib V) (get : V → Val E) (set : V → String → Option V) : List (Val E) → Out (Val E)
  | [a] => match semParse L a with
    | some v => .ok (get v)
    | none => .err
  | [a, x] => match semParse L a with
    | none => .err
    | some v => match x with
      | .str s => match set v s with
        | some r => .ok (.str (L.original r))
        | none => .err
      | _ => .err
  | _ => .err

/-- a version and the flag of an error as an optional version -/
def orNone (r : V × Bool) : Option V := if r.2 then some r.1 else none

/-- dynaml/semver/semver.go:94-96; `int64(_)` -/
def semMajor (L : SemLib V) : List (Val E) → Out (Val E) := semGet L (fun v => .int (wrap64 (L.major v)))
/-- dynaml/semver/semver.go:98-100 -/
def semMinor (L : SemLib V) : List (Val E) → Out (Val E) := semGet L (fun v => .int (wrap64 (L.minor v)))
/-- dynaml/semver/semver.go:102-104 -/
def semPatch (L : SemLib V) : List (Val E) → Out (Val E) := semGet L (fun v => .int (wrap64 (L.patch v)))
/-- dynaml/semver/semver.go:106-113 -/
def semPrerelease (L : SemLib V) : List (Val E) → Out (Val E) := semGetSet L (fun v => .str (L.prerelease v)) (fun v s => orNone (L.setPrerelease v s))
/-- dynaml/semver/semver.go:115-122 -/
def semMetadata (L : SemLib V) : List (Val E) → Out (Val E) := semGetSet L (fun v => .str (L.metadata v)) (fun v s => orNone (L.setMetadata v s))
/-- dynaml/semver/semver.go:124-134; the errors of the setters are ignored -/
def semRelease (L : SemLib V) : List (Val E) → Out (Val E) :=
  semGetSet L (fun v => .str (L.original (L.setPrerelease (L.setMetadata v "").1 "").1))
    (fun v s => (L.parse s).map (fun n => (L.setPrerelease (L.setMetadata n (L.metadata v)).1 (L.prerelease v)).1))
/-- dynaml/semver/semver.go:136-138 -/
def semNormalize (L : SemLib V) : List (Val E) → Out (Val E) := semGet L (fun v => .str (L.text v))
/-- dynaml/semver/mod.go:19-21 -/
def semIncMajor (L : SemLib V) : List (Val E) → Out (Val E) := semGet L (fun v => .str (L.original (L.incMajor v)))
/-- dynaml/semver/mod.go:23-25 -/
def semIncMinor (L : SemLib V) : List (Val E) → Out (Val E) := semGet L (fun v => .str (L.original (L.incMinor v)))
/-- dynaml/semver/mod.go:27-29 -/
def semIncPatch (L : SemLib V) : List (Val E) → Out (Val E) := semGet L (fun v => .str (L.original (L.incPatch v)))

/-- A value in an expression: Go's type `int` is none of the types the expressions know. -/
inductive GoVal (E : Type) where
  | val (v : Val E)
  | int (i : Int)

/-- dynaml/semver/compare.go:13-27 `func_compare`: the result has Go's type `int` -/
def semCompare (L : SemLib V) : List (Val E) → Out (GoVal E)
  | [a, b] => match semParse L a with
    | none => .err
    | some v => match semParse L b with
      | none => .err
      | some w => .ok (.int (L.compare v w))
  | _ => .err

/-- dynaml/comparison.go:38-89, 103-225: a comparison with such values. A Go `int` as first operand reaches no case of the type switches (false), and as second
one the defaults. -/
def compareGo [DecidableEq E] (op : CmpOp) : GoVal E → GoVal E → Out (Val E)
  | .val a, .val b => compareVals op a b
  | .int _, .val b => match op with
    | .eq => match b with
      | .nil => .undet
      | _ => .ok (.bool false)
    | .ne => match b with
      | .nil => .undet
      | _ => .ok (.bool true)
    | _ => .ok (.bool false)
  | .int _, .int _ => match op with
    | .ne => .ok (.bool true)
    | _ => .ok (.bool false)
  | .val a, .int _ => match op with
    | .eq => match a with
      | .nil => .undet
      | .str _ => .undet
      | _ => .ok (.bool false)
    | .ne => match a with
      | .nil => .undet
      | .str _ => .undet
      | _ => .ok (.bool true)
    | _ => match a with
      | .int _ => .err
      | .str _ => .err
      | _ => .ok (.bool false)

/-- dynaml/semver/sort.go:26-33: the versions of the arguments -/
def semVersions (L : SemLib V) : List (Val E) → Option (List V)
  | [] => some []
  | a :: r => match semParse L a with
    | none => none
    | some v => (semVersions L r).map (v :: ·)

/-- dynaml/semver/sort.go:18-45 `func_sort` -/
def semSort (L : SemLib V) (src : String) (args : List (Val E)) : Out (Val E) :=
  let args := match args with
    | [.list l] => l.map Node.val
    | _ => args
  match semVersions L args with
  | none => .err
  | some vs => .ok (.list ((L.sort vs).map (fun v => Node.new (.str (L.original v)) src)))

/-- result of a validation: an error, or whether the value is valid -/
abbrev SemCheck := Option Bool

/-- dynaml/semver/validate.go:45-59: the loop over the constraints -/
def semConstraints (L : SemLib V) (v : V) : List (Val E) → SemCheck
  | [] => some true
  | .str c :: r => match L.constraint c with
    | none => none
    | some f => if f v then semConstraints L v r else some false
  | _ :: _ => none

/-- dynaml/semver/validate.go:37-65 `validate` -/
def semCheck (L : SemLib V) (noerr : Bool) (value : Val E) (args : List (Val E)) : SemCheck :=
  match semParse L value with
  | none => if noerr then some false else none
  | some v => semConstraints L v args

/-- dynaml/semver/validate.go:18-31 `func_validate` -/
def semValidate (L : SemLib V) : List (Val E) → Out (Val E)
  | [] => .err
  | a :: args => match semCheck L false a args with
    | some true => .ok a
    | _ => .err

/-- dynaml/semver/validate.go:33-35 `validate_semver`, the validator `semver` -/
def semValidator (L : SemLib V) (value : Val E) (args : List (Val E)) : SemCheck := semCheck L true value args

/-- dynaml/semver/match.go:13-25 `func_match` -/
def semMatch (L : SemLib V) : List (Val E) → Out (Val E)
  | [] => .err
  | a :: args => match semCheck L false a args with
    | some b => .ok (.bool b)
    | none => .err

end

end Spiff
