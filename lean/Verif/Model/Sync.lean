import Verif.Model.Node
import Verif.Model.Int64
/-
Model of dynaml/sync.go: the evaluation of a sync expression as a state machine. The
sub expressions are seen through the outcomes of their evaluation, which may change from one
evaluation to the next one. Times are nanoseconds.
-/
namespace Spiff

/-- dynaml/sync.go:10-18: the mutable part of a `SyncExpr` (`none`: zero time). -/
structure SyncSt where
  first : Option Int := none
  last : Option Int := none
deriving DecidableEq, Repr

/-- Outcome of evaluating a sub expression. -/
inductive SOut (α : Type) where
  | fail (msg : String)
  | unresolved
  | value (v : α)
deriving Repr

/-- What one evaluation sees. -/
structure SView (V : Type) where
  /-- `time.Now()` in line 26 (used by the first evaluation only) -/
  now1 : Int
  /-- `time.Now()` in line 103 -/
  now2 : Int
  /-- the timeout in seconds; `none`: no or defaulted timeout expression (line 30-43) -/
  timeout : Option (SOut Int)
  /-- the synchronized expression (line 49) -/
  arg : SOut V
  /-- the condition (line 73-99): `fail` is a failed evaluation, a lambda with a wrong number of
  parameters or a missing lambda, `value none` a value that is not of type bool. It may depend on
  the outcome of the argument. -/
  cond : SOut (Option Bool)
  /-- the value expression; `none`: no or defaulted expression (line 126-165) -/
  result : Option (SOut V)

/-- Result of one evaluation: `again` and `pending` return the expression itself with the given
state (`again`: after a false condition; `pending`: something is unresolved). -/
inductive SRes (V : Type) where
  | again (s : SyncSt)
  | pending (s : SyncSt)
  | value (v : Option V)
  | error (msg : String)

/-- dynaml/sync.go:29, 42: `time.Second * time.Duration(t)` is computed in 64 bits -/
def syncDuration (timeout : Option Int) : Int :=
  match timeout with
  | none => 5 * 60 * 1000000000
  | some t => wrap64 (1000000000 * t)

/-- dynaml/sync.go:126-168: the value if the condition is true. -/
def syncValue {V : Type} (s : SyncSt) (x : SView V) : SRes V :=
  match x.result with
  | none => match x.arg with
    | .value v => .value (some v)
    | _ => .value none
  | some (.fail _) => .error "value expression failed"
  | some .unresolved => .pending s
  | some (.value v) => .value (some v)

/-- dynaml/sync.go:100-124: the condition -/
def syncCond {V : Type} (s : SyncSt) (first : Int) (dur : Int) (x : SView V) : SRes V :=
  match x.cond with
  | .fail m => .error m
  | .unresolved => .pending s
  | .value none => .error "condition must evaluate to bool"
  | .value (some true) => syncValue s x
  | .value (some false) =>
    if x.now2 < first + dur then .again { s with last := some x.now2 }
    else match x.arg with
      | .fail m => if m ≠ "" then .error m else .error "sync timeout reached"
      | _ => .error "sync timeout reached"

/-- dynaml/sync.go:46-71: the argument -/
def syncArg {V : Type} (s : SyncSt) (first : Int) (dur : Int) (x : SView V) : SRes V :=
  match x.arg with
  | .unresolved => .pending s
  | _ => syncCond s first dur x

/-- dynaml/sync.go:20-168 `SyncExpr.Evaluate`. If the argument failed and the condition is
true without a value expression, the result is nil (`value none`): line 167 returns the variable
`ok`, which has been set to true by the evaluation of the condition in line 74. -/
def syncStep {V : Type} (s : SyncSt) (x : SView V) : SRes V :=
  let first := s.first.getD x.now1
  let s := { s with first := some first }
  match x.timeout with
  | none => syncArg s first (syncDuration none) x
  | some (.fail m) => .error m
  | some .unresolved => .pending s
  | some (.value t) => syncArg s first (syncDuration (some t)) x

/-- The state of the expression in the document after an evaluation: a failed expression stays
as it was before (flow/flow.go:162-167). `none`: replaced by a value. -/
def syncNext {V : Type} (s : SyncSt) (r : SRes V) : Option SyncSt :=
  match r with
  | .again s' => some s'
  | .pending s' => some s'
  | .error _ => some s
  | .value _ => none

/-- The results of successive evaluations, until a value is found. -/
def syncRun {V : Type} (s : SyncSt) : List (SView V) → List (SRes V)
  | [] => []
  | x :: xs =>
    let r := syncStep s x
    r :: match syncNext s r with
      | some s' => syncRun s' xs
      | none => []

end Spiff
