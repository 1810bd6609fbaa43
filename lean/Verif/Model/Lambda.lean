import Verif.Model.Eval
/-
Model of lambda values: dynaml/lambda.go. The body of a lambda and its evaluation are parameters (`B`): modelled is
the binding of arguments and currying, and the evaluation of default values by `LambdaExpr.Evaluate`.
-/
namespace Spiff
variable {E B : Type}

/-- dynaml/lambda.go:19-22 `Parameter` of a lambda value: a default is a `ValueExpr` -/
structure Param (E : Type) where
  name : String
  default : Option (Val E) := none

/-- dynaml/lambda.go:143-148 `LambdaValue` (with the variadic mark and the body of its `LambdaExpr`). For lambda expressions accepted
by the parser `Parameters` and `lambda.Parameters` have the same elements after the evaluation, see `default_frozen` in Props/Lambda.lean.
The static resolver (used for `_.x`) is not modelled. -/
structure Lam (E B : Type) where
  params : List (Param E)
  varargs : Bool := false
  static : List (String × Node E) := []
  body : B

/-- Outcome of dynaml/lambda.go:244-360 up to the evaluation of the body: an error, a lambda value with fewer parameters, or
the local scope the body is evaluated in. -/
inductive LamCall (E B : Type) where
  | err
  | curried (l : Lam E B)
  | run (inp : List (String × Node E))

/-- `strconv.ParseInt(s, 10, 32)` -/
def parseInt32 (s : String) : Option Int :=
  match parseInt s with
  | some i => if i < -2 ^ 31 ∨ i ≥ 2 ^ 31 then none else some i
  | none => none

/-- dynaml/lambda.go:251-263: a named argument may be given by the index of the parameter -/
def argName (params : List (Param E)) (n : String) : Option String :=
  match parseInt32 n with
  | none => some n
  | some i => if i < 1 then none else (params[(i - 1).toNat]?).map (·.name)

/-- dynaml/lambda.go:249-269: `none` is an error -/
def namedArgs (params : List (Param E)) : List (String × Node E) → List (String × Node E) → Option (List (String × Node E))
  | [], acc => some acc
  | (n, v) :: r, acc => match argName params n with
    | none => none
    | some m => if (mget acc m).isSome then none else namedArgs params r (mset acc m v)

/-- dynaml/lambda.go:271-282: the surplus arguments of a variadic lambda become a list -/
def packArgs (L : Lam E B) (src : String) (args : List (Val E)) : List (Val E) :=
  if L.varargs ∧ L.params.length - 1 < args.length then
    args.take (L.params.length - 1) ++ [.list ((args.drop (L.params.length - 1)).map (Node.new · src))]
  else args

/-- dynaml/lambda.go:152-159 `ParameterIndex` -/
def paramIndex (params : List (Param E)) (n : String) : Option Nat := params.findIdx? (fun p => p.name = n)

/-- dynaml/lambda.go:305: the type test of the value for a variadic parameter -/
def isListVal : Val E → Bool
  | .list _ => true
  | _ => false

/-- dynaml/lambda.go:294-310: a named argument is accepted; `k` is the number of positional arguments -/
def namedOk (L : Lam E B) (k : Nat) (a : String × Node E) : Bool :=
  match paramIndex L.params a.1 with
  | none => false
  | some i => !(decide (i < k)) && !(L.varargs && decide (i = L.params.length - 1) && !(isListVal a.2.val))

/-- dynaml/lambda.go:316-318 -/
def bindArgs (src : String) : List (Param E) → List (Val E) → List (String × Node E) → List (String × Node E)
  | p :: ps, v :: vs, inp => bindArgs src ps vs (mset inp p.name (Node.new v (dynSource src)))
  | _, _, inp => inp

/-- dynaml/lambda.go:339-362: the parameters not given by position; `none` is an error -/
def fillParams (varargs : Bool) (named : List (String × Node E)) (src : String) :
    List (Param E) → List (String × Node E) → Option (List (String × Node E))
  | [], inp => some inp
  | p :: r, inp => match mget named p.name with
    | some v => fillParams varargs named src r (mset inp p.name v)
    | none => match p.default with
      | some d => fillParams varargs named src r (mset inp p.name (Node.new d (dynSource src)))
      | none =>
        if varargs ∧ r = [] then fillParams varargs named src r (mset inp p.name (Node.new (.list []) (dynSource src)))
        else none

/-- dynaml/lambda.go:320: currying without `*` -/
def autoCurry (L : Lam E B) (named : List (String × Node E)) (k : Nat) : Bool :=
  named.isEmpty && decide (k < L.params.length) && !L.varargs && (L.params.getLast?.bind (·.default)).isNone

/-- dynaml/lambda.go:322-337: the lambda with the remaining parameters -/
def curryLambda (L : Lam E B) (named : List (String × Node E)) (k : Nat) (inp : List (String × Node E)) : Lam E B where
  params := (L.params.drop k).filter (fun p => (mget named p.name).isNone)
  varargs := L.varargs && decide (k < L.params.length) &&
    (match L.params.getLast? with | some p => (mget named p.name).isNone | none => false)
  static := inp
  body := L.body

/-- dynaml/lambda.go:244-362 `LambdaValue.Evaluate` up to the evaluation of the body; `src` is the source name of the binding. -/
def callLambda (L : Lam E B) (src : String) (curry auto : Bool) (nargs : List (String × Node E)) (args : List (Val E)) : LamCall E B :=
  match namedArgs L.params nargs [] with
  | none => .err
  | some named =>
    let args := packArgs L src args
    if L.params.length < args.length then .err
    else if !(named.all (namedOk L args.length)) then .err
    else
      let inp := bindArgs src L.params args (named.foldl (fun r e => mset r e.1 e.2) L.static)
      if curry || (auto && autoCurry L named args.length) then .curried (curryLambda L named args.length inp)
      else match fillParams L.varargs named src (L.params.drop args.length) inp with
        | none => .err
        | some inp => .run inp

/-- Outcome of a call (resolved, value, info, ok): dynaml/lambda.go:367-381. Of the info only `Undefined` is
modelled here. -/
inductive LamOut (E : Type) where
  | fail
  | later
  | val (v : Val E) (undefined : Bool)
  | panic

/-- dynaml/lambda.go:363-381: the body is evaluated in the local scope, with the lambda itself as `_` unless it is
an inline lambda; `run` is the evaluation of bodies, `self` the node of the lambda. -/
def runLambda (run : B → List (String × Node E) → LamOut E) (inline : Bool) (self : Node E) (L : Lam E B) (inp : List (String × Node E)) : LamOut E :=
  run L.body (if inline then inp else mset inp SELF self)

/-- a call without currying, as used by mappings (dynaml/mapping.go:255) -/
def applyLambda (run : B → List (String × Node E) → LamOut E) (inline : Bool) (self : Node E) (L : Lam E B) (src : String)
    (args : List (Val E)) : LamOut E :=
  match callLambda L src false false [] args with
  | .run inp => runLambda run inline self L inp
  | _ => .fail

/-! ### lambda expressions -/

/-- the default of a parameter in a lambda expression: an expression of the source, or a `ValueExpr` (dynaml/value.go:9-18) -/
inductive DefEx (E D : Type) where
  | ast (d : D)
  | value (v : Val E)

/-- dynaml/lambda.go:31-35 `LambdaExpr`: the parameters -/
structure LamParam (E D : Type) where
  name : String
  default : Option (DefEx E D)

/-- `p.Default.Evaluate(binding, locally)`; `ev`: the evaluation of default expressions in the binding. A remaining expression is a
value here, since dynaml/lambda.go:64 does not test it (`value` is a function). -/
def evalDefault {D : Type} (ev : D → Option (Val E)) : DefEx E D → Option (Val E)
  | .ast d => ev d
  | .value v => some v

/-- dynaml/lambda.go:52-70 the values of the defaults, in order; `none`: one of them fails -/
def defaultValues {D : Type} (ev : D → Option (Val E)) : List (LamParam E D) → Option (List (String × Val E))
  | [] => some []
  | p :: r => match p.default with
    | none => defaultValues ev r
    | some d => match evalDefault ev d with
      | none => none
      | some v => (defaultValues ev r).map ((p.name, v) :: ·)

/-- dynaml/lambda.go:52-76 `LambdaExpr.Evaluate`: the parameters of the lambda value, and the parameters of the expression
afterwards: `params` starts as the slice `e.Parameters[:i]` in front of the first default, so appending to it overwrites the
elements of `e.Parameters`. If an evaluation fails, the defaults in front of it have been overwritten; this is not modelled
(`none`). -/
def evalLambdaExpr {D : Type} (ev : D → Option (Val E)) (ps : List (LamParam E D)) : Option (List (LamParam E D) × List (LamParam E D)) :=
  match defaultValues ev ps with
  | none => none
  | some [] => some (ps, ps)
  | some (x :: vs) =>
    let new := (x :: vs).map (fun e => ({ name := e.1, default := some (.value e.2) } : LamParam E D))
    let front := ps.takeWhile (fun p => p.default.isNone)
    some (front ++ new, front ++ new ++ ps.drop (front.length + new.length))

end Spiff
