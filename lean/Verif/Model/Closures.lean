import Verif.Model.Eval
/-
Model of the evaluation of functions: lambda expressions, calls, currying, recursion and mappings, with values that contain functions
(dynaml/lambda.go, call.go, mapping.go, scope.go and the local scopes of flow/environment.go). Model/Eval.lean covers the expressions without
functions in detail, Model/Lambda.lean the binding of arguments; here a function is a value with its body, and the body is really evaluated.

Simplifications: source names, infos and messages are dropped; arguments are not expanded (`e...`); named arguments are not given by index (see
Model/Lambda.lean); defaults are literals (other defaults are evaluated once, see `default_frozen` in Props/Lambda.lean); the lookup through `_` sees
the document at the definition, not the scope literals around the definition; templates are not modelled. A call of a plain name other than `_` is
a call of a builtin function (dynaml/call.go:64-66): it is `fn` here. The evaluation needs not terminate: `fuel` bounds the depth of the evaluation.
-/
namespace Spiff

/-- A place in the documents: what relative references mean is determined by it (the binding of the node). -/
abbrev Loc := List String

/-- Expressions with functions. -/
inductive LEx where
  | lit (l : Lit)
  | ref (name : String) (path : List String)          -- `name.path`, relative; `_` is the function itself
  | self (name : String) (path : List String)         -- `_.name.path`
  | abs (path : List String)                          -- `.path`
  | bin (op : String) (a b : LEx)                     -- operators
  | cond (c t f : LEx)                                -- c ? t : f
  | or (a b : LEx)                                    -- a || b
  | list (l : List LEx)                               -- [e, ...]
  | fn (name : String) (args : List LEx)              -- builtin function
  | lam (params : List String) (varargs : Bool) (defs : List Lit) (body : LEx)
                                                      -- lambda|p,..|->body; the last parameters have the defaults `defs`
  | call (curry : Bool) (f : LEx) (names : List String) (args : List LEx)
                                                      -- f(n=e, ..., e, ...): the first arguments are named by `names`
  | scope (fields : List (String × LEx)) (e : LEx)     -- ($k = v, ...) e
  | mapping (coll f : LEx)                            -- map[coll|f]

/-- Values. A function consists of its parameters (`varargs`: the last one takes the surplus arguments; `defs`: defaults), the local scopes at its
definition, the place of its definition and its body (dynaml/lambda.go:145-150). -/
inductive CVal where
  | data (d : Lit)
  | list (l : List CVal)
  | map (m : List (String × CVal))
  | clo (params : List String) (varargs : Bool) (defs : List (String × Lit)) (static : List (String × CVal)) (home : Loc) (body : LEx)

/-- Outcome of an evaluation: a value, an expression to be evaluated later, an error, a Go panic; `fuel`: not decided with the given depth. -/
inductive CRes (α : Type) where
  | ok (v : α)
  | later
  | fail
  | crash
  | fuel

/-- the results of `f` for the value -/
def CRes.bind {α β : Type} (o : CRes α) (f : α → CRes β) : CRes β :=
  match o with
  | .ok v => f v
  | .later => .later
  | .fail => .fail
  | .crash => .crash
  | .fuel => .fuel

/-- The documents: relative references at a place, and absolute ones. -/
structure Docs where
  look : Loc → String → List String → CRes CVal
  root : Loc → List String → CRes CVal

/-- The primitive operations: operators, functions, truth of values, access to a field of a value. -/
structure Prims where
  bin : String → CVal → CVal → CRes CVal
  fn : String → List CVal → CRes CVal
  truth : CVal → Bool
  path : CVal → List String → CRes CVal

/-- local scopes (innermost first after merging): flow/environment.go:284-296 keeps them merged in `static` -/
abbrev Locals := List (String × CVal)

/-- flow/environment.go:284-296 `WithLocalScope`: the fields of `m` hide those of `σ` -/
def overlay (σ m : Locals) : Locals := m ++ σ

/-- dynaml/expression.go:280-318 `ResolveExpressionListOrPushEvaluation`: the first failure counts, otherwise something unresolved. -/
def evalAll (ev : LEx → CRes CVal) : List LEx → CRes (List CVal)
  | [] => .ok []
  | e :: r => match ev e with
    | .ok v => (evalAll ev r).bind (fun vs => .ok (v :: vs))
    | .later => (evalAll ev r).bind (fun _ => .later)
    | .fail => .fail
    | .crash => .crash
    | .fuel => .fuel

/-- dynaml/lambda.go:11-17 `staticScope`: inside of a function the place where it was defined (a `_` that is no function has no resolver: the
conversion panics) -/
def homeOf (σ : Locals) (loc : Loc) : Option Loc :=
  match mget σ SELF with
  | none => some loc
  | some (.clo _ _ _ _ h _) => some h
  | some _ => none

/-- dynaml/lambda.go:271-282: the surplus arguments of a variadic function become a list -/
def packVals (n : Nat) (varargs : Bool) (args : List CVal) : List CVal :=
  if varargs && decide (n - 1 < args.length) then args.take (n - 1) ++ [.list (args.drop (n - 1))] else args

/-- a list (dynaml/lambda.go:305) -/
def isListC : CVal → Bool
  | .list _ => true
  | _ => false

/-- dynaml/lambda.go:294-310: a named argument is accepted; `k` is the number of positional arguments -/
def namedFits (params : List String) (varargs : Bool) (k : Nat) (a : String × CVal) : Bool :=
  match params.findIdx? (· = a.1) with
  | none => false
  | some i => !(decide (i < k)) && !(varargs && decide (i = params.length - 1) && !(isListC a.2))

/-- setting several fields -/
def setAllC (l : List (String × CVal)) (m : Locals) : Locals := l.foldl (fun r e => mset r e.1 e.2) m

/-- dynaml/lambda.go:339-362: the parameters not given by position; `none` is an error -/
def fillC (varargs : Bool) (defs : List (String × Lit)) (named : List (String × CVal)) : List String → Locals → Option Locals
  | [], inp => some inp
  | p :: r, inp => match mget named p with
    | some v => fillC varargs defs named r (mset inp p v)
    | none => match mget defs p with
      | some d => fillC varargs defs named r (mset inp p (.data d))
      | none => if varargs ∧ r = [] then fillC varargs defs named r (mset inp p (.list [])) else none

/-- the last parameter is no field of the map -/
def lastFree {α : Type} (params : List String) (m : List (String × α)) : Bool := (params.getLast?.bind (fun p => mget m p)).isNone

/-- What a call does before the body is evaluated: an error, a function with less parameters, or the local scope for the body. -/
inductive Called where
  | err
  | curried (f : CVal)
  | run (inp : Locals)

/-- dynaml/lambda.go:244-362 -/
def callClo (params : List String) (varargs : Bool) (defs : List (String × Lit)) (static : Locals) (home : Loc) (body : LEx)
    (curry auto : Bool) (named : List (String × CVal)) (args : List CVal) : Called :=
  let vals := packVals params.length varargs args
  if params.length < vals.length then .err
  else if !(named.all (namedFits params varargs vals.length)) then .err
  else
    let inp := setAllC (params.zip vals) (setAllC named static)
    if curry || (auto && named.isEmpty && decide (vals.length < params.length) && !varargs &&
        lastFree params defs) then
      .curried (.clo ((params.drop vals.length).filter (fun p => (mget named p).isNone))
        (varargs && decide (vals.length < params.length) && lastFree params named)
        defs inp home body)
    else match fillC varargs defs named (params.drop vals.length) inp with
      | none => .err
      | some inp => .run inp

/-- dynaml/lambda.go:244-381 `LambdaValue.Evaluate` and dynaml/call.go:167-169: a call of the value `f` at a place with the local scopes `σ`; `ev` evaluates
the body in local scopes. -/
def applyClo (ev : Locals → LEx → CRes CVal) (σ : Locals) (inline curry auto : Bool) (f : CVal) (named : List (String × CVal)) (args : List CVal) : CRes CVal :=
  match f with
  | .clo ps va defs st h body => match callClo ps va defs st h body curry auto named args with
    | .err => .fail
    | .curried g => .ok g
    | .run inp => ev (overlay σ (if inline then inp else mset inp SELF (.clo ps va defs st h body))) body
  | _ => .fail

/-- the number of parameters of a function -/
def arity : CVal → Option Nat
  | .clo ps _ _ _ _ _ => some ps.length
  | _ => none

/-- dynaml/mapping.go:281-312 `mapList` with 160-169: the loop; empty results are dropped. `ap` is the call for an argument list. -/
def mapVals (ap : List CVal → CRes CVal) (np : Nat) : Nat → List CVal → CRes (List CVal)
  | _, [] => .ok []
  | i, v :: r =>
    if np = 0 then .crash
    else match ap (if np = 1 then [v] else [.data (.int i), v]) with
      | .ok (.data .nil) => mapVals ap np (i + 1) r
      | .ok w => (mapVals ap np (i + 1) r).bind (fun vs => .ok (w :: vs))
      | .later => .later
      | .fail => .fail
      | .crash => .crash
      | .fuel => .fuel

/-- whether an expression is a lambda expression (dynaml/lambda.go:37-40 `isInline`) -/
def isLamEx : LEx → Bool
  | .lam _ _ _ _ => true
  | _ => false

/-- dynaml/mapping.go:17-45 for given operands (only lists; maps see Model/Mapping.lean) -/
def mapList (ap : CVal → List CVal → CRes CVal) (coll f : CVal) : CRes CVal :=
  match arity f with
  | none => .fail
  | some np => match coll with
    | .list l => if 2 < np then .fail else (mapVals (ap f) np 0 l).bind (fun vs => .ok (.list vs))
    | _ => .fail

/-- dynaml/call.go:68-117: the function of a call is evaluated before the arguments; if it is no function, the arguments are not evaluated -/
def callWith (f : CRes CVal) (args : CRes (List CVal)) (k : CVal → List CVal → CRes CVal) : CRes CVal :=
  match f with
  | .ok fv => if (arity fv).isSome then args.bind (k fv) else .fail
  | .later => args.bind (fun _ => .later)
  | .fail => .fail
  | .crash => .crash
  | .fuel => .fuel

/-- The evaluation of an expression at a place, with local scopes. -/
def ceval (P : Prims) (D : Docs) (loc : Loc) : Nat → Locals → LEx → CRes CVal
  | 0, _, _ => .fuel
  | n + 1, σ, e => match e with
    | .lit l => .ok (.data l)
    -- dynaml/reference.go:27-42, flow/environment.go:208-235: local scopes first, then the document
    | .ref x path => (match mget σ x with | some v => P.path v path | none => D.look loc x path)
    -- flow/environment.go:229-233: `_.x` is looked up where the function was defined
    | .self x path => (match mget σ SELF with
      | some (.clo _ _ _ _ h _) => D.look h x path
      | some _ => .crash
      | none => .fail)
    | .abs path => D.root loc path
    | .bin op a b => (evalAll (ceval P D loc n σ) [a, b]).bind (fun vs => match vs with | [v, w] => P.bin op v w | _ => .fail)
    -- dynaml/cond.go:19-41
    | .cond c t f => (ceval P D loc n σ c).bind (fun v => if P.truth v then ceval P D loc n σ t else ceval P D loc n σ f)
    -- dynaml/or.go:17-34
    | .or a b => (match ceval P D loc n σ a with | .fail => ceval P D loc n σ b | o => o)
    | .list l => (evalAll (ceval P D loc n σ) l).bind (fun vs => .ok (.list vs))
    | .fn name args => (evalAll (ceval P D loc n σ) args).bind (fun vs => P.fn name vs)
    -- dynaml/lambda.go:49-80
    | .lam ps va ds body => (match homeOf σ loc with
        | none => .crash
        | some h => .ok (.clo ps va ((ps.drop (ps.length - ds.length)).zip ds) σ h body))
    -- dynaml/call.go:59-169
    | .call curry f names args => callWith (ceval P D loc n σ f) (evalAll (ceval P D loc n σ) args) (fun fv avs =>
        applyClo (ceval P D loc n) σ false curry true fv (setAllC (names.zip avs) []) (avs.drop names.length))
    -- dynaml/scope.go:15-43
    | .scope fs b => (evalAll (ceval P D loc n σ) (fs.map (·.2))).bind (fun vs => ceval P D loc n (overlay σ (setAllC ((fs.map (·.1)).zip vs) [])) b)
    -- dynaml/mapping.go:17-53
    | .mapping coll f => (evalAll (ceval P D loc n σ) [coll, f]).bind (fun vs => match vs with
        | [cv, fv] => mapList (fun g args => applyClo (ceval P D loc n) σ (isLamEx f) false false g [] args) cv fv
        | _ => .fail)

end Spiff
