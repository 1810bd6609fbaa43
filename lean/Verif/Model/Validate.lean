import Verif.Model.Ops
import Verif.Model.Dns
/-
Model of dynaml/validate.go: validation conditions. The messages are not modelled.
-/
namespace Spiff
variable {E : Type}

/-- Result of a validation: error in the condition, not yet resolvable, or the verdict.
(Go: `(bool, string, error, bool)`; an error takes precedence over "not resolved", as all users
of the result test the error first.) -/
inductive VRes | err | pending | ok (b : Bool)
deriving DecidableEq, Repr

/-- The parts that are not modelled: lambda validators (validate.go:98-140, seen by their verdict
for the value and the arguments), and the validators `match`, `ip`, `cidr`, comparisons with
floats, and the registered ones (validate.go:541-562, 615-639). -/
structure VLib (E : Type) where
  lambda : String → Val E → List (Val E) → VRes
  other : String → Val E → List (Val E) → VRes

/-- validate.go:156-160: the verdict of a negated validator -/
def VRes.negate : VRes → VRes
  | .ok b => .ok (!b)
  | r => r

/-- validate.go:142-152: the operator, and whether its result is negated; `none`: error -/
def validatorName (s : String) : Option (String × Bool) :=
  match s.toList with
  | [] => none
  | '!' :: r => some (String.ofList r, !(String.ofList r == "not"))
  | _ => some (s, s == "not")

/-- all checks must succeed; the first other result is returned
(validate.go:179-192, 213-235, 277-288) -/
def vAll {α : Type} (f : α → VRes) : List α → VRes
  | [] => .ok true
  | x :: r => match f x with
    | .ok true => vAll f r
    | o => o

/-- one check must succeed (validate.go:298-310); `none`: all failed -/
def vAny {α : Type} (f : α → VRes) : List α → Option VRes
  | [] => none
  | x :: r => match f x with
    | .ok false => vAny f r
    | o => some o

/-- dynaml/type.go:22-52 `ExpressionType` -/
def exprType : Val E → String
  | .str _ => "string"
  | .int _ => "int"
  | .float _ => "float"
  | .bool _ => "bool"
  | .list _ => "list"
  | .map _ => "map"
  | .templ _ => "template"
  | .lambda _ => "lambda"
  | .nil => "nil"
  | .expr _ => ""

/-- validate.go:171-193 -/
def vList (conds : List (Val E → VRes)) (value : Val E) : VRes :=
  match value with
  | .list l => if conds.isEmpty then .ok true else vAll (fun e => vAll (fun c => c (Node.val e)) conds) l
  | _ => .ok false

/-- validate.go:213-235: a map entry with key and value conditions -/
def vEntry (ck : Option (Val E → VRes)) (ce : Val E → VRes) (e : String × Node E) : VRes :=
  match ck with
  | none => ce e.2.val
  | some ck => match ck (.str e.1) with
    | .ok true => ce e.2.val
    | o => o

/-- validate.go:195-237; the entries in iteration order -/
def vMap (conds : List (Val E → VRes)) (value : Val E) : VRes :=
  match value with
  | .map m => match conds with
    | [] => .ok true
    | [ce] => vAll (vEntry none ce) m
    | [ck, ce] => vAll (vEntry (some ck) ce) m
    | _ => .err
  | _ => .ok false

/-- validate.go:239-271 -/
def vField (optional : Bool) (args : List (Node E)) (conds : List (Val E → VRes)) (value : Val E) : VRes :=
  match value with
  | .map m => match args with
    | [.mk (.str f) _ _] => .ok ((mget m f).isSome || optional)
    | [.mk (.str f) _ _, _] => match mget m f with
      | none => .ok optional
      | some x => match conds with
        | [_, c] => c x.val
        | _ => .err
    | _ => .err
  | _ => .ok false

/-- validate.go:273-293 -/
def vAnd (conds : List (Val E → VRes)) (value : Val E) : VRes :=
  if conds.isEmpty then .err else vAll (fun c => c value) conds

/-- validate.go:294-314. With a single argument the final result is `true` (line 311-313). -/
def vOr (conds : List (Val E → VRes)) (value : Val E) : VRes :=
  if conds.isEmpty then .err
  else match vAny (fun c => c value) conds with
    | some r => r
    | none => .ok (decide (conds.length = 1))

/-- validate.go:316-326 -/
def vEmpty : Val E → VRes
  | .str s => .ok s.isEmpty
  | .list l => .ok l.isEmpty
  | .map m => .ok m.isEmpty
  | _ => .err

/-- validate.go:327-348 -/
def vValueset [DecidableEq E] (args : List (Node E)) (value : Val E) : VRes :=
  match args with
  | [.mk (.list l) _ _] => .ok (l.any (fun v => eqVals value v.val))
  | _ => .err

/-- validate.go:350-366 -/
def vValue [DecidableEq E] (args : List (Node E)) (value : Val E) : VRes :=
  match args with
  | [a] => .ok (eqVals a.val value)
  | _ => .err

/-- validate.go:368-539: order comparisons. Floats: see `VLib`. -/
def vOrd (L : VLib E) (op : CmpOp) (name : String) (args : List (Node E)) (value : Val E) : VRes :=
  match args with
  | [.mk a _ _] => match a with
    | .str x => match value with
      | .str y => .ok (cmpStr op y x)
      | _ => .err
    | .int x => match value with
      | .int y => .ok (cmpInt op y x)
      | .float _ => L.other name value [a]
      | _ => .err
    | .float _ => match value with
      | .int _ => L.other name value [a]
      | .float _ => L.other name value [a]
      | _ => .err
    | _ => .err
  | _ => .err

/-- validate.go:563-581 -/
def vType (args : List (Node E)) (value : Val E) : VRes :=
  match vAny (fun a => match Node.val a with
    | .str s => .ok (s == exprType value)
    | _ => .err) args with
  | some r => r
  | none => .ok false

/-- validate.go:583-614: a string with a property; other values are errors -/
def vString (p : List Char → Bool) : Val E → VRes
  | .str s => .ok (p s.toList)
  | _ => .err

/-- validate.go:583-639: the DNS names, and the validators not modelled -/
def vDns (L : VLib E) (op : String) (args : List (Node E)) (value : Val E) : VRes :=
  if op = "dnsname" then vString (fun s => isWildcardDns1123Subdomain s || isDns1123Subdomain s) value
  else if op = "dnslabel" then vString isDns1123Label value
  else if op = "dnsdomain" then vString isDns1123Subdomain value
  else if op = "wildcarddnsdomain" then vString isWildcardDns1123Subdomain value
  else L.other op value (args.map Node.val)

/-- validate.go:167-640 `handleStringType`; `conds` are the arguments as conditions. -/
def handleString [DecidableEq E] (L : VLib E) (op : String) (args : List (Node E)) (conds : List (Val E → VRes))
    (value : Val E) : VRes :=
  if op = "list" then vList conds value
  else if op = "map" then vMap conds value
  else if op = "optionalfield" then vField true args conds value
  else if op = "mapfield" then vField false args conds value
  else if op = "and" ∨ op = "not" ∨ op = "" then vAnd conds value
  else if op = "or" then vOr conds value
  else if op = "empty" then vEmpty value
  else if op = "valueset" then vValueset args value
  else if op = "value" ∨ op = "=" then vValue args value
  else if op = "gt" ∨ op = ">" then vOrd L .gt op args value
  else if op = "lt" ∨ op = "<" then vOrd L .lt op args value
  else if op = "ge" ∨ op = ">=" then vOrd L .ge op args value
  else if op = "le" ∨ op = "<=" then vOrd L .le op args value
  else if op = "type" then vType args value
  else vDns L op args value

/-- validate.go:141-161: a validator given by name -/
def byName [DecidableEq E] (L : VLib E) (s : String) (args : List (Node E)) (conds : List (Val E → VRes))
    (value : Val E) : VRes :=
  match validatorName s with
  | none => .err
  | some (op, not) =>
    if not then (handleString L op args conds value).negate else handleString L op args conds value

mutual
/-- validate.go:76-93 `EvalValidationExpression` -/
def vCond [DecidableEq E] (L : VLib E) : Node E → Val E → VRes
  | .mk v _ _ => vCondV L v
termination_by structural c => c
def vCondV [DecidableEq E] (L : VLib E) : Val E → Val E → VRes
  | .nil => fun _ => .ok true
  | .str s => fun value => byName L s [] [] value
  | .lambda s => fun value => L.lambda s value []
  | .list l => vCondL L l
  | _ => fun _ => .err
termination_by structural c => c
/-- validate.go:85-89, 95-165: `_validate` for a list -/
def vCondL [DecidableEq E] (L : VLib E) : List (Node E) → Val E → VRes
  | [] => fun _ => .err
  | .mk v _ _ :: args => match v with
    | .str s => byName L s args (vConds L args)
    | .lambda s => fun value => L.lambda s value (args.map Node.val)
    | _ => fun _ => .err
termination_by structural c => c
/-- the arguments as conditions -/
def vConds [DecidableEq E] (L : VLib E) : List (Node E) → List (Val E → VRes)
  | [] => []
  | c :: r => vCond L c :: vConds L r
termination_by structural c => c
end

/-- validate.go:46-69 `func_check`; `none`: wrong number of arguments -/
def funcCheck [DecidableEq E] (L : VLib E) : List (Val E) → Option VRes
  | value :: c :: cs => some (vAll (fun c => vCondV L c value) (c :: cs))
  | _ => none

/-- validate.go:20-44 `func_validate`: `.ok true` is the success with the value as result,
`.ok false` the error reporting the failed condition. -/
def funcValidate [DecidableEq E] (L : VLib E) : List (Val E) → Option (Except Unit (Option (Val E)))
  | value :: c :: cs => match vAll (fun c => vCondV L c value) (c :: cs) with
    | .ok true => some (.ok (some value))
    | .pending => some (.ok none)
    | _ => some (.error ())
  | _ => none

end Spiff
