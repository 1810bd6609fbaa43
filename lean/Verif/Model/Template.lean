import Verif.Model.Unresolved
import Verif.Model.Scope
/-
Model of the use of templates: dynaml/template.go. Their definition (`&template`) is in Model/Flow.lean.
-/
namespace Spiff
variable {E : Type}

mutual
/-- dynaml/template.go:91-109 `node_copy`: a copy without annotations -/
def instanceCopy : Node E → Node E
  | .mk v s _ => Node.new (copyVal v) s
termination_by structural n => n
def copyVal : Val E → Val E
  | .list l => .list (copyList l)
  | .map m => .map (copyMap m)
  | .nil => .nil
  | .bool b => .bool b
  | .int i => .int i
  | .float f => .float f
  | .str s => .str s
  | .expr e => .expr e
  | .templ n => .templ n
  | .lambda e => .lambda e
termination_by structural v => v
def copyList : List (Node E) → List (Node E)
  | [] => []
  | n :: r => instanceCopy n :: copyList r
termination_by structural l => l
def copyMap : List (String × Node E) → List (String × Node E)
  | [] => []
  | (k, n) :: r => (k, instanceCopy n) :: copyMap r
termination_by structural m => m
end

/-- dynaml/node.go:16-31 `NewNode`: the source of a value created by an expression -/
def dynamlSource (source : String) : String :=
  if source = "" then "dynaml" else if "dynaml@".toList.isPrefixOf source.toList then source else "dynaml@" ++ source

/-- dynaml/template.go:26-31: the environment of the body: the name `_` is added. Its static resolver is given by `RefLib.resolver`. -/
def templateEnv (env : Env E) (t : Val E) : Env E := env.withLocalScope [(SELF, Node.new t (dynamlSource env.sourceName))]

/-- dynaml/unresolved_check.go:72-81 `HasError` -/
def hasIssue (u : List (Unres E)) : Bool := u.any (fun n => decide (n.node.ann.issue ≠ ""))

/-- dynaml/unresolved_check.go:33-70 `Issue`: whether some node has an error or failed -/
def anyError (u : List (Unres E)) : Bool := u.any (·.node.ann.error)
def anyFailed (u : List (Unres E)) : Bool := u.any (·.node.ann.failed)

/-- dynaml/template.go:32-47: the result of the expression `self`, from the processed body. The message is abbreviated. -/
def templateResult (self : E) (r : Node E) (u : List (Unres E)) : Val E × Info × Bool :=
  if u ≠ [] then
    if hasIssue u then
      (if anyError u then .nil else .expr self,
        { undefined := r.ann.undefined, issue := "resolution of template failed", localError := anyError u, failed := anyFailed u }, false)
    else (.expr self, { undefined := r.ann.undefined }, true)
  else (r.val, { undefined := r.ann.undefined, source := r.src }, true)

/-- dynaml/template.go:17-48 `SubstitutionExpr.Evaluate`: `t` is the result of the evaluation of the inner expression -/
def substitute [DecidableEq E] (L : Lang E) (fuel passes : Nat) (env : Env E) (self : E) (t : Val E × Info × Bool) : Run (Val E × Info × Bool) :=
  if !t.2.2 || t.1.isExpr then .ok (.expr self, t.2)
  else match t.1 with
    | .templ body => (flowDoc L fuel passes (templateEnv env t.1) (instanceCopy body) false).map (fun r => templateResult self r.1 r.2)
    | _ => .ok (.nil, { t.2.1 with issue := "template value required", localError := true }, false)

end Spiff
