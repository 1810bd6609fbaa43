import Verif.Model.Flow
/-
Model of dynaml/unresolved_check.go:147-229 `FindUnresolvedNodes` and of the result of
flow/environment.go:321-354 `Flow`.
-/
namespace Spiff
variable {E : Type}

/-- dynaml/unresolved_check.go:11-18 `UnresolvedNode` (without the effective path, which
is used for the message only). -/
structure Unres (E : Type) where
  node : Node E
  context : List String

/-- dynaml/unresolved_check.go:215-229: the three groups of the result -/
def groupUnres (nodes : List (Unres E)) : List (Unres E) :=
  nodes.filter (fun n => n.node.ann.error) ++
  nodes.filter (fun n => !n.node.ann.error && !n.node.ann.failed) ++
  nodes.filter (fun n => !n.node.ann.error && n.node.ann.failed)

/-- dynaml/unresolved_check.go:191-202: the message of a string which is not a parseable
expression (interpolation is not considered, line 192). -/
def parseIssue (L : Lang E) (s : String) : Bool :=
  match embeddedDynaml L.quote false s.toList with
  | some sub => (L.parse (String.ofList sub) ["dummy"] ["dummy"]).isNone
  | none => false

mutual
/-- dynaml/unresolved_check.go:147-229 `FindUnresolvedNodes` (the iteration order
over a map is the one of the association list). -/
def findUnresolved (L : Lang E) (ctx : List String) : Node E → List (Unres E)
  | .mk v s a =>
    let (nodes, found) := findUnresolvedV L ctx s a v
    let nodes := if a.failed && !found then nodes ++ [⟨.mk v s a, ctx⟩] else nodes
    groupUnres nodes
termination_by structural n => n
def findUnresolvedV (L : Lang E) (ctx : List String) (s : String) (a : Ann) : Val E → List (Unres E) × Bool
  | .map m => (findUnresolvedM L ctx m, false)
  | .list l => (findUnresolvedL L ctx 0 l, false)
  | .expr e => ([⟨.mk (.expr e) s a, ctx⟩], true)
  | .str x => if parseIssue L x then ([⟨(Node.mk (.str x) s a).issueNode true false "parse error", ctx⟩], true) else ([], false)
  | .nil => ([], false)
  | .bool _ => ([], false)
  | .int _ => ([], false)
  | .float _ => ([], false)
  | .templ _ => ([], false)
  | .lambda _ => ([], false)
termination_by structural n => n
def findUnresolvedM (L : Lang E) (ctx : List String) : List (String × Node E) → List (Unres E)
  | [] => []
  | (k, n) :: r => findUnresolved L (ctx ++ [k]) n ++ findUnresolvedM L ctx r
termination_by structural n => n
def findUnresolvedL (L : Lang E) (ctx : List String) (i : Nat) : List (Node E) → List (Unres E)
  | [] => []
  | n :: r => findUnresolved L (ctx ++ ["[" ++ toString i ++ "]"]) n ++ findUnresolvedL L ctx (i + 1) r
termination_by structural n => n
end

/-- flow/environment.go:321-354 `Flow`: result and status (`[]` = nil error). The call of
`Cleanup(result, deactivateScopes)` does not change the document. -/
def flowDoc [DecidableEq E] (L : Lang E) (fuel passes : Nat) (env : Env E) (source : Node E) (shouldOverride : Bool) :
    Run (Node E × List (Unres E)) := do
  let r ← flowLoop L fuel env source shouldOverride passes source
  pure (r, findUnresolved L [] r)

end Spiff
