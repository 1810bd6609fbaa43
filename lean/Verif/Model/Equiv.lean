import Verif.Model.Flow
/-
Model of `EquivalentToNode` (yaml/node.go:464-520).
-/
namespace Spiff
variable {E : Type}

mutual
/-- yaml/node.go:464-520 `EquivalentToNode`. Expressions are compared with
`reflect.DeepEqual`, templates by their original node (dynaml/template.go:85-88;
the model keeps only one node of a template), lambdas by their definition
(dynaml/lambda.go:173-176). The nodes of a document are never nil. -/
def equivN [DecidableEq E] : Node E → Node E → Bool
  | .mk v _ _, .mk v' _ _ => equivV v v'
termination_by structural n => n
def equivV [DecidableEq E] : Val E → Val E → Bool
  | .nil, .nil => true
  | .bool a, .bool b => decide (a = b)
  | .int a, .int b => decide (a = b)
  | .float a, .float b => floatEq a b
  | .str a, .str b => decide (a = b)
  | .list a, .list b => decide (a.length = b.length) && equivL a b
  | .map a, .map b => decide (a.length = b.length) && equivM a b
  | .expr a, .expr b => decide (a = b)
  | .templ a, .templ b => equivN a b
  | .lambda a, .lambda b => decide (a = b)
  | _, _ => false
termination_by structural n => n
/-- yaml/node.go:504-510 -/
def equivL [DecidableEq E] : List (Node E) → List (Node E) → Bool
  | [], _ => true
  | a :: r, b :: r' => equivN a b && equivL r r'
  | _ :: _, [] => true -- not reached: the lengths are equal
termination_by structural n => n
/-- yaml/node.go:484-493 -/
def equivM [DecidableEq E] : List (String × Node E) → List (String × Node E) → Bool
  | [], _ => true
  | (k, a) :: r, m => (match mget m k with | some b => equivN a b | none => false) && equivM r m
termination_by structural n => n
end

end Spiff
