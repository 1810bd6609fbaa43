import Verif.Model.Flow
/-
Model of `Equals` of package yaml: yaml/equals.go.
-/
namespace Spiff
variable {E : Type}

mutual
/-- yaml/equals.go:8-61 `Equals` without the reason: types, nil before the annotations, annotations, then the contents. Templates and expressions are compared
by `reflect.DeepEqual`. -/
def equalsN [DecidableEq E] : Node E → Node E → Bool
  | .mk v _ a, .mk v' _ a' => equalsV (decide (a = a')) v v'
termination_by structural n => n
/-- yaml/equals.go:14-58; `ann` tells whether the annotations are equal -/
def equalsV [DecidableEq E] (ann : Bool) : Val E → Val E → Bool
  | .nil, .nil => true
  | .bool a, .bool b => ann && decide (a = b)
  | .int a, .int b => ann && decide (a = b)
  | .float a, .float b => ann && floatEq a b
  | .str a, .str b => ann && decide (a = b)
  | .list a, .list b => ann && decide (a.length = b.length) && equalsL a b
  | .map a, .map b => ann && equalsM a b && b.all (fun e => (mget a e.1).isSome)
  | .expr a, .expr b => ann && decide (a = b)
  | .templ a, .templ b => ann && deepEq a b
  | .lambda a, .lambda b => ann && decide (a = b)
  | _, _ => false
termination_by structural n => n
/-- yaml/equals.go:30-34 -/
def equalsL [DecidableEq E] : List (Node E) → List (Node E) → Bool
  | a :: r, b :: r' => equalsN a b && equalsL r r'
  | _, _ => true
termination_by structural n => n
/-- yaml/equals.go:38-46 -/
def equalsM [DecidableEq E] : List (String × Node E) → List (String × Node E) → Bool
  | [], _ => true
  | (k, a) :: r, m => (match mget m k with | some b => equalsN a b | none => false) && equalsM r m
termination_by structural n => n
end

end Spiff
