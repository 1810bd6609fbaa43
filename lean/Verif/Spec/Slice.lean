import Verif.Model.Slice
/-
The intended meaning of list operations: lists are values, no operation changes an existing list.
-/
namespace Spiff
variable {α : Type}

/-- the values of all lists after one operation -/
def valueStep (vs : List (List α)) : ListOp α → List (List α)
  | .create xs _ => vs ++ [xs]
  | .concat i j => match vs[i]?, vs[j]? with
    | some a, some b => vs ++ [a ++ b]
    | _, _ => vs
  | .add i x => match vs[i]? with
    | some a => vs ++ [a ++ [x]]
    | none => vs

def valueRun (vs : List (List α)) (ops : List (ListOp α)) : List (List α) := ops.foldl valueStep vs

/-- the list extended by an operation -/
def ListOp.base : ListOp α → Option Nat
  | .create _ _ => none
  | .concat i _ => some i
  | .add i _ => some i

end Spiff
