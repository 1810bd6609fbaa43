import Verif.Model.Node
/-
Specification vocabulary: all nodes of a document (including the root) with their paths.
-/
namespace Spiff.Spec
variable {E : Type}

mutual
/-- Every node reachable through maps and lists, with its path. -/
def positions (path : List String) : Node E → List (List String × Node E)
  | .mk v s a => (path, .mk v s a) :: positionsV path v
termination_by structural n => n
def positionsV (path : List String) : Val E → List (List String × Node E)
  | .map m => positionsM path m
  | .list l => positionsL path 0 l
  | _ => []
termination_by structural n => n
def positionsM (path : List String) : List (String × Node E) → List (List String × Node E)
  | [] => []
  | (k, n) :: r => positions (path ++ [k]) n ++ positionsM path r
termination_by structural n => n
def positionsL (path : List String) (i : Nat) : List (Node E) → List (List String × Node E)
  | [] => []
  | n :: r => positions (path ++ ["[" ++ toString i ++ "]"]) n ++ positionsL path (i + 1) r
termination_by structural n => n
end

end Spiff.Spec
