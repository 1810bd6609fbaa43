import Verif.Model.Node
/-
Specification vocabulary: the descendants of a node, each with the chain of
steps and annotations leading to it.
-/
namespace Spiff.Spec
variable {E : Type}

/-- How a child is attached to its parent: a map field or a list entry. -/
inductive Step where
  | field (k : String)
  | entry
deriving DecidableEq, Repr

/-- The value of a node without its children. -/
def head : Val E → Val E
  | .list _ => .list []
  | .map _ => .map []
  | v => v

/-- A descendant: the steps from the root (exclusive) down to the node, with the
annotation of every node on the way including the node itself, and the node's
source and own value (without children). -/
structure Desc (E : Type) where
  chain : List (Step × Ann)
  src : String
  value : Val E

def Desc.under (x : Step × Ann) (d : Desc E) : Desc E := { d with chain := x :: d.chain }

mutual
/-- All proper descendants of a node in document order. -/
def descs : Node E → List (Desc E)
  | .mk v _ _ => descsV v
termination_by structural n => n
def descsV : Val E → List (Desc E)
  | .list l => descsL l
  | .map m => descsM m
  | _ => []
termination_by structural v => v
def descsL : List (Node E) → List (Desc E)
  | [] => []
  | e :: r =>
    ⟨[(.entry, e.ann)], e.src, head e.val⟩ :: (descs e).map (Desc.under (.entry, e.ann)) ++ descsL r
termination_by structural l => l
def descsM : List (String × Node E) → List (Desc E)
  | [] => []
  | (k, e) :: r =>
    ⟨[(.field k, e.ann)], e.src, head e.val⟩ :: (descs e).map (Desc.under (.field k, e.ann)) ++ descsM r
termination_by structural m => m
end

end Spiff.Spec
