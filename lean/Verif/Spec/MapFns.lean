import Verif.Spec.Agree
/-
Specification vocabulary for the map functions.
-/
namespace Spiff.Spec
variable {E : Type}

/-- the field `f` of a node that is a map -/
def field (n : Node E) (f : String) : Option (Node E) := child n.val (.key f)

/-- The entry `n` is a map whose field `key` is the string `k`. -/
def KeyOf (key : String) (n : Node E) (k : String) : Prop := ∃ m kn, n.val = .map m ∧ mget m key = some kn ∧ kn.val = .str k

/-- `v` is `n` without its field `key`. -/
def Without (key : String) (n v : Node E) : Prop :=
  (∃ m, v.val = .map m) ∧ v.src = n.src ∧ v.ann = n.ann ∧ field v key = none ∧ ∀ f, f ≠ key → field v f = field n f

/-- `x` is the last entry of `l` satisfying `p` -/
def LastSuch {α : Type} (l : List α) (p : α → Prop) (x : α) : Prop := ∃ a b, l = a ++ x :: b ∧ p x ∧ ∀ y ∈ b, ¬ p y

def IsMap (v : Val E) : Prop := ∃ m, v = .map m

/-- the map at a path of field names, following maps only -/
def pathGet (m : List (String × Node E)) : List String → Option (Node E)
  | [] => none
  | [k] => mget m k
  | k :: p => match (mget m k).map Node.val with
    | some (.map m') => pathGet m' p
    | _ => none

end Spiff.Spec
