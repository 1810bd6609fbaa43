import Verif.Spec.Loose
/-
Specification vocabulary for the list functions.
-/
namespace Spiff.Spec
variable {E : Type}

/-- the entries at the marked positions, in order -/
def pick {α : Type} (l : List α) (keep : Nat → Bool) : List α := (l.zipIdx.filter (fun p => keep p.2)).map (·.1)

/-- the entry `x` is (loosely) equal to some entry of `l` -/
def Has (l : List (Node E)) (x : Node E) : Prop := ∃ y ∈ l, Loose x.val y.val

/-- `nil`, the empty string, the empty list and the empty map -/
def IsEmptyVal : Val E → Prop
  | .nil => True
  | .str s => s = ""
  | .list l => l = []
  | .map m => m = []
  | _ => False

/-- `pat` occurs in `s` at position `i` -/
def OccursAt (pat s : List Char) (i : Nat) : Prop := ∃ a b, s = a ++ pat ++ b ∧ a.length = i

end Spiff.Spec
