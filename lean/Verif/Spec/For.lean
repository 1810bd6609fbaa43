/-
Specification of nested iteration (C43).
-/
namespace Spiff.Spec

/-- All index combinations for loops of the given lengths, outermost loop first, in the order of nested loops. -/
def combos : List Nat → List (List Nat)
  | [] => [[]]
  | n :: ns => (List.range n).flatMap (fun i => (combos ns).map (fun p => i :: p))

/-- Lexicographic order of index combinations. -/
inductive LexLt : List Nat → List Nat → Prop
  | head {i j : Nat} {p q : List Nat} (h : i < j) : LexLt (i :: p) (j :: q)
  | tail {i : Nat} {p q : List Nat} (h : LexLt p q) : LexLt (i :: p) (i :: q)

end Spiff.Spec
