import Verif.Model.Node
/-
Specification vocabulary for controls (C42, C43): control keys, pending values, selected branches.
-/
namespace Spiff.Spec
variable {E : Type}

/-- the key of a control or control option named `n`: `<<n`, except the merge keys `<<`, `<<<` and the escaped keys `<<!...` -/
def ControlKey (k n : String) : Prop :=
  k.toList = '<' :: '<' :: n.toList ∧ n.toList ≠ [] ∧ n.toList ≠ ['<'] ∧ n.toList.head? ≠ some '!'

/-- a key starting with `<<` -/
def DoubleLess (k : String) : Prop := ∃ r, k.toList = '<' :: '<' :: r

/-- a string which is an (unescaped) expression `((...))` -/
def ExprString (s : String) : Prop :=
  ∃ b, s.toList = '(' :: '(' :: (b ++ [')', ')']) ∧ b.head? ≠ some '!'

mutual
/-- There is still something to be evaluated below the node; with `accept`, nodes with an error or failure are not considered. -/
inductive PendingN (accept : Bool) : Node E → Prop
  | intro (v : Val E) (s : String) (a : Ann) (h : ¬ (accept = true ∧ (a.failed = true ∨ a.error = true)))
      (hv : PendingV accept v) : PendingN accept (.mk v s a)
/-- A value still contains an expression, an expression string, or a map with a control or merge key. -/
inductive PendingV (accept : Bool) : Val E → Prop
  | expr (e : E) : PendingV accept (.expr e)
  | str (s : String) (h : ExprString s) : PendingV accept (.str s)
  | entry (l : List (Node E)) (n : Node E) (h : n ∈ l) (hn : PendingN accept n) : PendingV accept (.list l)
  | key (m : List (String × Node E)) (k : String) (n : Node E) (h : (k, n) ∈ m) (hk : DoubleLess k) : PendingV accept (.map m)
  | field (m : List (String × Node E)) (k : String) (n : Node E) (h : (k, n) ∈ m) (hn : PendingN accept n) :
      PendingV accept (.map m)
end

/-- The node is completely evaluated, without failure. -/
def Settled (n : Node E) : Prop := n.ann.failed = false ∧ n.ann.undefined = false ∧ ¬ PendingV false n.val

/-- The result (node, done) of a control is the given branch; the absent branch is an undefined node. The control is
done if the branch is settled (or undefined). -/
def Yields (b : Option (Node E)) (r : Node E × Bool) : Prop :=
  match b with
  | some n => r.1 = n ∧ (r.2 = true ↔ n.ann.undefined = true ∨ Settled n)
  | none => r.2 = true ∧ r.1.ann.undefined = true ∧ r.1.val = .nil

/-- The result of a control is an error. -/
def IsIssue (r : Node E × Bool) : Prop := r.2 = false ∧ r.1.ann.failed = true ∧ r.1.ann.error = true

end Spiff.Spec
