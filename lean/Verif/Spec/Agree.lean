import Verif.Model.Node
/-
Specification vocabulary: two documents agree if they have the same positions and
at every position the same local content.
-/
namespace Spiff.Spec
variable {E : Type}

/-- One step into a document: a map field, a list position, the body of a template. -/
inductive Ix where
  | key (k : String)
  | idx (i : Nat)
  | body
deriving DecidableEq, Repr

/-- the child at a step -/
def child : Val E → Ix → Option (Node E)
  | .map m, .key k => mget m k
  | .list l, .idx i => l[i]?
  | .templ n, .body => some n
  | _, _ => none

/-- the descendant at a position -/
def locate : Node E → List Ix → Option (Node E)
  | n, [] => some n
  | n, i :: p => match child n.val i with
    | some c => locate c p
    | none => none

/-- both absent, or both present and related -/
def Both {α : Type} (H : α → α → Prop) : Option α → Option α → Prop
  | none, none => True
  | some a, some b => H a b
  | _, _ => False

/-- same kind of value, and equal if it is a scalar (floats compared as numbers) -/
def SameKind : Val E → Val E → Prop
  | .nil, .nil => True
  | .bool a, .bool b => a = b
  | .int a, .int b => a = b
  | .float a, .float b => floatEq a b = true
  | .str a, .str b => a = b
  | .list _, .list _ => True
  | .map _, .map _ => True
  | .expr a, .expr b => a = b
  | .templ _, .templ _ => True
  | .lambda a, .lambda b => a = b
  | _, _ => False

/-- Two documents have the same positions, with related nodes at each of them. -/
def AgreeBy (H : Node E → Node E → Prop) (a b : Node E) : Prop := ∀ p, Both H (locate a p) (locate b p)

/-- same content, source names and annotations everywhere -/
def Identical : Node E → Node E → Prop :=
  AgreeBy (fun x y => SameKind x.val y.val ∧ x.src = y.src ∧ x.ann = y.ann)

/-- same content everywhere -/
def SameContent : Node E → Node E → Prop := AgreeBy (fun x y => SameKind x.val y.val)

mutual
/-- every map has at most one value per key (always true for Go maps) -/
def GoMaps : Node E → Prop
  | .mk v _ _ => GoMapsV v
termination_by structural n => n
def GoMapsV : Val E → Prop
  | .list l => GoMapsL l
  | .map m => MapOK m ∧ GoMapsM m
  | .templ n => GoMaps n
  | _ => True
termination_by structural n => n
def GoMapsL : List (Node E) → Prop
  | [] => True
  | n :: r => GoMaps n ∧ GoMapsL r
termination_by structural n => n
def GoMapsM : List (String × Node E) → Prop
  | [] => True
  | (_, n) :: r => GoMaps n ∧ GoMapsM r
termination_by structural n => n
end

end Spiff.Spec
