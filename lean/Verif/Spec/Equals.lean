import Verif.Spec.Agree
/-
Specification of `Equals` (C109).
-/
namespace Spiff.Spec
variable {E : Type}

/-- same content, and the same annotations but for nil -/
def SameNode (x y : Node E) : Prop := SameKind x.val y.val ∧ (x.val = .nil ∨ x.ann = y.ann)

/-- same nodes at all positions -/
def EqualNodes : Node E → Node E → Prop := AgreeBy SameNode

/-- no templates -/
def NoTemplates (n : Node E) : Prop := ∀ p x, locate n p = some x → ∀ t, x.val ≠ .templ t

end Spiff.Spec
