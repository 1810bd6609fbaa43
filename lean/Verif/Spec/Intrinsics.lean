import Verif.Spec.Eval
/-
Specification for the intrinsic functions: the outcomes they distinguish.
-/
namespace Spiff

/-- the evaluation yields a value (which may be the undefined one) -/
def Ev.Value (o : Ev) (v : Val Ex) : Prop := ∃ i, o = .val v i ∧ ∀ e, v ≠ .expr e

/-- an expression is left -/
def Ev.Left (o : Ev) : Prop := ∃ e i, o = .val (.expr e) i

/-- exactly this expression is left -/
def Ev.LeftAs (o : Ev) (e : Ex) : Prop := ∃ i, o = .val (.expr e) i ∧ i.undefined = false

/-- the evaluation fails -/
def Ev.Fails (o : Ev) : Prop := ∃ i, o = .fail i

/-- the evaluation yields the undefined value -/
def Ev.Undefined (o : Ev) : Prop := ∃ v i, o = .val v i ∧ (∀ e, v ≠ .expr e) ∧ i.undefined = true

/-- `l` consists of elements with `P`, followed by an element with `Q`, followed by elements with `R` -/
def FirstOther {α : Type} (l : List α) (P Q R : α → Prop) : Prop :=
  ∃ pre a post, l = pre ++ a :: post ∧ (∀ x ∈ pre, P x) ∧ Q a ∧ ∀ x ∈ post, R x

end Spiff
