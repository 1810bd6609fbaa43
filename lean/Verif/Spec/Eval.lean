import Verif.Model.Eval
/-
Specification of the outcomes of an evaluation, independent of the way they are computed.
-/
namespace Spiff

/-- the evaluation yields the value `v`: it is defined and no expression is left -/
def Ev.Is (o : Ev) (v : Val Ex) : Prop := ∃ i, o = .val v i ∧ i.undefined = false ∧ ∀ e, v ≠ .expr e

/-- an expression is left to be evaluated again later -/
def Ev.Later (o : Ev) : Prop := ∃ e i, o = .val (.expr e) i ∧ i.undefined = false

/-- no value: the evaluation fails or the value is explicitly undefined (`~~`) -/
def Ev.Undef (o : Ev) : Prop := (∃ i, o = .fail i) ∨ ∃ v i, o = .val v i ∧ i.undefined = true

/-- The outcomes agree for an observer: the same value, or both undefined (with the same value), both left for later,
both failing, or both crashing. Differences of the residual expressions and of the additional information are ignored. -/
inductive Ev.Agree : Ev → Ev → Prop
  | value {v i j} : (∀ e, v ≠ .expr e) → i.undefined = j.undefined → Agree (.val v i) (.val v j)
  | later {e f i j} : i.undefined = j.undefined → Agree (.val (.expr e) i) (.val (.expr f) j)
  | fail {i j} : Agree (.fail i) (.fail j)
  | crash : Agree .crash .crash

/-- `o'` is the outcome `o` up to additional information (info about errors, merging, sources ...): the same value or residual
expression. -/
inductive Ev.SameVal : Ev → Ev → Prop
  | value {v i j} : i.undefined = j.undefined → SameVal (.val v i) (.val v j)
  | fail {i j} : SameVal (.fail i) (.fail j)
  | crash : SameVal .crash .crash

end Spiff
