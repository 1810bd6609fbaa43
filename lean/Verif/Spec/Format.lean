import Verif.Model.Format
import Mathlib.Data.List.Forall2
/-
Specification of the functions `format` and `error` (C108).
-/
namespace Spiff.Spec
variable {E : Type}

/-- how a value is passed to Sprintf: lists, maps and templates as YAML text, lambdas as text, others unchanged -/
inductive Passed (L : FmtLib E) : Val E → Val E → Prop
  | list {l s} : L.yaml (.list l) = some s → Passed L (.list l) (.str s)
  | map {m s} : L.yaml (.map m) = some s → Passed L (.map m) (.str s)
  | templ {n s} : L.templ n = some s → Passed L (.templ n) (.str s)
  | lambda (s) : Passed L (.lambda s) (.str (L.lambda s))
  | str (s) : Passed L (.str s) (.str s)
  | int (i) : Passed L (.int i) (.int i)
  | float (f) : Passed L (.float f) (.float f)
  | bool (b) : Passed L (.bool b) (.bool b)
  | nil : Passed L .nil .nil
  | expr (e) : Passed L (.expr e) (.expr e)

/-- a value which cannot be passed: it has no YAML text -/
def Unpassable (L : FmtLib E) (v : Val E) : Prop := ∀ w, ¬ Passed L v w

/-- the text for the arguments -/
def Formats (L : FmtLib E) (args : List (Val E)) (text : String) : Prop :=
  ∃ f rest xs, args = f :: rest ∧ ∃ s, Passed L f (.str s) ∧ List.Forall₂ (Passed L) rest xs ∧ text = L.sprintf s xs

end Spiff.Spec
