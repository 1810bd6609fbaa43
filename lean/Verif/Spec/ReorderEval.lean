import Verif.Spec.Reorder
import Verif.Model.Eval
/-
Specification vocabulary for C82: builtin functions and context information that do not depend on the order of
the fields of maps.
-/
namespace Spiff.Spec

/-- the same result of a lookup -/
def SameLook {E : Type} : Look (Node E) → Look (Node E) → Prop
  | .found a, .found b => Same a b
  | .missing, .missing => True
  | .panic, .panic => True
  | _, _ => False

/-- the same outcome of a builtin function -/
def SameOut : Out (Val Ex × Info) → Out (Val Ex × Info) → Prop
  | .ok a, .ok b => SameValue a.1 b.1 ∧ a.2 = b.2
  | .err, .err => True
  | .undet, .undet => True
  | .panic, .panic => True
  | _, _ => False

/-- The parameters of the evaluation do not depend on the order of fields: the builtin functions yield the same results for
the same arguments, the context node and the resolver of `_` are the same for the same environments and nodes. -/
structure OrderFreeParams (X : EvLib) (R : RefLib Ex) : Prop where
  fn : ∀ name f, X.fn name = some f → ∀ vs vs' src, List.Forall₂ SameValue vs vs' → SameOut (f vs src) (f vs' src)
  ctx : ∀ env env', SameEnv env env' → Same (R.ctx env) (R.ctx env')
  resolver : ∀ n n' p, Same n n' → SameLook (R.resolver n p) (R.resolver n' p)

end Spiff.Spec
