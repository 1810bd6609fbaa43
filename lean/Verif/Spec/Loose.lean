import Verif.Model.Ops
import Verif.Spec.Agree
/-
Specification of the dynaml equality `a == b`.
-/
namespace Spiff.Spec
variable {E : Type}

/-- Two values are (loosely) equal: scalars of different types are equal, if the second operand
converted to the type of the first one is the first one; lists entry by entry, maps field by field.
There is no rule for floats. -/
inductive Loose : Val E → Val E → Prop where
  | nil : Loose .nil .nil
  | str (s) : Loose (.str s) (.str s)
  | str_int (i : Int) : Loose (.str (toString i)) (.int i)
  | str_bool (b : Bool) : Loose (.str (if b then "true" else "false")) (.bool b)
  | str_lambda (s) : Loose (.str s) (.lambda s)
  | int (i) : Loose (.int i) (.int i)
  | int_str (s : String) (i : Int) (h : parseInt s = some i) : Loose (.int i) (.str s)
  | int_bool (b : Bool) : Loose (.int (if b then 1 else 0)) (.bool b)
  | bool (b) : Loose (.bool b) (.bool b)
  | bool_str (s : String) (b : Bool) (h : parseBoolLower s = some b) : Loose (.bool b) (.str s)
  | lambda (s) : Loose (.lambda s) (.lambda s)
  | templ (a b : Node E) (h : SameContent a b) : Loose (.templ a) (.templ b)
  | list (l l' : List (Node E)) (hl : l.length = l'.length)
      (h : ∀ (i : Nat) (x y : Node E), l[i]? = some x → l'[i]? = some y → Loose x.val y.val) : Loose (.list l) (.list l')
  | map (m m' : List (String × Node E)) (hk : ∀ k, k ∈ mkeys m ↔ k ∈ mkeys m')
      (h : ∀ (k : String) (x y : Node E), mget m k = some x → mget m' k = some y → Loose x.val y.val) : Loose (.map m) (.map m')

end Spiff.Spec
