import Verif.Model.Sanitize
import Verif.Spec.Agree
/-
Specification vocabulary for decoded data.
-/
namespace Spiff.Spec

/-- one step into decoded data -/
inductive DataChild : Data → Data → Prop
  | seq (l d) : d ∈ l → DataChild (.seq l) d
  | dict (m k d) : (k, d) ∈ m → DataChild (.dict m) d
  | smap (m k d) : (k, d) ∈ m → DataChild (.smap m) d
  | conv (d e) : DataChild d e → DataChild (.conv d) e

/-- `e` occurs in `d` -/
inductive OccursIn : Data → Data → Prop
  | here (d) : OccursIn d d
  | down (d c e) : DataChild d c → OccursIn c e → OccursIn d e

/-- Not readable: a map with a key that is no string, or a value of an unsupported type. -/
def Unreadable (d : Data) : Prop :=
  (∃ m k x, d = .dict m ∧ (Key.other k, x) ∈ m) ∨ (∃ t, d = .other t) ∨ ∃ e, d = .conv e ∧ (∀ l, e ≠ .seq l) ∧ ∀ m, e ≠ .smap m

/-- Data as JSON knows it: null, booleans, 64 bit numbers, strings, lists and maps with string keys. -/
inductive Json : Data → Prop
  | nil : Json .nil
  | bool (b) : Json (.bool b)
  | int (i) : Json (.num .int64 i)
  | float (b) : Json (.float b)
  | str (s) : Json (.str s)
  | seq (l) : (∀ d ∈ l, Json d) → Json (.seq l)
  | smap (m) : (∀ e ∈ m, Json (Prod.snd e)) → Json (.smap m)

/-- `d'` is the JSON form of `d`: the same data up to the width of numbers and the Go types of maps. -/
inductive JsonOf : Data → Data → Prop
  | nil : JsonOf .nil .nil
  | bool (b) : JsonOf (.bool b) (.bool b)
  | num (k i) : JsonOf (.num k i) (.num .int64 i)
  | float (b) : JsonOf (.float b) (.float b)
  | float32 (b) : JsonOf (.float32 b) (.float b)
  | str (s) : JsonOf (.str s) (.str s)
  | time (t) : JsonOf (.time t) (.str (timeText t))
  | seq (l l') : l.length = l'.length → (∀ (i : Nat) x y, l[i]? = some x → l'[i]? = some y → JsonOf x y) → JsonOf (.seq l) (.seq l')
  | dict (m : List (Key × Data)) (m' : List (String × Data)) : m.map Prod.fst = m'.map (fun e => Key.str e.1) →
      (∀ (i : Nat) x y, m[i]? = some x → m'[i]? = some y → JsonOf x.2 y.2) → JsonOf (.dict m) (.smap m')
  | smap (m m' : List (String × Data)) : m.map Prod.fst = m'.map Prod.fst →
      (∀ (i : Nat) x y, m[i]? = some x → m'[i]? = some y → JsonOf x.2 y.2) → JsonOf (.smap m) (.smap m')
  | conv (d e) : JsonOf d e → JsonOf (.conv d) e

variable {E : Type}

/-- Nothing but data in the document: no expression, template or lambda anywhere. -/
def OnlyData (n : Node E) : Prop := ∀ p x, locate n p = some x → (∀ e, x.val ≠ .expr e) ∧ (∀ t, x.val ≠ .templ t) ∧ ∀ s, x.val ≠ .lambda s

end Spiff.Spec
