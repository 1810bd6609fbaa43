import Verif.Model.Flow
import Verif.Spec.Select
/-
Specification of merging lists by key.
-/
namespace Spiff.Spec
variable {E : Type}

/-- the key field used for a list: `name` if nothing else is given -/
def listKey (k : String) : String := if k = "" then "name" else k

/-- a name usable as such in a path: neither an index nor of the form `key:name` -/
def SimpleName (s : String) : Prop := (∀ i, ¬ IndexStep s i) ∧ ':' ∉ s.toList

/-- the string `s` is the value of the field `key` of the entry -/
def Key (key s : String) (n : Node E) : Prop := ∃ m v, n.val = .map m ∧ mget m key = some v ∧ v.val = .str s

/-- the entry is already contained in the list: one of its entries has the same key -/
def Present (key : String) (b : List (Node E)) (n : Node E) : Prop := ∃ s, Key key s n ∧ ∃ x ∈ b, Key key s x

/-- the entries to insert: those not yet present, in order, marked as merged -/
inductive Inserted (key : String) (b : List (Node E)) : List (Node E) → List (Node E) → Prop
  | nil : Inserted key b [] []
  | new {n a r} : ¬ Present key b n → Inserted key b a r → Inserted key b (n :: a) (n.mergedNode :: r)
  | known {n a r} : Present key b n → Inserted key b a r → Inserted key b (n :: a) r

/-- no two entries have the same key -/
def DistinctKeys (key : String) (l : List (Node E)) : Prop := l.Pairwise (fun x y => ∀ s, Key key s x → ¬ Key key s y)

end Spiff.Spec
