import Verif.Model.Mapping
/-
Specification of map, select, filter and sum.
-/
namespace Spiff.Spec
variable {E : Type}

/-- the sources a mapping is defined for: lists and maps for map and `select[…]`, maps for `select{…}` and `filter{…}`, lists for `filter[…]` -/
inductive Source : MapKind → Val E → Prop
  | mapList_list {l} : Source .mapList (.list l)
  | mapList_map {m} : Source .mapList (.map m)
  | mapMap_list {l} : Source .mapMap (.list l)
  | mapMap_map {m} : Source .mapMap (.map m)
  | selectList_list {l} : Source .selectList (.list l)
  | selectList_map {m} : Source .selectList (.map m)
  | selectMap_map {m} : Source .selectMap (.map m)
  | filterList_list {l} : Source .filterList (.list l)
  | filterMap_map {m} : Source .filterMap (.map m)

/-- The entries of a list or map in the order they must be visited: list elements in order with their index, map entries by ascending key. -/
inductive Visit : Val E → List (EKey × Node E) → Prop
  | list {l es} : es.length = l.length → (∀ (i : Nat) (n : Node E), l[i]? = some n → es[i]? = some (.idx i, n)) → Visit (.list l) es
  | map {m : List (String × Node E)} {sorted : List (String × Node E)} : sorted.Perm m → (sorted.map (·.1)).Pairwise (· < ·) →
      Visit (.map m) (sorted.map (fun e => (.key e.1, e.2)))

/-- the arguments for an entry: key first, value last -/
inductive Args (key : EKey) (n : Node E) : Nat → List (Val E) → Prop
  | one : Args key n 1 [n.val]
  | more {k} : Args key n (k + 2) (key.val :: (List.replicate k .nil ++ [n.val]))

/-- the lambda yields the value `v` for the entry; `true`: an undefined one -/
def Yield (f : List (Val E) → LamOut E) (np : Nat) (e : EKey × Node E) (v : Val E) (u : Bool) : Prop :=
  ∃ args, Args e.1 e.2 np args ∧ f args = .val v u ∧ ∀ x, v ≠ .expr x

/-- the lambda value is used: neither nil nor undefined -/
def Used (v : Val E) (u : Bool) : Prop := v ≠ .nil ∧ u = false

/-- the condition holds -/
def Holds (v : Val E) (u : Bool) : Prop := Used v u ∧ toBool v = true

/-- `map[…]`: the used values, in order -/
inductive MappedList (src : String) (f : List (Val E) → LamOut E) (np : Nat) : List (EKey × Node E) → List (Node E) → Prop
  | nil : MappedList src f np [] []
  | use {e es r v u} : Yield f np e v u → Used v u → MappedList src f np es r → MappedList src f np (e :: es) (Node.new v (dynSource src) :: r)
  | skip {e es r v u} : Yield f np e v u → ¬ Used v u → MappedList src f np es r → MappedList src f np (e :: es) r

/-- `select[…]`, `filter[…]`: the entries with a true condition, in order and unchanged -/
inductive Selected (f : List (Val E) → LamOut E) (np : Nat) : List (EKey × Node E) → List (EKey × Node E) → Prop
  | nil : Selected f np [] []
  | take {e es r v u} : Yield f np e v u → Holds v u → Selected f np es r → Selected f np (e :: es) (e :: r)
  | drop {e es r v u} : Yield f np e v u → ¬ Holds v u → Selected f np es r → Selected f np (e :: es) r

/-- the field an entry is stored under by `map{…}`: the key of a map entry, the string value of a list element -/
inductive Field : EKey × Node E → String → Prop
  | key {k n} : Field (.key k, n) k
  | elem {i s src ann} : Field (.idx i, .mk (.str s) src ann) s

/-- the lambda fails for the entry -/
def LamFails (f : List (Val E) → LamOut E) (np : Nat) (e : EKey × Node E) : Prop := ∃ args, Args e.1 e.2 np args ∧ f args = .fail

/-- the lambda is not yet evaluable for the entry -/
def LamPending (f : List (Val E) → LamOut E) (np : Nat) (e : EKey × Node E) : Prop :=
  ∃ args, Args e.1 e.2 np args ∧ (f args = .later ∨ ∃ x u, f args = .val (.expr x) u)

/-- a value can be stored: a used value of `map{…}` needs a field name -/
def Storable (k : MapKind) (e : EKey × Node E) (v : Val E) (u : Bool) : Prop := k = .mapMap → Used v u → ∃ s, Field e s

/-- an entry that does not stop the mapping -/
def LamPasses (f : List (Val E) → LamOut E) (np : Nat) (k : MapKind) (e : EKey × Node E) : Prop := ∃ v u, Yield f np e v u ∧ Storable k e v u

/-- the entry stops the mapping with an error -/
def LamRejects (f : List (Val E) → LamOut E) (np : Nat) (k : MapKind) (e : EKey × Node E) : Prop :=
  LamFails f np e ∨ ∃ v u, Yield f np e v u ∧ ¬ Storable k e v u

/-- the fold of the values -/
inductive Summed (f : List (Val E) → LamOut E) : List (EKey × Node E) → (np : Nat) → Val E → Val E → Prop
  | nil {np r} : Summed f [] np r r
  | two {e es r v u r'} : f [r, e.2.val] = .val v u → (∀ x, v ≠ .expr x) → Summed f es 2 v r' → Summed f (e :: es) 2 r r'
  | more {e es k r v u r'} : f (r :: e.1.val :: (List.replicate k .nil ++ [e.2.val])) = .val v u → (∀ x, v ≠ .expr x) →
      Summed f es (k + 3) v r' → Summed f (e :: es) (k + 3) r r'

/-- the arguments `sum` passes for an entry: the result so far, the key (if there are at least three parameters), the value -/
inductive SumArgs (r : Val E) (e : EKey × Node E) : Nat → List (Val E) → Prop
  | two : SumArgs r e 2 [r, e.2.val]
  | more {k} : SumArgs r e (k + 3) (r :: e.1.val :: (List.replicate k .nil ++ [e.2.val]))

end Spiff.Spec
