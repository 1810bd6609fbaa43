import Verif.Spec.MapFns
import Verif.Spec.Lists
/-
Specification of the document comparison (`spiff diff`): when two documents are the same.
-/
namespace Spiff.Spec
variable {E : Type}

def IsList (v : Val E) : Prop := ∃ l, v = .list l

/-- The entry `n` is a map with the string field `name: s` (and without unprocessed merge fields). -/
def Named (n : Node E) (s : String) : Prop := KeyOf "name" n s ∧ field n "<<" = none ∧ field n "<<<" = none

/-- Two documents are the same: scalars are equal, maps have the same fields, lists are equal entry by entry. Lists of named
maps may be ordered differently, and a list of named maps may stand for a map in the second document: its fields are the
names, the value is the (last) entry with that name, without its name field (`v k` is that value). -/
inductive SameDoc : Node E → Node E → Prop
  | scalar (a b : Node E) : ¬ IsMap a.val → ¬ IsList a.val → SameContent a b → SameDoc a b
  | map (a b : Node E) (m m' : List (String × Node E)) : a.val = .map m → b.val = .map m' →
      (∀ k, k ∈ mkeys m ↔ k ∈ mkeys m') → (∀ k x y, mget m k = some x → mget m' k = some y → SameDoc x y) → SameDoc a b
  | ordered (a b : Node E) (l l' : List (Node E)) : a.val = .list l → b.val = .list l' → l.length = l'.length →
      (∀ (i : Nat) x y, l[i]? = some x → l'[i]? = some y → SameDoc x y) → SameDoc a b
  | named (a b : Node E) (l l' l'' : List (Node E)) : a.val = .list l → b.val = .list l' → (∀ x ∈ l, ∃ s, Named x s) →
      l''.Perm l' → l.length = l''.length → (∀ (i : Nat) x y, l[i]? = some x → l''[i]? = some y → SameDoc x y) → SameDoc a b
  | byName (a b : Node E) (m : List (String × Node E)) (l' : List (Node E)) (v : String → Node E) :
      a.val = .map m → b.val = .list l' → (∀ y ∈ l', ∃ s, Named y s) → (∀ k, k ∈ mkeys m ↔ ∃ y ∈ l', Named y k) →
      (∀ k, k ∈ mkeys m → ∃ y, LastSuch l' (fun e => Named e k) y ∧ Without "name" y (v k)) →
      (∀ k x, mget m k = some x → SameDoc x (v k)) → SameDoc a b

/-- no two entries have the same name -/
def UniqueNames (l : List (Node E)) : Prop :=
  ∀ (i j : Nat) x y s, l[i]? = some x → l[j]? = some y → Named x s → Named y s → i = j

/-- Every list of the document either consists of maps with different names or has no named entries at all. -/
def WellNamed (a : Node E) : Prop := ∀ p n l, locate a p = some n → n.val = .list l →
  ((∀ x ∈ l, ∃ s, Named x s) ∧ UniqueNames l) ∨ ∀ x ∈ l, ∀ s, ¬ Named x s

/-- Two job lists are the same: the same number of jobs, equal position by position, but for their `index` attributes. -/
def SameJobs (l l' : List (Node E)) : Prop := l.length = l'.length ∧
  ∀ (i : Nat) x y, l[i]? = some x → l'[i]? = some y →
    (∀ f, f ≠ "index" → ((field x f).isSome ↔ (field y f).isSome)) ∧
    ∀ f u v, f ≠ "index" → field x f = some u → field y f = some v → SameDoc u v

end Spiff.Spec
