import Verif.Model.SemVer
/-
Specification of the functions for semantic versions (C101).
-/
namespace Spiff.Spec
variable {V E : Type}

/-- a value is the text of a version -/
def VersionOf (L : SemLib V) (a : Val E) (v : V) : Prop := ∃ s, a = .str s ∧ L.parse s = some v

/-- a value is a constraint which the version meets (`yes`) or does not meet -/
def Judges (L : SemLib V) (v : V) (yes : Bool) (c : Val E) : Prop := ∃ s f, c = .str s ∧ L.constraint s = some f ∧ f v = yes

/-- the values to sort: the arguments, or the entries of a list given as the only argument -/
inductive SortItems : List (Val E) → List (Val E) → Prop
  | entries (l : List (Node E)) : SortItems [.list l] (l.map Node.val)
  | args (l : List (Val E)) (h : ∀ m, l ≠ [.list m]) : SortItems l l

/-- versions with the same numbers -/
def SameNumbers (L : SemLib V) (v w : V) : Prop := L.major v = L.major w ∧ L.minor v = L.minor w ∧ L.patch v = L.patch w

/-- What is assumed of the package for versions: its texts are read again, and setting a part changes this part only. -/
structure SemLaws (L : SemLib V) : Prop where
  original : ∀ s v, L.parse s = some v → L.original v = s
  pre : ∀ v s w, L.setPrerelease v s = (w, true) →
    L.parse (L.original w) = some w ∧ L.prerelease w = s ∧ L.metadata w = L.metadata v ∧ SameNumbers L w v
  build : ∀ v s w, L.setMetadata v s = (w, true) →
    L.parse (L.original w) = some w ∧ L.metadata w = s ∧ L.prerelease w = L.prerelease v ∧ SameNumbers L w v
  keep : ∀ v w, (L.setPrerelease v (L.prerelease w)).2 = true ∧ (L.setMetadata v (L.metadata w)).2 = true
  clear : ∀ v, (L.setPrerelease v "").2 = true ∧ (L.setMetadata v "").2 = true

/-- What is assumed of Go's sorting: the same versions, none before a smaller one. -/
def SortLaw (L : SemLib V) : Prop := ∀ vs, (L.sort vs).Perm vs ∧ (L.sort vs).Pairwise (fun a b => L.compare a b ≤ 0)

end Spiff.Spec
