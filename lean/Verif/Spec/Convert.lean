import Verif.Model.Convert
import Verif.Spec.YamlScalar
/-
Specification vocabulary for C84: conversions, numbers and random values.
-/
namespace Spiff.Spec
variable {E : Type}

/-- The text of an integer in base `b`: a numeral of lower case digits without leading zeros, after a minus sign for negative ones. -/
def CanonicalText (b : Nat) (s : String) (i : Int) : Prop :=
  ∃ ds, Numeral b ds i.natAbs ∧ (∀ c ∈ ds, ¬ ('A' ≤ c ∧ c ≤ 'Z')) ∧ (ds.head? = some '0' → ds = ['0']) ∧
    s.toList = if i < 0 then '-' :: ds else ds

/-- the words for truth values -/
inductive BoolWord : String → Bool → Prop
  | empty : BoolWord "" false
  | yes {s : String} (h : s ∈ ["1", "t", "T", "true", "TRUE", "True"]) : BoolWord s true
  | no {s : String} (h : s ∈ ["0", "f", "F", "false", "FALSE", "False"]) : BoolWord s false

/-- `n` matches are found in the reads from `k` on: `l` is the list of them, `j` the number of reads -/
inductive Collected (next : Nat → Option (List Char)) : Nat → Nat → List (List Char) → Prop
  | done (k : Nat) : Collected next k 0 []
  | hit {k j : Nat} {m : List Char} {l : List (List Char)} (h : next k = some m) (hr : Collected next (k + 1) j l) : Collected next k (j + 1) (m :: l)
  | miss {k j : Nat} {l : List (List Char)} (h : next k = none) (hl : l ≠ []) (hr : Collected next (k + 1) j l) : Collected next k (j + 1) l

/-- a job uses the pool -/
def UsesPool (ctl : Bool) (pool : String) (job : Node E) : Prop := (find ctl job ["resource_pool"]).map Node.val = some (.str pool)

/-- a job has this number of instances -/
def HasInstances (ctl : Bool) (job : Node E) (n : Int) : Prop := (find ctl job ["instances"]).map Node.val = some (.int n)

/-- the jobs of a list that use the pool, with their numbers of instances -/
inductive PoolJobs (ctl : Bool) (pool : String) : List (Node E) → List Int → Prop
  | nil : PoolJobs ctl pool [] []
  | other {job : Node E} {jobs : List (Node E)} {l : List Int} (h : ¬ UsesPool ctl pool job) (hr : PoolJobs ctl pool jobs l) : PoolJobs ctl pool (job :: jobs) l
  | uses {job : Node E} {jobs : List (Node E)} {n : Int} {l : List Int} (h : UsesPool ctl pool job) (hn : HasInstances ctl job n) (hr : PoolJobs ctl pool jobs l) :
      PoolJobs ctl pool (job :: jobs) (n :: l)

/-- the last component of a path (after removing trailing slashes) -/
inductive LastComponent : List Char → List Char → Prop
  | plain {c sl : List Char} (hc : c ≠ []) (hs : '/' ∉ c) (h : ∀ x ∈ sl, x = '/') : LastComponent (c ++ sl) c
  | below {p c sl : List Char} (hc : c ≠ []) (hs : '/' ∉ c) (h : ∀ x ∈ sl, x = '/') : LastComponent (p ++ '/' :: c ++ sl) c

end Spiff.Spec
