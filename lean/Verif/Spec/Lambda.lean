import Verif.Model.Lambda
/-
Specification of lambda calls.
-/
namespace Spiff.Spec
variable {E B : Type}

/-- the named argument `k` is meant for the parameter `x`: it is its name, or its index counted from 1 -/
def Names (params : List (Param E)) (k x : String) : Prop :=
  (parseInt32 k = none ∧ x = k) ∨ ∃ (i : Nat) (p : Param E), parseInt32 k = some ((i : Int) + 1) ∧ params[i]? = some p ∧ x = p.name

/-- the parameter `x` is given by a named argument -/
def NamedBy (params : List (Param E)) (nargs : List (String × Node E)) (x : String) (n : Node E) : Prop :=
  ∃ k, (k, n) ∈ nargs ∧ Names params k x

/-- The parameter `p` with index `i` gets the value `n`: the positional argument with the same index; for the last parameter of a
variadic lambda the list of all the further arguments; otherwise the named argument, the default, the empty
list for the variadic parameter. -/
inductive Given (L : Lam E B) (src : String) (nargs : List (String × Node E)) (args : List (Val E)) (i : Nat) (p : Param E) : Node E → Prop
  | positional {v} : ¬ (L.varargs = true ∧ i + 1 = L.params.length) → args[i]? = some v → Given L src nargs args i p (Node.new v (dynSource src))
  | surplus : L.varargs = true → i + 1 = L.params.length → i < args.length →
      Given L src nargs args i p (Node.new (.list ((args.drop i).map (Node.new · src))) (dynSource src))
  | named {n} : args.length ≤ i → NamedBy L.params nargs p.name n → Given L src nargs args i p n
  | default {d} : args.length ≤ i → (∀ n, ¬ NamedBy L.params nargs p.name n) → p.default = some d →
      Given L src nargs args i p (Node.new d (dynSource src))
  | empty : args.length ≤ i → (∀ n, ¬ NamedBy L.params nargs p.name n) → p.default = none → L.varargs = true → i + 1 = L.params.length →
      Given L src nargs args i p (Node.new (.list []) (dynSource src))

/-- the conditions for a call without currying -/
structure Accepts (L : Lam E B) (nargs : List (String × Node E)) (args : List (Val E)) : Prop where
  /-- not too many arguments -/
  count : args.length ≤ L.params.length ∨ (L.varargs = true ∧ L.params ≠ [])
  /-- named arguments are meant for parameters not given by position; the variadic one must be a list -/
  names : ∀ a ∈ nargs, ∃ i p, L.params[i]? = some p ∧ Names L.params a.1 p.name ∧ args.length ≤ i ∧
    (L.varargs = true → i + 1 = L.params.length → ∃ l, a.2.val = .list l)
  /-- no parameter is named twice -/
  once : nargs.Pairwise (fun a b => ∀ x, Names L.params a.1 x → ¬ Names L.params b.1 x)
  /-- nothing is missing -/
  all : ∀ i p, L.params[i]? = some p → i < args.length ∨ (∃ n, NamedBy L.params nargs p.name n) ∨ p.default.isSome = true ∨
    (L.varargs = true ∧ i + 1 = L.params.length)

/-- the names of the parameters are different -/
def Distinct (L : Lam E B) : Prop := (L.params.map (·.name)).Nodup

/-- two calls have the same effect: both are rejected, or the bodies see the same local scope -/
inductive SameCall : LamCall E B → LamCall E B → Prop
  | err : SameCall .err .err
  | run {i j} : (∀ x, mget i x = mget j x) → SameCall (.run i) (.run j)

end Spiff.Spec
