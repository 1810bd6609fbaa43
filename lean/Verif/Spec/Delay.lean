import Verif.Spec.Eval
/-
Specification for C56: evaluation with references that are decided later.
-/
namespace Spiff

/-- `o'` is compatible with the earlier outcome `o`: a value stays this value, a failure stays a failure; what was left
for later may become anything. (A crash ends the process, so it is compatible with everything.) -/
inductive Ev.Le : Ev → Ev → Prop
  | later {e i o'} : Le (.val (.expr e) i) o'
  | value {v i j} : v.isExpr = false → Le (.val v i) (.val v j)
  | fail {i j} : Le (.fail i) (.fail j)
  | crash {o} : Le o .crash
  | crashed {o} : Le .crash o

/-- `b'` is a later state of the document seen by `b`: references that have been decided (found completely resolved, or not found)
give the same result, only undecided ones may change; stubs, path and source are the same. -/
structure Bind.Le (X : EvLib) (b b' : Bind) : Prop where
  ref : ∀ p, Ev.Le (eval X (Ex.ref p) b false) (eval X (Ex.ref p) b' false)
  stub : b'.stub = b.stub
  path : b'.path = b.path
  source : b'.source = b.source

/-- the values found in stubs have been evaluated -/
def Bind.Clean (b : Bind) : Prop := ∀ p n, b.stub p = some n → n.val.isExpr = false

/-- the builtin functions yield defined values and do not set a source or the raw mark -/
def EvLib.Plain (X : EvLib) : Prop :=
  ∀ fn f vs src v i, X.fn fn = some f → f vs src = .ok (v, i) → i.undefined = false ∧ i.raw = false ∧ i.source = ""

mutual
/-- no `merge` in the expression -/
def noMerge : Ex → Bool
  | .node op args => (match op with | .merge _ => false | _ => true) && noMergeL args
termination_by structural e => e
def noMergeL : List Ex → Bool
  | [] => true
  | e :: r => noMerge e && noMergeL r
termination_by structural l => l
end

/-- first operands of a concatenation (they determine the source of new list entries): expressions without
`merge`, `merge`, or `merge || e`. -/
def srcOk : Ex → Bool
  | .node (.merge _) [] => true
  | .node .or [.node (.merge _) [], b] => noMerge b
  | e => noMerge e

/-- The expressions considered. Excluded are `~~` and `optional` (undefined values), list expansions, `//`, dynamic references,
`defined`, `valid`, `require`, `stub` and `catch`. -/
inductive Ordinary : Ex → Prop
  | lit (l) : Ordinary (Ex.lit l)
  | ref (p) : Ordinary (Ex.ref p)
  | merge (m) : Ordinary (Ex.merge m)
  | group {a} : Ordinary a → Ordinary (.node .group [a])
  | prefer {a} : Ordinary a → Ordinary (.node .prefer [a])
  | not {a} : Ordinary a → Ordinary (.node .not [a])
  | bin {o a b} : (o = .concat → srcOk a = true) → Ordinary a → Ordinary b → Ordinary (Ex.bin o a b)
  | land {a b} : Ordinary a → Ordinary b → Ordinary (.node .land [a, b])
  | lor {a b} : Ordinary a → Ordinary b → Ordinary (.node .lor [a, b])
  | or {a b} : Ordinary a → Ordinary b → Ordinary (Ex.or a b)
  | cond {c t f} : Ordinary c → Ordinary t → Ordinary f → Ordinary (Ex.cond c t f)
  | list {l} : (∀ a ∈ l, Ordinary a) → Ordinary (Ex.list l)
  | map {l} : (∀ a ∈ l, Ordinary a) → Ordinary (.node .map l)
  | scope {a l} : Ordinary a → (∀ x ∈ l, Ordinary x) → Ordinary (.node .scope (a :: l))
  | range {a b} : Ordinary a → Ordinary b → Ordinary (.node .range [a, b])
  | slice {r s t} : Ordinary r → Ordinary s → Ordinary t → Ordinary (.node (.slice true true) [r, s, t])
  | sliceFrom {r s} : Ordinary r → Ordinary s → Ordinary (.node (.slice true false) [r, s])
  | sliceTo {r t} : Ordinary r → Ordinary t → Ordinary (.node (.slice false true) [r, t])
  | qual {p r} : Ordinary r → Ordinary (.node (.qual p) [r])
  | call {fn l} : (∀ a ∈ l, Ordinary a) → Ordinary (Ex.call fn l)

/-- evaluation in several passes: the remaining expression of one pass is evaluated in the next one -/
def evalPasses (X : EvLib) (e : Ex) : Bind → List Bind → Ev
  | b, [] => eval X e b false
  | b, b' :: r => match eval X e b false with
    | .val (.expr e') _ => evalPasses X e' b' r
    | o => o

/-- a sequence of states of the document, each of them a later state of all those before -/
def Bind.chain (X : EvLib) (b : Bind) (bs : List Bind) : Prop := (b :: bs).Pairwise (Bind.Le X)

/-- the last state of a sequence -/
def Bind.last (b : Bind) (bs : List Bind) : Bind := bs.getLast?.getD b

mutual
/-- the references in an expression -/
def refsOf : Ex → List (List String)
  | .node op args => (match op with | .ref p => [p] | _ => []) ++ refsOfL args
termination_by structural e => e
def refsOfL : List Ex → List (List String)
  | [] => []
  | e :: r => refsOf e ++ refsOfL r
termination_by structural l => l
end

mutual
/-- no local scopes, slices and qualified expressions -/
def direct : Ex → Bool
  | .node op args => (match op with | .scope => false | .slice _ _ => false | .qual _ => false | _ => true) && directL args
termination_by structural e => e
def directL : List Ex → Bool
  | [] => true
  | e :: r => direct e && directL r
termination_by structural l => l
end

/-- the builtin functions do not yield expressions -/
def EvLib.Final (X : EvLib) : Prop := ∀ fn f vs src v i, X.fn fn = some f → f vs src = .ok (v, i) → v.isExpr = false

end Spiff
