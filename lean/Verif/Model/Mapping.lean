import Verif.Model.Lambda
import Verif.Model.Ops
/-
Model of map, select, filter and sum: dynaml/mapping.go, select.go, filter.go, sum.go. The lambda is given by the number of its
parameters and its behaviour `f` on argument lists (`LambdaValue.Evaluate` without currying, see `applyLambda`).
-/
namespace Spiff
variable {E : Type}

/-- The mapping contexts: dynaml/mapping.go:139, 183 (`map[]`, `map{}`), dynaml/select.go:15, 47 (`select[]`, `select{}`),
dynaml/filter.go:15-16 (`filter[]`, `filter{}`) -/
inductive MapKind where
  | mapList | mapMap | selectList | selectMap | filterList | filterMap
deriving DecidableEq

/-- outcome of a mapping: failure, the expression is kept, a value, or a Go panic -/
inductive MapOut (E : Type) where
  | fail
  | later
  | val (v : Val E)
  | panic

/-- dynaml/mapping.go:98-107, 195-204 `Supports` -/
def MapKind.supports : MapKind → Val E → Bool
  | .mapList, .map _ => true
  | .mapList, .list _ => true
  | .mapMap, .map _ => true
  | .mapMap, .list _ => true
  | .selectList, .map _ => true
  | .selectList, .list _ => true
  | .selectMap, .map _ => true
  | .filterList, .list _ => true
  | .filterMap, .map _ => true
  | _, _ => false

/-- The initial aggregation (`CreateMappingAggregation`): `true` for a list, `false` for a map. -/
def MapKind.toList : MapKind → Bool
  | .mapList => true
  | .selectList => true
  | .filterList => true
  | _ => false

/-- the aggregation: the result list and the result map (only one of them is used) -/
structure Agg (E : Type) where
  list : List (Node E) := []
  map : List (String × Node E) := []

/-- `Result()` -/
def Agg.result (k : MapKind) (a : Agg E) : Val E := if k.toList then .list a.list else .map a.map

/-- The key of an entry: the index for lists, the key for maps (the arguments `i` and `k` in dynaml/mapping.go:289, 324) -/
inductive EKey where
  | idx (i : Nat)
  | key (k : String)

def EKey.val : EKey → Val E
  | .idx i => .int i
  | .key k => .str k

/-- `Add` for a value that is neither undefined nor nil: dynaml/mapping.go:160-169, 222-231, 251-264, select.go:33-39, 65-71,
filter.go:37-48, 54-65. The key of `map{}` for lists is the (string) element; `none` is an error. Simplification: the source name of the
nodes is a parameter (in Go: of the evaluation info of the entry). -/
def addVal (src : String) (k : MapKind) (key : EKey) (v : Val E) (n : Node E) (a : Agg E) : Option (Agg E) :=
  match k with
  | .mapList => some { a with list := a.list ++ [Node.new v (dynSource src)] }
  | .mapMap => match key with
    | .key s => some { a with map := mset a.map s (Node.new v (dynSource src)) }
    | .idx _ => match n.val with
      | .str s => some { a with map := mset a.map s (Node.new v (dynSource src)) }
      | _ => none
  | .selectList => some (if toBool v then { a with list := a.list ++ [n] } else a)
  | .filterList => some (if toBool v then { a with list := a.list ++ [n] } else a)
  | .selectMap => match key with
    | .key s => some (if toBool v then { a with map := mset a.map s n } else a)
    | .idx _ => some a   -- not reached, lists are not supported
  | .filterMap => match key with
    | .key s => some (if toBool v then { a with map := mset a.map s n } else a)
    | .idx _ => some a   -- not reached

/-- `value == nil` -/
def isNilVal : Val E → Bool
  | .nil => true
  | _ => false

/-- `mapped.(Expression)` -/
def isExprVal : Val E → Bool
  | .expr _ => true
  | _ => false

/-- `Add` -/
def addEntry (src : String) (k : MapKind) (key : EKey) (v : Val E) (undefined : Bool) (n : Node E) (a : Agg E) : Option (Agg E) :=
  if undefined || isNilVal v then some a else addVal src k key v n a

/-- dynaml/mapping.go:281, 290-291: the arguments for an entry: the key first, the value last, nil between them;
`none` is the panic for a lambda without parameters. -/
def mapInput (np : Nat) (key : EKey) (n : Node E) : Option (List (Val E)) :=
  if np = 0 then none else some (((List.replicate np Val.nil).set 0 key.val).set (np - 1) n.val)

/-- dynaml/mapping.go:288-312, 323-347: the loop over the entries -/
def mapLoop (f : List (Val E) → LamOut E) (np : Nat) (src : String) (k : MapKind) : List (EKey × Node E) → Agg E → MapOut E
  | [], a => .val (a.result k)
  | (key, n) :: r, a => match mapInput np key n with
    | none => .panic
    | some inp => match f inp with
      | .panic => .panic
      | .fail => .fail
      | .later => .later
      | .val v undefined =>
        if isExprVal v then .later
        else match addEntry src k key v undefined n a with
          | none => .fail
          | some a => mapLoop f np src k r a

/-- the entries of a list with their indices -/
def indexedEntries (l : List (Node E)) : List (EKey × Node E) := l.zipIdx.map (fun e => (.idx e.2, e.1))

/-- the entries of a map in the order of the sorted keys (dynaml/mapping.go:322-324, 352-361) -/
def mapEntriesSorted (m : List (String × Node E)) : List (EKey × Node E) :=
  (sortedKeys m).filterMap (fun k => (mget m k).map (fun n => (.key k, n)))

/-- dynaml/mapping.go:41-45 with `DoMapping`; 279-350 `mapList`, `mapMap` -/
def doMapping (f : List (Val E) → LamOut E) (np : Nat) (src : String) (k : MapKind) (v : Val E) : MapOut E :=
  if k.supports v then
    match v with
    | .list l => if 2 < np then .fail else mapLoop f np src k (indexedEntries l) {}
    | .map m => mapLoop f np src k (mapEntriesSorted m) {}
    | _ => .fail
  else .fail

/-- outcome of the evaluation of an operand -/
inductive OpOut (α : Type) where
  | fail
  | later
  | val (v : α)

/-- the value of the lambda operand: a lambda value or something else -/
inductive LamOperand (E : Type) where
  | other
  | lam (np : Nat) (f : List (Val E) → LamOut E)

/-- dynaml/mapping.go:17-53 `MappingExpr.Evaluate` for given outcomes of its operands -/
def evalMapping (src : String) (k : MapKind) (a : OpOut (Val E)) (l : OpOut (LamOperand E)) : MapOut E :=
  match a, l with
  | .fail, _ => .fail
  | _, .fail => .fail
  | .later, _ => .later
  | _, .later => .later
  | .val _, .val .other => .fail
  | .val v, .val (.lam np f) => doMapping f np src k v

/-- dynaml/sum.go:75, 90-92, 119, 126-128: `none` is an index panic -/
def sumInput (np : Nat) (result : Val E) (key : EKey) (n : Node E) : Option (List (Val E)) :=
  if np < 2 then none else some ((((List.replicate np Val.nil).set 0 result).set 1 key.val).set (np - 1) n.val)

/-- dynaml/sum.go:88-110, 123-146 -/
def sumLoop (f : List (Val E) → LamOut E) (np : Nat) : List (EKey × Node E) → Val E → MapOut E
  | [], r => .val r
  | (key, n) :: es, r => match sumInput np r key n with
    | none => .panic
    | some inp => match f inp with
      | .panic => .panic
      | .fail => .fail
      | .later => .later
      | .val v _ => if isExprVal v then .later else sumLoop f np es v

/-- dynaml/sum.go:46-55, 74-147 `sumList`, `sumMap` -/
def doSum (f : List (Val E) → LamOut E) (np : Nat) (initial : Val E) : Val E → MapOut E
  | .list l => if 3 < np ∨ np < 2 then .fail else sumLoop f np (indexedEntries l) initial
  | .map m => sumLoop f np (mapEntriesSorted m) initial
  | _ => .fail

/-- dynaml/sum.go:16-65 `SumExpr.Evaluate` for given outcomes of its operands -/
def evalSum (a i : OpOut (Val E)) (l : OpOut (LamOperand E)) : MapOut E :=
  match a, i, l with
  | .fail, _, _ => .fail
  | _, .fail, _ => .fail
  | _, _, .fail => .fail
  | .val _, .val _, .val .other => .fail
  | .val v, .val init, .val (.lam np f) => doSum f np init v
  | _, _, _ => .later

end Spiff
