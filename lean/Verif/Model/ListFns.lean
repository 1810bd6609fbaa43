import Verif.Model.Ops
/-
Model of the dynaml builtin functions on lists and maps. Every function takes its argument values
(`arguments []interface{}`). `src` is the source name given to created nodes (dynaml/node.go:16-31).
Functions returning their argument list modified in place (`sort`, `reverse`) are modelled
here by their result only; see Model/Slice.lean for the effect on the argument.
-/
namespace Spiff
variable {E : Type}

section
variable [DecidableEq E]

/-- dynaml/uniq.go:22-34: `acc` is `newList` -/
def uniqLoop (acc : List (Node E)) : List (Node E) → List (Node E)
  | [] => acc
  | v :: r => if acc.any (fun n => eqVals v.val n.val) then uniqLoop acc r else uniqLoop (acc ++ [v]) r

/-- dynaml/uniq.go:7-36 -/
def funcUniq : List (Val E) → Out (Val E)
  | [.list l] => .ok (.list (uniqLoop [] l))
  | _ => .err

/-- An argument of `intersect`: Go distinguishes a nil slice (`isNil`, as returned by `uniq` and `compact`
for an empty result) from an empty list. -/
inductive SetArg (E : Type) where
  | nil
  | list (isNil : Bool) (l : List (Node E))
  | other

/-- dynaml/intersect.go:20-34 -/
def intersect2 (a b : List (Node E)) : List (Node E) :=
  a.filter (fun e => b.any (fun n => eqVals e.val n.val))

/-- dynaml/intersect.go:11-42; the accumulator `none` is Go's nil `result` -/
def intersectLoop (result : Option (List (Node E))) : List (SetArg E) → Out (Option (List (Node E)))
  | [] => .ok result
  | .list isNil l :: r => match result with
    | none => intersectLoop (if isNil then none else some l) r
    | some x => intersectLoop (some (intersect2 x l)) r
  | .nil :: r => intersectLoop result r
  | .other :: _ => .err

/-- `intersect` on argument values that are no nil slices -/
def toSetArg : Val E → SetArg E
  | .list l => .list false l
  | .nil => .nil
  | _ => .other
def funcIntersect (args : List (Val E)) : Out (Val E) :=
  match intersectLoop none (args.map toSetArg) with
  | .ok r => .ok (.list (r.getD []))
  | _ => .err

/-- dynaml/compact.go:26-42: kept entries -/
def compactKeep : Val E → Bool
  | .nil => false
  | .str s => !s.isEmpty
  | .map m => !m.isEmpty
  | .list l => !l.isEmpty
  | _ => true
/-- dynaml/compact.go:11-45 -/
def funcCompact : List (Val E) → Out (Val E)
  | [.list l] => .ok (.list (l.filter (fun n => compactKeep n.val)))
  | _ => .err

/-- `strings.Index` on the characters; `none` is -1 -/
def findSub (pat : List Char) : List Char → Option Nat
  | [] => if pat = [] then some 0 else none
  | c :: s => if pat.isPrefixOf (c :: s) then some 0 else (findSub pat s).map (· + 1)

/-- `strings.LastIndex` -/
def findLastSub (pat : List Char) : List Char → Option Nat
  | [] => if pat = [] then some 0 else none
  | c :: s => match findLastSub pat s with
    | some i => some (i + 1)
    | none => if pat.isPrefixOf (c :: s) then some 0 else none

/-- conversion of a simple value to the string searched for (contains.go:43-52, index.go:43-52) -/
def asPattern : Val E → Option String
  | .str s => some s
  | .int i => some (toString i)
  | .bool b => some (showBool b)
  | _ => none

/-- the loop of dynaml/contains.go:37-42, index.go:32-40 (first match) -/
def firstIndex (elem : Val E) : List (Node E) → Option Nat
  | [] => none
  | v :: r => if eqVals v.val elem then some 0 else (firstIndex elem r).map (· + 1)
/-- index.go:32-40 (`first` false) -/
def lastIndex (elem : Val E) : List (Node E) → Option Nat
  | [] => none
  | v :: r => match lastIndex elem r with
    | some i => some (i + 1)
    | none => if eqVals v.val elem then some 0 else none

/-- an index or -1 -/
def idxVal : Option Nat → Val E
  | some i => .int i
  | none => .int (-1)

/-- dynaml/contains.go:10-58 -/
def funcContains : List (Val E) → Out (Val E)
  | [.map m, elem] => match elem with
    | .str k => .ok (.bool (mget m k).isSome)
    | _ => .ok (.bool false)
  | [.list l, elem] => match elem with
    | .nil => .ok (.bool false)
    | _ => .ok (.bool (l.any (fun v => eqVals v.val elem)))
  | [.str s, elem] => match asPattern elem with
    | some p => .ok (.bool (findSub p.toList s.toList).isSome)
    | none => .err
  | _ => .err

/-- dynaml/index.go:9-56; `f` and `g` are the search functions for strings and lists -/
def funcIndexBy (f : List Char → List Char → Option Nat) (g : Val E → List (Node E) → Option Nat) : List (Val E) → Out (Val E)
  | [.list l, elem] => match elem with
    | .nil => .ok (.int (-1))
    | _ => .ok (idxVal (g elem l))
  | [.str s, elem] => match asPattern elem with
    | some p => .ok (idxVal (f p.toList s.toList))
    | none => .err
  | _ => .err
def funcIndex : List (Val E) → Out (Val E) := funcIndexBy findSub firstIndex
def funcLastIndex : List (Val E) → Out (Val E) := funcIndexBy findLastSub lastIndex
end

/-! ### sort and reverse -/

/-- stable insertion -/
def insertBy (less : Node E → Node E → Bool) (a : Node E) : List (Node E) → List (Node E)
  | [] => [a]
  | b :: r => if less b a then b :: insertBy less a r else a :: b :: r

/-- The result of Go's `sort.SliceStable` for a strict weak order `less` (the result of a stable
sort does not depend on the algorithm). -/
def sortBy (less : Node E → Node E → Bool) : List (Node E) → List (Node E)
  | [] => []
  | a :: r => insertBy less a (sortBy less r)

/-- dynaml/sort.go:42-60 `ValueLess`, where defined -/
def valueLess (a b : Node E) : Bool :=
  match a.val, b.val with
  | .str x, .str y => decide (x < y)
  | .int x, .int y => decide (x < y)
  | _, _ => false

def isStrN (n : Node E) : Bool := match n.val with | .str _ => true | _ => false
def isIntN (n : Node E) : Bool := match n.val with | .int _ => true | _ => false

/-- `ValueLess` raises an error, if it is called for two elements that are neither both strings
nor both integers. A sort of two or more elements compares such a pair, if there is one that is not
of one of both types or if the types differ: the compared pairs connect all elements. -/
def sortable (l : List (Node E)) : Bool := decide (l.length ≤ 1) || l.all isStrN || l.all isIntN

/-- dynaml/sort.go:8-38 with one argument -/
def funcSort : List (Val E) → Out (Val E)
  | [.list l] => if sortable l then .ok (.list (sortBy valueLess l)) else .err
  | _ => .err

/-- dynaml/reverse.go:9-29: swapping `list[i]` and `list[max-i]` for `i < (max+1)/2` -/
def swapLoop (i : Nat) (max : Nat) : Nat → List (Node E) → List (Node E)
  | 0, l => l
  | fuel + 1, l =>
    if i < (max + 1) / 2 then
      match l[i]?, l[max - i]? with
      | some x, some y => swapLoop (i + 1) max fuel ((l.set i y).set (max - i) x)
      | _, _ => l
    else l
def funcReverse : List (Val E) → Out (Val E)
  | [.list l] => .ok (.list (if l.isEmpty then l else swapLoop 0 (l.length - 1) l.length l))
  | _ => .err

/-! ### element, length, slice, range -/

/-- dynaml/element.go:9-53 -/
def elementAt (l : List (Node E)) (i : Int) : Out (Val E) :=
  if i < 0 then .err else if i ≥ l.length then .err
  else match l[i.toNat]? with
    | some n => .ok n.val
    | none => .panic
def funcElement : List (Val E) → Out (Val E)
  | [a, b] => match a with
    | .nil => .err
    | .list l => match b with
      | .int i => elementAt l i
      | .str s => match parseInt s with
        | some i => elementAt l i
        | none => .err
      | _ => .err
    | .map m => match b with
      | .str k => match mget m k with
        | some n => .ok n.val
        | none => .err
      | _ => .err
    | _ => .err
  | _ => .err

/-- dynaml/length.go:7-28 -/
def funcLength : List (Val E) → Out (Val E)
  | [.list l] => .ok (.int l.length)
  | [.map m] => .ok (.int m.length)
  | [.str s] => .ok (.int s.length)
  | _ => .err

/-- dynaml/range.go:14-46 `getRange` for a list of the given size; absent bounds are `none`.
The bounds themselves are integers (a nil value counts as 0). -/
def sliceRange (size : Int) (start stop : Option Int) : Option (Int × Int) :=
  match start, stop with
  | none, none => none
  | some s, none => some (s, if s < 0 then -1 else size - 1)
  | none, some e => some (if e < 0 then -size else 0, e)
  | some s, some e => some (s, e)

/-- dynaml/slice.go:49-66: the loops copying `array[i + shift]` for `i = start .. end`; a Go index out of range
is `none` (panic) -/
def copyRange (l : List (Node E)) (start : Int) : Nat → Option (List (Node E))
  | 0 => some []
  | n + 1 => if start < 0 then none
    else match l[start.toNat]? with
      | some x => (copyRange l (start + 1) n).map (x :: ·)
      | none => none

/-- dynaml/slice.go:15-67 on the evaluated operand -/
def sliceVals (v : Val E) (start stop : Option Int) : Out (Val E) :=
  match v with
  | .list l => match sliceRange l.length start stop with
    | none => .err
    | some (s, e) =>
      if s > e then .ok (.list [])
      else if s < 0 then
        if e ≥ 0 then .err
        else if s < -l.length then .err
        else match copyRange l (s + l.length) (e - s + 1).toNat with
          | some r => .ok (.list r)
          | none => .panic
      else if e ≥ l.length then .err
      else match copyRange l s (e - s + 1).toNat with
        | some r => .ok (.list r)
        | none => .panic
  | _ => .err

/-- dynaml/range.go:59-66: the loop of `[start..end]`. `none`: not finished within `fuel` iterations. -/
def rangeLoop (stop delta : Int) : Nat → Int → Option (List Int)
  | 0, _ => none
  | fuel + 1, i =>
    if wrap64 (i * delta) ≤ wrap64 (stop * delta) then (rangeLoop stop delta fuel (wrap64 (i + delta))).map (i :: ·)
    else some []
/-- dynaml/range.go:48-68 -/
def rangeVals (fuel : Nat) (start stop : Int) : Option (List Int) :=
  rangeLoop stop (if start > stop then -1 else 1) fuel start

/-! ### maps -/

/-- dynaml/list_to_map.go:45-74 `listToMap` -/
def listToMap (key : String) (acc : List (String × Node E)) : List (Node E) → Option (List (String × Node E))
  | [] => some acc
  | n :: r => match n.val with
    | .map m => match mget m key with
      | some k => match k.val with
        | .str s => listToMap key (mset acc s (n.withVal (.map (mdel m key)))) r
        | _ => none
      | none => none
    | _ => none
/-- dynaml/list_to_map.go:8-43; `infoKey` is the key name of the evaluated list expression -/
def funcListToMap (infoKey : String) (args : List (Val E)) : Out (Val E) :=
  let dflt := if infoKey = "" then "name" else infoKey
  match args with
  | [.list l] => match listToMap dflt [] l with
    | some m => .ok (.map m)
    | none => .err
  | [.list l, .str key] => match listToMap key [] l with
    | some m => .ok (.map m)
    | none => .err
  | _ => .err

/-- dynaml/keys.go:7-24 -/
def funcKeys (src : String) : List (Val E) → Out (Val E)
  | [.map m] => .ok (.list ((sortedKeys m).map (fun k => Node.new (.str k) src)))
  | _ => .err

/-- dynaml/makemap.go:28-37, 45-54 the key of an entry -/
def keyString : Val E → Option String
  | .str s => some s
  | .int i => some (toString i)
  | .bool b => some (showBool b)
  | _ => none

/-- dynaml/makemap.go:19-42 -/
def makemapList (acc : List (String × Node E)) : List (Node E) → Option (List (String × Node E))
  | [] => some acc
  | e :: r => match e.val with
    | .map m => match (mget m "key").bind (fun k => keyString k.val), mget m "value" with
      | some k, some v => makemapList (mset acc k v) r
      | _, _ => none
    | _ => none
/-- dynaml/makemap.go:43-58 -/
def makemapPairs (src : String) (acc : List (String × Node E)) : List (Val E) → Option (List (String × Node E))
  | k :: v :: r => match keyString k with
    | some s => makemapPairs src (mset acc s (Node.new v src)) r
    | none => none
  | [] => some acc
  | [_] => none
/-- dynaml/makemap.go:8-63 -/
def funcMakemap (src : String) : List (Val E) → Out (Val E)
  | [.list l] => match makemapList [] l with
    | some m => .ok (.map m)
    | none => .err
  | [_] => .err
  | args => match makemapPairs src [] args with
    | some m => .ok (.map m)
    | none => .err

/-- dynaml/concatenation.go:115-119 `concatenateMap(a, b)` -/
def concatMap (a b : List (String × Node E)) : List (String × Node E) := b.foldl (fun r e => mset r e.1 e.2) a

mutual
/-- dynaml/deepmerge.go:24-34 `deepmerge(result, m)` -/
def deepmerge (result : List (String × Node E)) : List (String × Node E) → List (String × Node E)
  | [] => result
  | (k, n) :: r => deepmerge (mset result k (deepNode (mget result k) n)) r
termination_by structural m => m
/-- the new value of a field: dynaml/deepmerge.go:26-32 -/
def deepNode (old : Option (Node E)) : Node E → Node E
  | .mk v s a => deepVal old v s a
termination_by structural n => n
def deepVal (old : Option (Node E)) : Val E → String → Ann → Node E
  | .map m, s, a => match old with
    | some o => match o.val with
      | .map om => Node.new (.map (deepmerge om m)) "<deepmerge>"
      | _ => .mk (.map m) s a
    | none => .mk (.map m) s a
  | .nil, s, a => .mk .nil s a
  | .bool b, s, a => .mk (.bool b) s a
  | .int i, s, a => .mk (.int i) s a
  | .float f, s, a => .mk (.float f) s a
  | .str t, s, a => .mk (.str t) s a
  | .list l, s, a => .mk (.list l) s a
  | .expr e, s, a => .mk (.expr e) s a
  | .templ n, s, a => .mk (.templ n) s a
  | .lambda l, s, a => .mk (.lambda l) s a
termination_by structural v => v
end

/-- dynaml/mapmerge.go:31-45 `getMap` -/
def getMap : Val E → Option (List (String × Node E))
  | .templ n => match n.val with
    | .map m => some m
    | _ => none
  | .map m => some m
  | _ => none

/-- dynaml/mapmerge.go:47-78 `getMapList` -/
def getMapList : List (Val E) → Option (List (List (String × Node E)))
  | [.list l] => if l.isEmpty then none else l.mapM (fun n => getMap n.val)
  | args => args.mapM getMap

/-- dynaml/deepmerge.go:7-22 -/
def funcDeepmerge (args : List (Val E)) : Out (Val E) :=
  if args.isEmpty then .undet
  else match getMapList args with
    | some maps => .ok (.map (maps.foldl deepmerge []))
    | none => .err

/-- dynaml/concatenation.go:82-113 `concatenateString` -/
def concatString (a b : Val E) : Option String :=
  match keyString a with
  | none => none
  | some x => match b with
    | .str y => some (x ++ y)
    | .int y => some (x ++ toString y)
    | .bool y => some (x ++ showBool y)
    | .lambda y => some (x ++ y)
    | _ => none

/-- dynaml/concatenation.go:20-78 `ConcatenationExpr.Evaluate` on the evaluated operands (result only, see
Model/Slice.lean for the effect of Go's `append`) -/
def concatVals (src : String) (a b : Val E) : Out (Val E) :=
  match concatString a b with
  | some s => .ok (.str s)
  | none => match a with
    | .list l => match b with
      | .list l' => .ok (.list (l ++ l'))
      | .nil => .ok a
      | _ => .ok (.list (l ++ [Node.new b src]))
    | .map m => match b with
      | .map m' => .ok (.map (concatMap m m'))
      | .nil => .ok a
      | _ => .err
    | _ => .err

end Spiff
