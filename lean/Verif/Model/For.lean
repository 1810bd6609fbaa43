import Verif.Model.Control
import Verif.Model.Values
/-
Model of dynaml/control/for.go: the for control.
-/
namespace Spiff
variable {E F : Type}

/-- dynaml/control/for.go:24-29 `iteration`, without the current position. `items` are the indices and values of the iterator
(for.go:62-104); `none` is a nil iterator. -/
structure Iter (E : Type) where
  name : String
  index : String
  items : Option (List (Val E × Node E))

/-- for.go:71-73: list indices -/
def listItems (i : Nat) : List (Node E) → List (Val E × Node E)
  | [] => []
  | n :: r => (.int i, n) :: listItems (i + 1) r

/-- for.go:91-104: map entries in the order of the sorted keys. (All keys have a value; `getD` is not
used with the default.) -/
def mapItems (m : List (String × Node E)) : List (Val E × Node E) :=
  (sortedKeys m).map (fun k => (.str k, (mget m k).getD (Node.new .nil "")))

/-- for.go:340-358 `controlIterator`: an empty range yields the nil iterator without error -/
def controlIterator (v : Node E) : Except String (Option (List (Val E × Node E))) :=
  match v.val with
  | .list l => if l.isEmpty then .ok none else .ok (some (listItems 0 l))
  | .map m => if m.isEmpty then .ok none else .ok (some (mapItems m))
  | _ => .error "control variable requires list or map value"

/-- for.go:316-323 `checkName`: the regular expression `[a-zA-Z0-9_]+` is not anchored -/
def checkName (s : String) : Bool :=
  s.toList.any (fun c => ('a' ≤ c && c ≤ 'z') || ('A' ≤ c && c ≤ 'Z') || ('0' ≤ c && c ≤ '9') || c == '_')

/-- for.go:325-338 `controlIteration` -/
def controlIteration (name index : String) (items : Option (List (Val E × Node E))) : Except String (Iter E) :=
  if !checkName name then .error "invalid range variable name"
  else if index = "" then .ok ⟨name, "index-" ++ name, items⟩
  else if checkName index then .ok ⟨name, index, items⟩
  else .error "invalid index variable name"

/-- for.go:139-150: index and name of a variable specification -/
def varSpec (k : String) : Option (String × String) :=
  match splitCh ',' k.toList with
  | [n] => some ("", String.ofList (trimSpace n))
  | [i, n] => some (String.ofList (trimSpace i), String.ofList (trimSpace n))
  | _ => none

/-- for.go:135-159: a variable in a map definition -/
def mapVar (k : String) (v : Node E) : Except String (Iter E) :=
  match varSpec k with
  | none => .error "invalid control variable spec"
  | some (index, name) =>
    match controlIterator v with
    | .error m => .error m
    | .ok it => controlIteration name index it

/-- for.go:133-160: all variables of a map definition -/
def mapVarsFor : List (String × Node E) → Except String (List (Iter E))
  | [] => .ok []
  | (k, v) :: r =>
    match mapVar k v with
    | .error m => .error m
    | .ok i => match mapVarsFor r with
      | .error m => .error m
      | .ok l => .ok (i :: l)

/-- for.go:36-42 `Less`: descending by name, then by index name -/
def Iter.less (a b : Iter E) : Bool :=
  if a.name ≠ b.name then decide (b.name < a.name) else decide (b.index < a.index)

/-- insertion for the sort, for.go:161 -/
def insertIter (a : Iter E) : List (Iter E) → List (Iter E)
  | [] => [a]
  | b :: r => if b.less a then b :: insertIter a r else a :: b :: r

/-- for.go:161 `sort.Sort`. (Without equal elements the result does not depend on the algorithm.) -/
def sortIters : List (Iter E) → List (Iter E)
  | [] => []
  | a :: r => insertIter a (sortIters r)

/-- a string value or the empty string (`v.(string)` with ignored status, for.go:175) -/
def strOr (n : Node E) : String := match n.val with | .str s => s | _ => ""

/-- for.go:176-183: the index name of a list entry -/
def entryIndex (spec : List (String × Node E)) : Option String :=
  match mget spec "index" with
  | none => some ""
  | some n => match n.val with | .str s => some s | _ => none

/-- for.go:193-207: the number of fields is two or three, and the third one is the index -/
def entryShape (spec : List (String × Node E)) (index : String) : Bool :=
  !(decide (spec.length < 2) || decide (spec.length > 3)) &&
  !(decide (spec.length = 3) && decide (index = "") && spec.any (fun e => e.1 ≠ "name" && e.1 ≠ "values" && e.1 ≠ "index"))

/-- for.go:184-211 -/
def entryVar (spec : List (String × Node E)) (name index : String) : Except String (Iter E) :=
  match mget spec "values" with
  | none => .error "control variable list entry requires values field"
  | some l => match controlIterator l with
    | .error m => .error m
    | .ok it => if entryShape spec index then controlIteration name index it else .error "invalid control variable list entry"

/-- for.go:165-211: a variable in a list definition -/
def listVar (v : Node E) : Except String (Iter E) :=
  match v.val with
  | .map spec =>
    match mget spec "name" with
    | none => .error "control variable list entry requires name field"
    | some n => match entryIndex spec with
      | none => .error "control index variable name must be of type string"
      | some index => entryVar spec (strOr n) index
  | _ => .error "control variable list entry requires map"

/-- for.go:163-213: all variables of a list definition, in order -/
def listVarsFor : List (Node E) → Except String (List (Iter E))
  | [] => .ok []
  | v :: r =>
    match listVar v with
    | .error m => .error m
    | .ok i => match listVarsFor r with
      | .error m => .error m
      | .ok l => .ok (i :: l)

/-- for.go:130-217: the ranges; the innermost loop is the first one. A list definition is stored in reverse order (line 209). -/
def forRanges (v : Val E) : Except String (List (Iter E)) :=
  match v with
  | .map m => match mapVarsFor m with
    | .ok l => .ok (sortIters l)
    | .error e => .error e
  | .list l => match listVarsFor l with
    | .ok l => .ok l.reverse
    | .error e => .error e
  | _ => .error "value field must be map"

/-! ### the loop -/

/-- `ranges[i].Len()` -/
def Iter.len (i : Iter E) : Nat := (i.items.getD []).length

/-- for.go:289-298: the next position; `none` = `break outer` -/
def advance : List Nat → List Nat → Option (List Nat)
  | [], _ => none
  | n :: ns, c :: cs => if c + 1 < n then some ((c + 1) :: cs) else (advance ns cs).map (0 :: ·)
  | _ :: _, [] => none

/-- for.go:234-299: the loop; the first argument bounds the number of steps -/
def forLoop {A : Type} (step : List Nat → A → A) (lens : List Nat) : Nat → List Nat → A → Option A
  | 0, _, _ => none
  | n + 1, pos, acc =>
    match advance lens pos with
    | none => some (step pos acc)
    | some pos' => forLoop step lens n pos' (step pos acc)

/-- the current item of a range: `ranges[i].Index()`, `ranges[i].Value()` -/
def Iter.at (i : Iter E) (c : Nat) : Val E × Node E := ((i.items.getD [])[c]?).getD (.nil, Node.new .nil "")

/-- for.go:236-240: the local bindings -/
def forBinding (acc : List (String × Node E)) : List (Iter E) → List Nat → List (String × Node E)
  | i :: r, c :: cs => forBinding (mset (mset acc i.name (i.at c).2) i.index (Node.new (i.at c).1 "for")) r cs
  | _, _ => acc

/-- The variables of the loop: for.go:219-232. `issues` counts the nested issues. -/
structure ForAcc (E : Type) where
  list : List (Node E) := []
  map : List (String × Node E) := []
  done : Bool := true
  issues : Nat := 0

/-- for.go:244-258: the map key: skip, key, and the changed variables -/
def forKey (r : Val E × Info × Bool) (acc : ForAcc E) : Bool × String × ForAcc E :=
  let acc := if !r.2.2 then { acc with done := false, issues := acc.issues + 1 } else acc
  if r.2.1.undefined || r.1.isNil then (true, "", acc)
  else match r.1 with
    | .str s => (false, s, acc)
    | _ => (false, "", { acc with done := false, issues := acc.issues + 1 })

/-- store a value: in the map or in the list -/
def forStore (mapkey : Bool) (key : String) (n : Node E) (acc : ForAcc E) : ForAcc E :=
  if mapkey then { acc with map := mset acc.map key n } else { acc with list := acc.list ++ [n] }

/-- for.go:259-279: the body is a template; its value -/
def forTemplate (src : String) (mapkey skip : Bool) (key : String) (r : Val E × Info × Bool) (acc : ForAcc E) : ForAcc E :=
  if !r.2.2 then { acc with done := false, issues := acc.issues + 1 }
  else if r.1.isExpr then { acc with done := false }
  else if !skip && !r.2.1.undefined then forStore mapkey key (Node.new r.1 src) acc
  else acc

/-- for.go:259-286: the body is a template or any other value. In the latter case `skip` is not considered. -/
def forBody (lib : CtlLib E) (src : String) (body : Node E) (inp : List (String × Node E)) (mapkey skip : Bool) (key : String)
    (acc : ForAcc E) : ForAcc E :=
  match body.val with
  | .templ t => forTemplate src mapkey skip key (lib.subst t inp) acc
  | _ => forStore mapkey key body acc

/-- for.go:235-286: one execution of the body -/
def forStep (lib : CtlLib E) (src : String) (body : Node E) (mapkey : Option (Node E)) (ranges : List (Iter E)) (pos : List Nat)
    (acc : ForAcc E) : ForAcc E :=
  match mapkey with
  | none => forBody lib src body (forBinding [] ranges pos) false false "" acc
  | some t =>
    forBody lib src body (forBinding [] ranges pos) true (forKey (lib.subst t (forBinding [] ranges pos)) acc).1
      (forKey (lib.subst t (forBinding [] ranges pos)) acc).2.1 (forKey (lib.subst t (forBinding [] ranges pos)) acc).2.2

/-- for.go:300-311: the result -/
def forResult (ctx : CtlCtx F E) (mapkey : Bool) (acc : ForAcc E) : CtlOut E :=
  if !acc.done then
    if acc.issues > 0 then controlIssueOpen ctx "error evaluating body" else (ctx.node, false)
  else if mapkey then (Node.new (.map acc.map) ctx.node.src, true)
  else (Node.new (.list acc.list) ctx.node.src, true)

/-- for.go:219-311: the loop. A nil iterator is dereferenced in line 238. -/
def forRun (lib : CtlLib E) (fuel : Nat) (ctx : CtlCtx F E) (body : Node E) (mapkey : Option (Node E)) (ranges : List (Iter E)) :
    Run (CtlOut E) :=
  if ranges.any (fun i => i.items.isNone) then .error .panic
  else match forLoop (forStep lib ctx.node.src body mapkey ranges) (ranges.map Iter.len) fuel (ranges.map (fun _ => 0)) {} with
    | none => .error .fuel
    | some acc => .ok (forResult ctx mapkey.isSome acc)

/-- for.go:117-124: the template of the map key -/
def forMapKey (ctx : CtlCtx F E) : Except String (Option (Node E)) :=
  match mget ctx.options "mapkey" with
  | none => .ok none
  | some k => match k.val with
    | .templ t => .ok (some t)
    | _ => .error "mapkey must be an expression"

/-- for.go:106-312 `flowFor` -/
def flowFor (lib : CtlLib E) (fuel : Nat) (ctx : CtlCtx F E) : Run (CtlOut E) :=
  match controlReady ctx false with
  | some r => .ok r
  | none =>
    match mget ctx.options "do" with
    | none => .ok (controlIssue ctx "do field required")
    | some body =>
      if ctx.value.ann.undefined then .ok (undefNode ctx, true)
      else match forMapKey ctx with
        | .error m => .ok (controlIssue ctx m)
        | .ok mapkey => match forRanges ctx.value.val with
          | .error m => .ok (controlIssue ctx m)
          | .ok ranges => forRun lib fuel ctx body mapkey ranges

/-! ### dispatch -/

/-- dynaml/control/*.go `init`: the registered functions -/
inductive CtlFn | cIf | cSwitch | cType | cMerge | cFor
deriving DecidableEq

/-- the call of the control function, dynaml/control.go:42-44 -/
def ctlFunction [DecidableEq E] (lib : CtlLib E) (fuel : Nat) (ctx : CtlCtx CtlFn E) : Run (CtlOut E) :=
  match ctx.control.fn with
  | .cIf => .ok (flowIf ctx)
  | .cSwitch => .ok (flowSwitch lib ctx)
  | .cType => .ok (flowType ctx)
  | .cMerge => .ok (flowMerge ctx)
  | .cFor => flowFor lib fuel ctx

/-- flow/flow_control.go:23-27: a resolved node gets the flags of the control map -/
def ctlFlags (node : Node E) (r : CtlOut E) : Node E :=
  if r.2 then r.1.addFlags node.flags else r.1

/-- flow/flow_control.go:10-29 `flowControl`: the new node. With an error there is no context, and
the access in dynaml/control.go:175 panics. -/
def flowControl [DecidableEq E] (lib : CtlLib E) (fuel : Nat) (cs : Controls CtlFn) (node : Node E) (undef : List (String × Node E)) :
    Run (Node E) :=
  match getControl cs node undef with
  | .error _ => .error .panic
  | .ok none => .ok node
  | .ok (some ctx) => (ctlFunction lib fuel ctx).map (ctlFlags node)

/-- dynaml/control/*.go `init` functions: the default registry -/
def defaultControls : Controls CtlFn :=
  let r := fun (cs : Controls CtlFn) (n : String) (f : CtlFn) (o : List String) => (registerControl cs n f o).1
  r (r (r (r (r {} "for" .cFor ["*do", "*mapkey"]) "if" .cIf ["then", "else"]) "merge" .cMerge []) "switch" .cSwitch ["default", "cases"])
    "type" .cType ["default"]

end Spiff
