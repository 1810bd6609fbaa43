import Verif.Model.Scope
import Verif.Model.ListFns
import Verif.Model.Mask
/-
Model of the evaluation of dynaml expressions without lambdas: the `Evaluate` methods of dynaml/*.go.

An expression is a node with an operator and a list of argument expressions. The meaning of
an expression is composed of the meanings of its arguments (`sem`), so evaluation terminates. Not modelled: lambda
expressions, calls of lambda values, mappings and sums (see Model/Lambda.lean, Model/Mapping.lean), tags (Model/Tags.lean),
templates and markers (Model/Flow.lean), `auto`, `sync` (Model/Sync.lean). Messages are abbreviated.
-/
namespace Spiff

/-- literals: dynaml/string.go, integer.go, float.go, boolean.go, nil.go -/
inductive Lit | nil | bool (b : Bool) | int (i : Int) | float (bits : Nat) | str (s : String)
deriving DecidableEq, Repr

/-- the operators evaluating both operands: addition.go, subtraction.go, multiplication.go, division.go,
modulo.go, concatenation.go, comparison.go -/
inductive BinOp | add | sub | mul | div | mod | concat | cmp (op : CmpOp)
deriving DecidableEq, Repr

/-- dynaml/merge.go:9-16 `MergeExpr` -/
structure MergeSpec where
  path : List String
  redirect : Bool := false
  replace : Bool := false
  required : Bool := false
  none : Bool := false
  keyName : String := ""
deriving DecidableEq, Repr

/-- The kinds of expressions. The comments name the arguments. -/
inductive Op where
  | lit (l : Lit)
  | undef
  | ref (path : List String)          -- `a.b`, an absolute path starts with ""
  | group                             -- ( e )
  | prefer                            -- prefer e
  | not                               -- !e
  | bin (op : BinOp)                  -- a op b
  | land                              -- a -and b
  | lor                               -- a -or b
  | or                                -- a || b
  | validOr                           -- a // b
  | cond                              -- c ? t : f
  | list                              -- [e, ...]
  | expand                            -- e... (as argument)
  | map                               -- {k = v, ...}: k, v, k, v, ...
  | scope                             -- ($k = v, ...) e: e, k, v, k, v, ...
  | merge (m : MergeSpec)
  | range                             -- [s..t]
  | slice (s t : Bool)                -- e.[s..t]: e, and the bounds given
  | qual (path : List String)         -- (e).path
  | dyn                               -- e.[i]
  | call (fn : String)                -- f(e, ...)
  | defined | valid | require | optional -- intrinsic functions
  | stub                              -- stub(e)
  | catchCall                         -- catch(e)
  | catch                             -- the expression created by catch(e)
  | proj                              -- e.[*]body: e, body
  | projValue                         -- the entry the body of a projection is applied to
deriving DecidableEq, Repr

/-- A dynaml expression. -/
inductive Ex where
  | node (op : Op) (args : List Ex)

namespace Ex
def op : Ex → Op | .node o _ => o
def args : Ex → List Ex | .node _ a => a

mutual
/-- equality of expressions (`reflect.DeepEqual`) -/
def beq : Ex → Ex → Bool
  | .node o l, .node o' l' => decide (o = o') && beqL l l'
termination_by structural e => e
def beqL : List Ex → List Ex → Bool
  | [], [] => true
  | a :: r, b :: r' => beq a b && beqL r r'
  | _, _ => false
termination_by structural e => e
end

mutual
theorem beq_iff : ∀ a b : Ex, beq a b = true ↔ a = b
  | .node o l, .node o' l' => by simp only [beq, Bool.and_eq_true, decide_eq_true_eq, beqL_iff l l', Ex.node.injEq]
theorem beqL_iff : ∀ a b : List Ex, beqL a b = true ↔ a = b
  | [], [] => by simp [beqL]
  | a :: r, b :: r' => by simp only [beqL, Bool.and_eq_true, beq_iff a b, beqL_iff r r', List.cons.injEq]
  | [], _ :: _ => by simp [beqL]
  | _ :: _, [] => by simp [beqL]
end

instance : DecidableEq Ex := fun a b => decidable_of_iff _ (beq_iff a b)

abbrev lit (l : Lit) : Ex := .node (.lit l) []
abbrev ref (path : List String) : Ex := .node (.ref path) []
abbrev or (a b : Ex) : Ex := .node .or [a, b]
abbrev validOr (a b : Ex) : Ex := .node .validOr [a, b]
abbrev cond (c t f : Ex) : Ex := .node .cond [c, t, f]
abbrev bin (o : BinOp) (a b : Ex) : Ex := .node (.bin o) [a, b]
abbrev list (l : List Ex) : Ex := .node .list l
abbrev expand (e : Ex) : Ex := .node .expand [e]
abbrev merge (m : MergeSpec) : Ex := .node (.merge m) []
abbrev call (f : String) (l : List Ex) : Ex := .node (.call f) l
end Ex

/-- Outcome of `Evaluate`: a value (possibly a remaining expression) with ok; not ok; a Go
run time panic. The value of a failing evaluation is never used. -/
inductive Ev where
  | val (v : Val Ex) (i : Info)
  | fail (i : Info)
  | crash

/-- dynaml/expression.go:44-74 the interface `Binding`, as far as it is used by expressions. `proj` is the
value of the `ProjectionValue` (dynaml/projection.go:81-83) of the projection whose body is evaluated: in Go the body holds a
pointer to it; the chain following `[*]` contains the value only at its head, and that of a nested projection is
another one, so the value of the innermost enclosing body is meant. -/
structure Bind where
  ref : List String → Look (Node Ex)
  root : List String → Look (Node Ex)
  stub : List String → Option (Node Ex)
  path : List String
  source : String
  proj : Val Ex := .nil

/-- The parameters: the control feature, address syntax and floats, the builtin functions (value and
info for arguments and source name; `none`: unknown function), parsing of a path. -/
structure EvLib where
  ctl : Bool
  lib : Lib
  fn : String → Option (List (Val Ex) → String → Out (Val Ex × Info))
  pathComponents : String → List String

/-- `info.Error(..)`, dynaml/expression.go:183-205 -/
def Info.error (i : Info) (msg : String) : Ev := .fail { i with localError := true, issue := msg }

/-- dynaml/node.go:16-31 `NewNode` -/
def dynSource (src : String) : String :=
  if src = "" then "dynaml" else if hasPrefix src "dynaml@" then src else "dynaml@" ++ src

/-- flow/environment.go:284-296 `WithLocalScope` seen from the interface: a field of the local scope is found
first (a node without resolver cannot be used for `_.x`). -/
def Bind.withLocal (X : EvLib) (b : Bind) (m : List (String × Node Ex)) : Bind :=
  { b with ref := fun p => match p with
      | [] => .panic
      | name :: rest =>
        match (if name = "__ctx" then none else mget m name) with
        | some n => if rest ≠ [] ∧ name = SELF then .panic else findR X.ctl true n rest
        | none => b.ref (name :: rest) }

/-! ### resolved values -/

/-- dynaml/unresolved_check.go:296-312 `isLocallyResolvedValue` -/
def localReady (ctl : Bool) : Val Ex → Bool
  | .expr _ => false
  | .map m => isMapResolved ctl m
  | .list l => isListResolved l
  | _ => true

/-- `yaml.EmbeddedDynaml(node, false)` of a string -/
def strDynaml (s : String) : Bool := (embeddedDynaml (fun x => x) false s.toList).isSome

mutual
/-- dynaml/unresolved_check.go:335-372 `isResolvedValue` -/
def completeV (ctl : Bool) : Val Ex → Bool
  | .expr _ => false
  | .list l => completeL ctl l
  | .map m => isMapResolved ctl m && completeM ctl m
  | .str s => !strDynaml s
  | .nil => true
  | .bool _ => true
  | .int _ => true
  | .float _ => true
  | .templ _ => true
  | .lambda _ => true
termination_by structural v => v
def completeN (ctl : Bool) : Node Ex → Bool
  | .mk v _ _ => completeV ctl v
termination_by structural v => v
def completeL (ctl : Bool) : List (Node Ex) → Bool
  | [] => true
  | n :: r => completeN ctl n && completeL ctl r
termination_by structural v => v
def completeM (ctl : Bool) : List (String × Node Ex) → Bool
  | [] => true
  | (_, n) :: r => completeN ctl n && completeM ctl r
termination_by structural v => v
end

/-! ### references -/

/-- dynaml/reference.go:107-146 `find`: the loop over the prefixes of the path; the result is the last node.
`e` is the expression returned if unresolved. -/
def findSteps (ctl : Bool) (e : Ex) (look : Nat → Look (Node Ex)) : Nat → Nat → Node Ex → Node Ex ⊕ Ev
  | _, 0, last => .inl last
  | i, n + 1, _ =>
    match look i with
    | .panic => .inr .crash
    | .missing => .inr (Info.error {} "not found")
    | .found step =>
      if localReady ctl step.val then findSteps ctl e look (i + 1) n step
      else .inr (.val (.expr e) { issue := "unresolved", failed := step.ann.failed || step.ann.error })

/-- dynaml/reference.go:137-145: the result for the node found -/
def refResult (ctl : Bool) (e : Ex) (locally : Bool) (step : Node Ex) : Ev :=
  if !locally && !completeV ctl step.val then
    .val (.expr e) { issue := "unresolved", failed := step.ann.failed || step.ann.error }
  else .val step.val { keyName := step.ann.keyName }

/-- dynaml/reference.go:107-146 `ReferenceExpr.find`; an empty path is a nil dereference -/
def refFind (ctl : Bool) (e : Ex) (len : Nat) (look : Nat → Look (Node Ex)) (locally : Bool) : Ev :=
  if len = 0 then .crash
  else match findSteps ctl e look 0 len (Node.new .nil "") with
    | .inr o => o
    | .inl step => refResult ctl e locally step

/-- dynaml/reference.go:27-42, 92: the lookup of the prefix `path[:i+1]` -/
def refLook (b : Bind) (path : List String) (i : Nat) : Look (Node Ex) :=
  if path.head? = some "" then b.root ((path.take (i + 1)).drop 1) else b.ref (path.take (i + 1))

/-! ### operands -/

/-- dynaml/expression.go:239-261 `ResolveExpressionOrPushEvaluation`: a value, a remaining expression, a failure -/
inductive Res where
  | done (v : Val Ex) (i : Info)
  | pend (e : Ex) (i : Info)
  | fail (i : Info)
  | crash

/-- dynaml/listexpansion.go:26-29 -/
def isExpand (e : Ex) : Bool := match e with | .node .expand _ => true | _ => false

/-- dynaml/listexpansion.go:31-41 `KeepArgWrapper` (without named arguments) -/
def keepWrapper (e orig : Ex) : Ex := if isExpand orig && !isExpand e then Ex.expand e else e

/-- joining with the info of the previous operand, if there is one -/
def joinInfo (info : Option Info) (i : Info) : Info := match info with | some j => j.join i | none => i

/-- dynaml/expression.go:239-261 -/
def resolve (orig : Ex) (info : Option Info) : Ev → Res
  | .crash => .crash
  | .fail i => .fail (joinInfo info i)
  | .val v i => match v with
    | .expr e => .pend (keepWrapper e orig) (joinInfo info i)
    | v => .done v (joinInfo info i)

/-- The result of an operation on operands with info `i`. -/
def outEv (i : Info) : Out (Val Ex) → Ev
  | .ok v => .val v i
  | .err => i.error "error"
  | .undet => .fail i
  | .panic => .crash

/-- the operation on two values with joined info `i`: the functions of Model/Ops.lean and Model/ListFns.lean.
A comparison joins its own info (which drops `replace`, comparison.go:77) and loses the info of the operands
in case of an error (comparison.go:48, 63). -/
def binVals (X : EvLib) (op : BinOp) (a b : Val Ex) (i : Info) : Ev :=
  match op with
  | .add => outEv i (addVals X.lib a b)
  | .sub => outEv i (subVals X.lib a b)
  | .mul => outEv i (mulVals X.lib a b)
  | .div => outEv i (divVals X.lib a b)
  | .mod => outEv i (modVals a b)
  | .concat => outEv i (concatVals (dynSource i.source) a b)
  | .cmp c => match compareVals c a b with
    | .ok v => .val v (i.join {})
    | .err => Info.error {} "error"
    | .undet => .fail (i.join {})
    | .panic => .crash

/-- an operand not allowed, detected before the other operand is known (modulo.go:15-23) -/
def badOperand (op : BinOp) (v : Val Ex) : Bool :=
  match op with
  | .mod => (intOperand v).isNone
  | _ => false

/-- The common part of the binary operators, e.g. dynaml/addition.go:14-28. -/
def binEv (X : EvLib) (op : BinOp) (ea eb : Ex) (a b : Ev) : Ev :=
  match resolve ea none a with
  | .crash => .crash
  | .fail i => .fail i
  | .done va i =>
    if badOperand op va then .fail { i with issue := "integer operand required" }
    else match resolve eb (some i) b with
      | .crash => .crash
      | .fail j => .fail j
      | .pend eb' j => .val (.expr (Ex.bin op ea eb')) j
      | .done vb j =>
        if badOperand op vb then .fail { j with issue := "integer operand required" } else binVals X op va vb j
  | .pend ea' i => match resolve eb (some i) b with
    | .crash => .crash
    | .fail j => .fail j
    | .pend eb' j => .val (.expr (Ex.bin op ea' eb')) j
    | .done vb j =>
      if badOperand op vb then .fail { j with issue := "integer operand required" }
      else .val (.expr (Ex.bin op ea' eb)) j

/-- dynaml/not.go:13-26 -/
def notEv (ea : Ex) (a : Ev) : Ev :=
  match resolve ea none a with
  | .crash => .crash
  | .fail i => .fail i
  | .pend e' i => .val (.expr (.node .not [e'])) i
  | .done v i => .val (.bool (!toBool v)) i

/-- dynaml/log_and.go:18-41, log_or.go:18-81: the second operand may fail, if the first one decides. With a failing first
operand the info is lost (log_or.go:80). -/
def logEv (e : Ex) (f : Val Ex → Option (Val Ex) → Out (Val Ex)) (a b : Ev) : Ev :=
  match a with
  | .crash => .crash
  | .fail _ => .fail {}
  | .val va i =>
    if va.isExpr then .val (.expr e) i
    else match b with
      | .crash => .crash
      | .fail j => outEv (i.join j) (f va none)
      | .val vb j => if vb.isExpr then .val (.expr e) (i.join j) else outEv (i.join j) (f va (some vb))

/-- dynaml/or.go:30-33: the alternative -/
def orAlt (i : Info) : Ev → Ev
  | .crash => .crash
  | .fail j => .fail { i.join j with undefined := j.undefined }
  | .val v j => .val v { i.join j with undefined := j.undefined }

/-- dynaml/or.go:17-34 `OrExpr.Evaluate` -/
def orEv (e : Ex) (a b : Ev) : Ev :=
  match a with
  | .crash => .crash
  | .val v i => if !i.undefined then (if v.isExpr then .val (.expr e) i else .val v i) else orAlt i.cleanError b
  | .fail i => orAlt i.cleanError b

/-- dynaml/validor.go:13-32 `ValidOrExpr.Evaluate`; `ea` is the first operand -/
def validOrEv (e ea : Ex) (a b : Ev) : Ev :=
  match a with
  | .crash => .crash
  | .val v i => match v with
    | .expr e' => if e' = ea then .fail i else .val (.expr e) i
    | .nil => orAlt i b
    | v => .val v i
  | .fail i => orAlt i b

/-- dynaml/cond.go:19-41 `CondExpr.Evaluate` -/
def condEv (ec et ef : Ex) (c t f : Ev) : Ev :=
  match resolve ec none c with
  | .crash => .crash
  | .fail i => .fail (({} : Info).join i)
  | .pend ec' i => .val (.expr (Ex.cond ec' et ef)) (({} : Info).join i)
  | .done v i => match (if toBool v then t else f) with
    | .crash => .crash
    | .fail j => .fail (j.join (({} : Info).join i))
    | .val r j => .val r (j.join (({} : Info).join i))

/-! ### argument lists -/

/-- result of dynaml/expression.go:280-318: values (nil for an unresolved argument), remaining arguments, all resolved? -/
inductive ResL where
  | ok (vals : List (Val Ex)) (pushed : List Ex) (resolved : Bool) (i : Info)
  | fail (i : Info)
  | crash

/-- one more argument in front -/
def ResL.cons (v : Val Ex) (e : Ex) (res : Bool) : ResL → ResL
  | .ok vs es r i => .ok (v :: vs) (e :: es) (res && r) i
  | r => r

/-- dynaml/expression.go:289-296: the loop; `info` is the info so far -/
def resolveArgs (info : Option Info) : List (Ex × Ev) → ResL
  | [] => .ok [] [] true (info.getD {})
  | (e, o) :: rest => match resolve e info o with
    | .crash => .crash
    | .fail i => .fail i
    | .done v i => (resolveArgs (some i) rest).cons v e true
    | .pend e' i => (resolveArgs (some i) rest).cons .nil e' false

/-- dynaml/expression.go:298-314: expansion of list arguments; `none`: an argument to be expanded
is no list (or not yet resolved, its value is nil then) -/
def expandArgs : List (Val Ex × Ex) → Option (List (Val Ex))
  | [] => some []
  | (v, e) :: r =>
    if isExpand e then match v with
      | .list l => (expandArgs r).map (l.map Node.val ++ ·)
      | _ => none
    else (expandArgs r).map (v :: ·)

/-- dynaml/expression.go:280-318 `ResolveExpressionListOrPushEvaluation` -/
def resolveList (args : List (Ex × Ev)) : ResL :=
  match resolveArgs none args with
  | .ok vs es res i => match expandArgs (vs.zip es) with
    | some vs' => .ok vs' es res i
    | none => .fail { i with localError := true, issue := "argument expansion required list argument" }
  | r => r

/-- dynaml/list.go:14-33 -/
def listEv (b : Bind) (args : List (Ex × Ev)) : Ev :=
  match resolveList args with
  | .crash => .crash
  | .fail i => .fail i
  | .ok vs es res i =>
    if res then .val (.list (vs.map (fun v => Node.new v (dynSource b.source)))) i else .val (.expr (Ex.list es)) i

/-- dynaml/call.go:113-145, 329-341: a builtin function -/
def callEv (X : EvLib) (b : Bind) (fn : String) (args : List (Ex × Ev)) : Ev :=
  match resolveList args with
  | .crash => .crash
  | .fail i => .fail i
  | .ok vs es res i =>
    if res then
      match X.fn fn with
      | none => i.error "unknown function"
      | some f =>
        if fn = "type" && i.undefined then .val (.str "undef") { i with undefined := false }
        else match f vs b.source with
          | .ok (v, sub) => if v.isExpr then .val (.expr (Ex.call fn es)) (sub.join i) else .val v (sub.join i)
          | .err => .fail (({ localError := true, issue := "error" } : Info).join i)
          | .undet => .fail (({} : Info).join i)
          | .panic => .crash
    else .val (.expr (Ex.call fn es)) i

/-! ### maps and scopes -/

/-- The result of evaluating the assignments. -/
inductive ResM where
  | done (m : List (String × Node Ex))
  | pend (i : Info)
  | fail (i : Info)
  | crash

/-- dynaml/map.go:12-37 the loop of `CreateMapExpr.Evaluate`; the info starts anew for every assignment (it is
shadowed) -/
def assignEv (b : Bind) : List (Ex × Ev) → List (String × Node Ex) → ResM
  | (ek, k) :: (ev, v) :: rest, acc =>
    match resolve ek (some {}) k with
    | .crash => .crash
    | .fail i => .fail i
    | .pend _ i => .pend i
    | .done key i => match key with
      | .str s => match resolve ev (some i) v with
        | .crash => .crash
        | .fail j => .fail j
        | .pend _ j => .pend j
        | .done val _ => assignEv b rest (mset acc s (Node.new val (dynSource b.source)))
      | _ => .fail { i with localError := true, issue := "assignment target must evaluate to string" }
  | _, acc => .done acc

/-- dynaml/map.go:12-37 -/
def mapEv (e : Ex) (b : Bind) (args : List (Ex × Ev)) : Ev :=
  match assignEv b args [] with
  | .crash => .crash
  | .fail i => .fail i
  | .pend i => .val (.expr e) i
  | .done m => .val (.map m) {}

/-- dynaml/scope.go:14-34; `body` is evaluated in the extended binding -/
def scopeEv (X : EvLib) (e : Ex) (b : Bind) (args : List (Ex × Ev)) (body : Bind → Ev) : Ev :=
  match assignEv b args [] with
  | .crash => .crash
  | .fail i => .fail i
  | .pend i => .val (.expr e) i
  | .done m => match body (b.withLocal X m) with
    | .val v i => if v.isExpr then .val (.expr e) i else .val v i
    | r => r

/-! ### merge -/

/-- dynaml/merge.go:22-49 `MergeExpr.Evaluate` -/
def mergeEv (b : Bind) (m : MergeSpec) : Ev :=
  let info : Info := { keyName := m.keyName, redirectPath := if m.redirect then some m.path else none }
  if m.none then .val .nil { info with merged := true }
  else match b.stub m.path with
    | some n => .val n.val { info with replace := m.replace, merged := true, source := n.src, flags := n.flags }
    | none => info.error "not found in any stub"

/-! ### ranges, slices, qualified expressions -/

/-- dynaml/expression.go:263-278 `ResolveIntegerExpressionOrPushEvaluation` -/
inductive ResI where
  | done (i : Int)
  | pend
  | fail (i : Info)
  | crash

def resolveInt (e : Ex) (o : Ev) : ResI :=
  match resolve e (some {}) o with
  | .crash => .crash
  | .fail i => .fail i
  | .pend _ _ => .pend
  | .done v i => match intOperand v with
    | some k => .done k
    | none => .fail { i with issue := "integer operand required" }

/-- both bounds: `.inl none`: not yet resolved -/
def boundsEv (s t : ResI) : Option (Int × Int) ⊕ Ev :=
  match s with
  | .crash => .inr .crash
  | .fail i => .inr (.fail i)
  | .pend => match t with
    | .crash => .inr .crash
    | .fail i => .inr (.fail i)
    | _ => .inl none
  | .done x => match t with
    | .crash => .inr .crash
    | .fail i => .inr (.fail i)
    | .pend => .inl none
    | .done y => .inl (some (x, y))

/-- dynaml/range.go:48-68 `RangeExpr.Evaluate`. The loop of the extreme ranges that do not terminate (C35) is a crash. -/
def rangeEv (e es et : Ex) (b : Bind) (s t : Ev) : Ev :=
  match boundsEv (resolveInt es s) (resolveInt et t) with
  | .inr o => o
  | .inl none => .val (.expr e) {}
  | .inl (some (x, y)) => match rangeVals ((y - x).natAbs + 2) x y with
    | some l => .val (.list (l.map (fun i => Node.new (.int i) (dynSource b.source)))) {}
    | none => .crash

/-- a bound of a slice, if given -/
def sliceBound (e : Ex) : Option Ev → ResI
  | none => .done 0
  | some o => resolveInt e o

/-- dynaml/slice.go:15-67 `SliceExpr.Evaluate`; the info of the bounds is dropped (line 34) -/
def sliceEv (X : EvLib) (e es et : Ex) (r : Ev) (s t : Option Ev) (locally : Bool) : Ev :=
  match r with
  | .crash => .crash
  | .fail i => .fail i
  | .val root i =>
    if !localReady X.ctl root then .val (.expr e) i
    else if !locally && !completeV X.ctl root then .val (.expr e) i
    else match root with
      | .list l =>
        if s.isNone && t.isNone then .fail i
        else match boundsEv (sliceBound es s) (sliceBound et t) with
          | .inr .crash => .crash
          | .inr _ => .fail i
          | .inl none => .val (.expr e) i
          | .inl (some (x, y)) => outEv i (sliceVals (.list l) (s.map (fun _ => x)) (t.map (fun _ => y)))
      | _ => i.error "slice requires array expression"

/-- dynaml/qualified_expression.go:15-38 `QualifiedExpr.Evaluate` -/
def qualEv (X : EvLib) (e : Ex) (path : List String) (r : Ev) (locally : Bool) : Ev :=
  match r with
  | .crash => .crash
  | .fail i => .fail i
  | .val root i =>
    if !localReady X.ctl root then
      match root with
      | .expr e' => .val (.expr (.node (.qual path) [e'])) i
      | _ => .val (.expr e) i
    else if !(locally || i.raw) && !completeV X.ctl root then .val (.expr e) i
    else refFind X.ctl (Ex.ref path) path.length
      (fun k => findR X.ctl false (Node.new root "dynaml") (path.take (k + 1))) (locally || i.raw)

/-- dynaml/dynamic_expression.go:54-86: the path given by the index value -/
def dynPath (root : Val Ex) (ix : Val Ex) : Option (List String) :=
  let ix := match ix with
    | .list [n] => n.val
    | v => v
  match ix with
  | .int k => match root with
    | .list _ => some ["[" ++ toString k ++ "]"]
    | _ => none
  | .str s => some [s]
  | .list l => if l.isEmpty then none
    else l.mapM (fun n => match n.val with
      | .int k => some ("[" ++ toString k ++ "]")
      | .str s => some s
      | _ => none)
  | _ => none

/-- dynaml/dynamic_expression.go:15-102 `DynamicExpr.Evaluate`; the info of the index is dropped (line 41) -/
def dynEv (X : EvLib) (e : Ex) (root : Ev) (idx : Bool → Ev) (locally : Bool) : Ev :=
  match root with
  | .crash => .crash
  | .fail i => .fail i
  | .val r i =>
    if !localReady X.ctl r then .val (.expr e) i
    else match idx (locally || i.raw) with
      | .crash => .crash
      | .fail _ => .fail i
      | .val ix _ =>
        if !completeV X.ctl ix then .val (.expr e) i
        else match dynPath r ix with
          | none => i.error "index or field name required for reference qualifier"
          | some p =>
            match refFind X.ctl (Ex.ref p) p.length (fun k => findR X.ctl false (Node.new r "dynaml") (p.take (k + 1))) true with
            | .crash => .crash
            | .fail j => .fail j
            | .val v j => if completeV X.ctl v then .val v j else .val (.expr e) j

/-! ### intrinsic functions -/

/-- dynaml/defined.go:27-52 `defined`: `resolved` so far -/
def definedEv (e : Ex) : Bool → List (Ex × Ev) → Ev
  | resolved, [] => if resolved then .val (.bool true) {} else .val (.expr e) {}
  | resolved, (a, o) :: r => match resolve a none o with
    | .crash => .crash
    | .fail _ => if resolved then .val (.bool false) {} else definedEv e resolved r
    | .pend _ _ => definedEv e false r
    | .done _ i => if resolved && i.undefined then .val (.bool false) {} else definedEv e resolved r

/-- dynaml/defined.go:3-25 `valid`: `ok` is the flag of the last argument -/
def validEv (e : Ex) : Bool → Bool → List (Ex × Ev) → Ev
  | resolved, valid, [] => if resolved then .val (.bool valid) {} else .val (.expr e) {}
  | resolved, valid, (a, o) :: r => match resolve a none o with
    | .crash => .crash
    | .fail _ => if resolved then .val (.bool false) {} else validEv e resolved false r
    | .pend _ _ => validEv e false false r
    | .done v _ => validEv e resolved (valid && !v.isNil) r

/-- dynaml/require.go:3-21 `require` -/
def requireEv (e ea : Ex) (a : Ev) : Ev :=
  match resolve ea none a with
  | .crash => .crash
  | .fail _ => Info.error {} "required expression undefined"
  | .pend _ _ => .val (.expr e) {}
  | .done v _ => if v.isNil then Info.error {} "required expression undefined" else .val v {}

/-- dynaml/defined.go:54-71 `optional` -/
def optionalEv (ec et : Ex) (c t : Ev) : Ev :=
  match resolve ec (some {}) c with
  | .crash => .crash
  | .fail _ => .val .nil { undefined := true }
  | .pend e' i => .val (.expr (.node .optional [e', et])) i
  | .done v i =>
    if i.undefined || !toBool v then .val .nil { undefined := true }
    else match t with
      | .crash => .crash
      | .fail j => .fail (j.join i)
      | .val r j => .val r (j.join i)

/-- dynaml/stub.go:49-54: the lookup -/
def stubFind (b : Bind) (i : Info) (path : List String) : Ev :=
  match b.stub path with
  | some n => .val n.val i
  | none => i.error "not found in any stub"

/-- the strings of a list -/
def strList (l : List (Node Ex)) : Option (List String) :=
  l.mapM (fun n => match n.val with | .str s => some s | _ => none)

/-- dynaml/stub.go:9-55 `stub`; `a`: the evaluated argument -/
def stubEv (X : EvLib) (e : Ex) (b : Bind) (args : List (Ex × Ev)) : Ev :=
  match args with
  | [] => stubFind b {} b.path
  | [(ea, a)] => match ea.op with
    | .ref p => stubFind b {} p
    | _ => match resolve ea none a with
      | .crash => .crash
      | .fail i => .fail i
      | .pend _ i => .val (.expr e) i
      | .done v i => match v with
        | .str s => stubFind b {} (X.pathComponents s)
        | .list l => match strList l with
          | some p => stubFind b {} p
          | none => i.error "stub() requires a string entries in list"
        | _ => if i.undefined then stubFind b {} b.path else i.error "stub() requires a string or reference argument"
  | _ => Info.error {} "a maximum of one argument expected for 'stub'"

/-- dynaml/catch.go:28-80 `CatchExpr.Evaluate` without lambda -/
def catchEv (e ea : Ex) (b : Bind) (a : Ev) : Ev :=
  let nd := fun (v : Val Ex) => Node.new v (dynSource b.source)
  match resolve ea none a with
  | .crash => .crash
  | .pend _ i => .val (.expr e) i
  | .fail i => .val (.map [("valid", nd (.bool false)), ("error", nd (.str i.issue))]) {}
  | .done v _ => .val (.map [("valid", nd (.bool true)), ("error", nd (.str "")), ("value", nd v)]) {}

/-! ### projections -/

/-- dynaml/projection.go:30-43, 49-63: the loop over the entries. The checks for unresolved results test the entry of the
new list that is not yet set (nil) and are never true; so a remaining expression becomes an entry. -/
def projAll (src : String) (body : Val Ex → Ev) (i : Info) : List (Val Ex) → List (Node Ex) → Ev
  | [], acc => .val (.list acc.reverse) i
  | v :: r, acc => match body v with
    | .crash => .crash
    | .fail _ => .fail i
    | .val w _ => projAll src body i r (Node.new w (dynSource src) :: acc)

/-- the values of a map in the order of its keys -/
def sortedVals (m : List (String × Node Ex)) : List (Val Ex) :=
  (sortedKeys m).map (fun k => match mget m k with | some n => n.val | none => .nil)

/-- dynaml/projection.go:15-67 `ProjectionExpr.Evaluate`: an operand that is not resolved is a failure (line 22). `plain`: nothing
follows the projection. -/
def projEv (ea : Ex) (plain : Bool) (src : String) (a : Ev) (body : Val Ex → Ev) : Ev :=
  match resolve ea none a with
  | .crash => .crash
  | .fail i => .fail i
  | .pend _ i => .fail i
  | .done v i => match v with
    | .list l => if plain then .val (.list l) i else projAll src body i (l.map Node.val) []
    | .map m => projAll src body i (sortedVals m) []
    | _ => i.error "only map or list allowed for projection"

/-- nothing follows the projection (dynaml/projection.go:26) -/
def isProjValue (e : Ex) : Bool := match e with | .node .projValue _ => true | _ => false

/-! ### evaluation -/

/-- the meaning of an expression: `Evaluate(binding, locally)` -/
abbrev Den := Bind → Bool → Ev

/-- an argument with its value -/
abbrev argEv (b : Bind) (loc : Bool) (args : List Ex) (ds : List Den) : List (Ex × Ev) :=
  args.zip (ds.map (fun d => d b loc))

def litVal : Lit → Val Ex
  | .nil => .nil
  | .bool b => .bool b
  | .int i => .int i
  | .float f => .float f
  | .str s => .str s

/-- The meaning of an expression with operator `op` and arguments `args` with the meanings `ds`. Wrong numbers of
arguments (excluded by the parser or reported) fail. -/
def sem (X : EvLib) (op : Op) (args : List Ex) (ds : List Den) : Den := fun b loc =>
  let e := Ex.node op args
  match op, args, ds with
  | .lit l, _, _ => .val (litVal l) {}
  | .undef, _, _ => .val .nil { undefined := true }
  | .ref path, _, _ => refFind X.ctl e path.length (refLook b path) loc
  | .group, _, [d] => d b loc
  | .expand, _, [d] => d b loc
  | .prefer, _, [d] => match d b loc with
    | .val v i => .val v { i with preferred := true }
    | .fail i => .fail { i with preferred := true }
    | .crash => .crash
  | .not, [a], [d] => notEv a (d b false)
  | .bin o, [a, c], [da, dc] => binEv X o a c (da b false) (dc b false)
  | .land, [_, _], [da, dc] => logEv e logAnd (da b false) (dc b false)
  | .lor, [_, _], [da, dc] => logEv e logOr (da b false) (dc b false)
  | .or, [_, _], [da, dc] => orEv e (da b false) (dc b false)
  | .validOr, [a, _], [da, dc] => validOrEv e a (da b false) (dc b false)
  | .cond, [c, t, f], [dc, dt, df] => condEv c t f (dc b false) (dt b false) (df b false)
  | .list, _, _ => listEv b (argEv b false args ds)
  | .map, _, _ => mapEv e b (argEv b loc args ds)
  | .scope, _ :: as, d :: ds => scopeEv X e b (argEv b loc as ds) (fun b' => d b' loc)
  | .merge m, _, _ => mergeEv b m
  | .range, [s, t], [d, d'] => rangeEv e s t b (d b false) (d' b false)
  | .slice true true, [_, s, t], [dr, d, d'] => sliceEv X e s t (dr b loc) (some (d b false)) (some (d' b false)) loc
  | .slice true false, [_, s], [dr, d] => sliceEv X e s s (dr b loc) (some (d b false)) none loc
  | .slice false true, [_, t], [dr, d] => sliceEv X e t t (dr b loc) none (some (d b false)) loc
  | .qual path, _, [d] => qualEv X e path (d b loc) loc
  | .dyn, [r, _], [d, d'] => dynEv X e (d b (loc || (match r.op with | .ref _ => true | _ => false))) (fun l => d' b l) loc
  | .call fn, _, _ => callEv X b fn (argEv b false args ds)
  | .defined, _, _ => definedEv e true (argEv b true args ds)
  | .valid, _, _ => validEv e true true (argEv b true args ds)
  | .require, [a], [d] => requireEv e a (d b true)
  | .optional, [c, t], [d, d'] => optionalEv c t (d b false) (d' b false)
  | .stub, _, _ => stubEv X e b (argEv b true args ds)
  | .catchCall, [a], _ => .val (.expr (.node .catch [a])) {}
  | .catch, [a], [d] => catchEv e a b (d b false)
  | .proj, [a, q], [d, dq] => projEv a (isProjValue q) b.source (d b false) (fun v => dq { b with proj := v } loc)
  | .projValue, _, _ => .val b.proj {}
  | _, _, _ => Info.error {} "wrong number of arguments"

mutual
/-- `Expression.Evaluate(binding, locally)` of all kinds of expressions. -/
def eval (X : EvLib) : Ex → Den
  | .node op args => sem X op args (evalL X args)
termination_by structural e => e
def evalL (X : EvLib) : List Ex → List Den
  | [] => []
  | e :: r => eval X e :: evalL X r
termination_by structural l => l
end

theorem evalL_eq (X : EvLib) (l : List Ex) : evalL X l = l.map (eval X) := by
  induction l with
  | nil => rfl
  | cons a r ih => simp [evalL, ih]

/-! ### connection to the flow -/

/-- the binding given by an environment (flow/environment.go) -/
def bindOf (R : RefLib Ex) (env : Env Ex) : Bind where
  ref := findReference R env
  root := findFromRoot R env
  stub := findInStubs R.ctl env.stubs
  path := env.path
  source := env.sourceName

/-- result of an evaluation for flow/flow.go; a crash is not distinguished from a failure there -/
def Ev.triple : Ev → Val Ex × Info × Bool
  | .val v i => (v, i, true)
  | .fail i => (.nil, i, false)
  | .crash => (.nil, {}, false)

/-- combination of the results of the arguments -/
def directMergeOp (op : Op) (args : List Bool) : Bool :=
  match op with
  | .merge m => !m.redirect
  | .or => args.any id
  | .bin .concat => args.any id
  | .group => args.any id
  | .catch => args.any id
  | .cond => (args.drop 1).any id
  | _ => false

mutual
/-- `IncludesDirectMerge` of or.go:13, cond.go:15, concatenation.go:16, grouped.go:11, merge.go:18, catch.go:20;
other expressions do not (expression.go:155-160) -/
def directMerge : Ex → Bool
  | .node op args => directMergeOp op (directMergeL args)
termination_by structural e => e
def directMergeL : List Ex → List Bool
  | [] => []
  | e :: r => directMerge e :: directMergeL r
termination_by structural l => l
end

/-- flow/flow.go:278-284: a `merge` that is not required -/
def optMerge : Ex → Bool
  | .node (.merge m) _ => !m.required
  | _ => false

/-- The expression language given to the flow. Parsing, printing and the features are those of `base`; there are no markers. -/
def exLang (X : EvLib) (R : RefLib Ex) (base : Lang Ex) : Lang Ex :=
  { base with
    eval := fun e env => (eval X e (bindOf R env) false).triple
    marker := fun _ => none
    simpleMerge := optMerge
    directMerge := directMerge }

end Spiff
