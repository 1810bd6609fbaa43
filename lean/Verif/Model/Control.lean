import Verif.Model.Context
import Verif.Model.Equiv
import Verif.Model.Validate
/-
Model of dynaml/control.go:185-293 (recognition of control maps), flow/flow_control.go and
dynaml/control/*.go (the controls if, switch, type, merge and for).

The control feature is on. Evaluation of lambdas and templates is a parameter (`CtlLib`).
Messages of issues are abbreviated.
-/
namespace Spiff
variable {E F : Type}

/-! ### resolved values -/

/-- dynaml/unresolved_check.go:366-370: a string which still contains an expression
(interpolation is not considered, so the quoting function is not used) -/
def strEmbedded (s : String) : Bool := (embeddedDynaml (fun x => x) false s.toList).isSome

mutual
/-- dynaml/unresolved_check.go:328-333 `_isResolved` (nodes are not nil); with the control
feature -/
def resolvedN (accept : Bool) : Node E → Bool
  | .mk v _ a => (accept && (a.failed || a.error)) || resolvedV accept v
termination_by structural n => n
/-- dynaml/unresolved_check.go:339-375 `_isResolvedValue` -/
def resolvedV (accept : Bool) : Val E → Bool
  | .expr _ => false
  | .list l => resolvedL accept l
  | .map m => isMapResolved true m && resolvedM accept m
  | .str s => !strEmbedded s
  | .nil => true
  | .bool _ => true
  | .int _ => true
  | .float _ => true
  | .templ _ => true
  | .lambda _ => true
termination_by structural n => n
def resolvedL (accept : Bool) : List (Node E) → Bool
  | [] => true
  | n :: r => resolvedN accept n && resolvedL accept r
termination_by structural n => n
def resolvedM (accept : Bool) : List (String × Node E) → Bool
  | [] => true
  | (_, n) :: r => resolvedN accept n && resolvedM accept r
termination_by structural n => n
end

/-- dynaml/unresolved_check.go:314-322 `IsResolvedNode` -/
def isResolvedNode (n : Node E) : Bool :=
  if n.ann.failed || n.ann.undefined then false else resolvedV false n.val

/-! ### recognition -/

/-- dynaml/control.go:9-16 `ControlContext` -/
structure CtlCtx (F E : Type) where
  control : Control F
  value : Node E
  node : Node E
  fields : List (String × Node E)
  options : List (String × Node E)

/-- The variables of `GetControl`, dynaml/control.go:202-206 -/
structure CtlScan (F E : Type) where
  control : Option (Control F × Node E) := none
  opts : List (String × Node E) := []
  fields : List (String × Node E) := []

/-- dynaml/control.go:209-211: the name in a control key: the key starts with `<<`, but is neither
a merge key nor an escaped key -/
def controlName (k : String) : Option String :=
  match k.toList with
  | '<' :: '<' :: r => if r ≠ [] ∧ r ≠ ['<'] ∧ r.head? ≠ some '!' then some (String.ofList r) else none
  | _ => none

/-- dynaml/control.go:208-232: one entry of the map -/
def scanEntry (cs : Controls F) (s : CtlScan F E) (k : String) (v : Node E) : Except String (CtlScan F E) :=
  if hasPrefix k "<<" then
    match controlName k with
    | none => .ok s
    | some n =>
      match cs.lookup n with
      | none => .error "unknown control or control option"
      | some (some c) =>
        if s.control.isSome then .error "multiple controls"
        else .ok { s with control := some (c, v) }
      | some none => .ok { s with opts := mset s.opts n v }
  else .ok { s with fields := mset s.fields k v }

/-- dynaml/control.go:234-243: the loop (in the order of the association list) -/
def scanEntries (cs : Controls F) : CtlScan F E → List (String × Node E) → Except String (CtlScan F E)
  | s, [] => .ok s
  | s, (k, v) :: r =>
    match scanEntry cs s k v with
    | .ok s' => scanEntries cs s' r
    | .error m => .error m

/-- dynaml/control.go:245-263: the result; the control gets the map with the undefined entries -/
def scanResult (node : Node E) (m undef : List (String × Node E)) (s : CtlScan F E) : Except String (Option (CtlCtx F E)) :=
  match s.control with
  | some (c, v) =>
    if s.opts.all (fun o => (mget c.options o.1).isSome) then
      .ok (some ⟨c, v, node.withVal (.map (undef.foldl (fun acc e => mset acc e.1 e.2) m)), s.fields, s.opts⟩)
    else .error "invalid option"
  | none => if s.opts.isEmpty then .ok none else .error "control options without control"

/-- dynaml/control.go:198-267 `GetControl` (and 269-276 `CheckOpts`); the control feature is on. `undef` are the undefined entries that
are not in the map. -/
def getControl (cs : Controls F) (node : Node E) (undef : List (String × Node E)) : Except String (Option (CtlCtx F E)) :=
  match node.val with
  | .map m =>
    match scanEntries cs {} (m ++ undef) with
    | .ok s => scanResult node m undef s
    | .error e => .error e
  | _ => .ok none

/-! ### common functions of the controls -/

/-- What a control function returns: a node and whether the control is done. -/
abbrev CtlOut (E : Type) := Node E × Bool

/-- dynaml/control.go:163-183 `ControlIssue` -/
def controlIssue (ctx : CtlCtx F E) (msg : String) : CtlOut E :=
  ((Node.new (.str ("<" ++ ctx.control.name ++ " control>")) ctx.node.src).issueNode true true msg, false)

/-- dynaml/control.go:178-180: an issue which is not final -/
def controlIssueOpen (ctx : CtlCtx F E) (msg : String) : CtlOut E := (ctx.node.issueNode true true msg, false)

/-- dynaml/control.go:278-283 `ControlValue` -/
def controlValue (v : Node E) : CtlOut E := (v, v.ann.undefined || isResolvedNode v)

/-- An undefined node: `yaml.UndefinedNode(dynaml.NewNode(nil, ctx))` -/
def undefNode (ctx : CtlCtx F E) : Node E := (Node.new .nil ctx.node.src).undefinedNode

/-- dynaml/control.go:289-292: everything is resolved -/
def controlDone (ctx : CtlCtx F E) : Bool :=
  (ctx.value.ann.undefined || isResolvedNode ctx.value) &&
  (resolvedV true (.map ctx.options) && resolvedV true (.map ctx.fields))

/-- dynaml/control.go:285-293 `ControlReady`: `none` = ready, otherwise the result of the control -/
def controlReady (ctx : CtlCtx F E) (acceptFields : Bool) : Option (CtlOut E) :=
  if !acceptFields && !ctx.fields.isEmpty then some (controlIssue ctx "no regular fields allowed")
  else if controlDone ctx then none
  else some (ctx.node, false)

/-- an optional branch: `ControlValue` of it or the undefined node -/
def branch (ctx : CtlCtx F E) (b : Option (Node E)) : CtlOut E :=
  match b with
  | some e => controlValue e
  | none => (undefNode ctx, true)

/-! ### if -/

/-- dynaml/control/if.go:16-37 -/
def ifBranch (ctx : CtlCtx F E) : CtlOut E :=
  match ctx.value.val with
  | .nil => branch ctx (mget ctx.options "else")
  | .bool true => branch ctx (mget ctx.options "then")
  | .bool false => branch ctx (mget ctx.options "else")
  | _ => controlIssue ctx "invalid condition value type"

/-- dynaml/control/if.go:12-38 `flowIf` -/
def flowIf (ctx : CtlCtx F E) : CtlOut E :=
  match controlReady ctx false with
  | some r => r
  | none => ifBranch ctx

/-! ### switch and type -/

/-- Outcome of the call of a lambda. -/
inductive CallOut (E : Type) where
  | fail
  | unresolved
  | value (v : Val E)

/-- Parameters: calling the lambda (dynaml/lambda.go:234) with one argument, and evaluating a template with local
bindings (dynaml/substitution.go): value, info and status. -/
structure CtlLib (E : Type) where
  call : String → Val E → CallOut E
  subst : Node E → List (String × Node E) → Val E × Info × Bool

/-- the state of one case: dynaml/control/switch.go:26-28 -/
structure CaseSt (E : Type) where
  value : Option (Node E) := none
  reject : Bool := false
  found : Bool := false

/-- dynaml/control/switch.go:34-50: the match field -/
def matchField (lib : CtlLib E) (ctx : CtlCtx F E) (s : CaseSt E) (v : Node E) : CaseSt E ⊕ CtlOut E :=
  match v.val with
  | .lambda f =>
    match lib.call f ctx.value.val with
    | .fail => .inl { s with found := true, reject := true }
    | .unresolved => .inr (ctx.node, false)
    | .value (.bool b) => .inl { s with found := true, reject := s.reject || !b }
    | .value _ => .inr (controlIssue ctx "boolean match result required")
  | _ => .inl { s with found := true }

/-- dynaml/control/switch.go:30-56: one field of a case -/
def caseField [DecidableEq E] (lib : CtlLib E) (ctx : CtlCtx F E) (s : CaseSt E) (k : String) (v : Node E) : CaseSt E ⊕ CtlOut E :=
  if k = "case" then .inl { s with found := true, reject := s.reject || !equivN v ctx.value }
  else if k = "match" then matchField lib ctx s v
  else if k = "value" then .inl { s with value := some v }
  else .inr (controlIssue ctx "invalid field")

/-- dynaml/control/switch.go:29-57: the fields of a case (in the order of the association list); `.inr`: the control returns -/
def caseFields [DecidableEq E] (lib : CtlLib E) (ctx : CtlCtx F E) : CaseSt E → List (String × Node E) → CaseSt E ⊕ CtlOut E
  | s, [] => .inl s
  | s, (k, v) :: r =>
    match caseField lib ctx s k v with
    | .inl s' => caseFields lib ctx s' r
    | .inr o => .inr o

/-- dynaml/control/switch.go:58-67: decision for a case; `none` = try the next one -/
def caseDone (ctx : CtlCtx F E) (s : CaseSt E) : Option (CtlOut E) :=
  if !s.found then some (controlIssue ctx "requires case or match field")
  else if !s.reject then some (branch ctx s.value)
  else none

/-- dynaml/control/switch.go:25-70: one case -/
def switchCase [DecidableEq E] (lib : CtlLib E) (ctx : CtlCtx F E) (c : Node E) : Option (CtlOut E) :=
  match c.val with
  | .map m =>
    match caseFields lib ctx {} m with
    | .inl s => caseDone ctx s
    | .inr o => some o
  | _ => some (controlIssue ctx "requires field 'case'")

/-- dynaml/control/switch.go:24-76: the cases in order, then the default -/
def switchCases [DecidableEq E] (lib : CtlLib E) (ctx : CtlCtx F E) : List (Node E) → CtlOut E
  | [] =>
    match mget ctx.options "default" with
    | some d => controlValue d
    | none => controlIssue ctx "invalid switch value"
  | c :: r =>
    match switchCase lib ctx c with
    | some o => o
    | none => switchCases lib ctx r

/-- dynaml/control/switch.go:92-99: the selected value, if any -/
def selectResult (ctx : CtlCtx F E) (r : Option (Node E)) : CtlOut E :=
  match (match r with | some n => some n | none => mget ctx.options "default") with
  | some n => controlValue n
  | none => controlIssue ctx "invalid switch value"

/-- dynaml/control/switch.go:84-100 `selected` -/
def selected (ctx : CtlCtx F E) (key : Val E) : CtlOut E :=
  match key with
  | .nil => selectResult ctx none
  | .str s => selectResult ctx (mget ctx.fields s)
  | _ => controlIssue ctx "invalid switch value type"

/-- dynaml/control/switch.go:21-82 -/
def switchBody [DecidableEq E] (lib : CtlLib E) (ctx : CtlCtx F E) : CtlOut E :=
  match mget ctx.options "cases" with
  | none => selected ctx ctx.value.val
  | some cases =>
    match cases.val with
    | .list l => switchCases lib ctx l
    | _ => controlIssue ctx "cases must be a list"

/-- dynaml/control/switch.go:12-82 `flowSwitch` -/
def flowSwitch [DecidableEq E] (lib : CtlLib E) (ctx : CtlCtx F E) : CtlOut E :=
  if ctx.value.ann.undefined then (undefNode ctx, true)
  else match controlReady ctx (mget ctx.options "cases").isNone with
    | some r => r
    | none => switchBody lib ctx

/-- dynaml/type.go:22-29 -/
def nodeType (n : Node E) : String := if n.ann.undefined then "undef" else exprType n.val

/-- dynaml/control/typeswitch.go:12-17 `flowType` -/
def flowType (ctx : CtlCtx F E) : CtlOut E :=
  match controlReady ctx true with
  | some r => r
  | none => selected ctx (.str (nodeType ctx.value))

/-! ### merge -/

/-- `for k, e := range v { fields[k] = e }` -/
def overlayMap (fields v : List (String × Node E)) : List (String × Node E) :=
  v.foldl (fun acc e => mset acc e.1 e.2) fields

/-- dynaml/control/merge.go:23-33: the maps of a list -/
def mergeMaps (fields : List (String × Node E)) : List (Node E) → Option (List (String × Node E))
  | [] => some fields
  | n :: r =>
    match n.val with
    | .nil => mergeMaps fields r
    | .map m => mergeMaps (overlayMap fields m) r
    | _ => none

/-- dynaml/control.go:33-41 `DefinedFields` -/
def definedFields (ctx : CtlCtx F E) : List (String × Node E) := ctx.fields.filter (fun e => !e.2.ann.undefined)

/-- dynaml/control/merge.go:16-42 -/
def mergeBody (ctx : CtlCtx F E) : CtlOut E :=
  match ctx.value.val with
  | .nil => (Node.new (.map (definedFields ctx)) ctx.node.src, true)
  | .map m => (Node.new (.map (overlayMap (definedFields ctx) m)) ctx.node.src, true)
  | .list l =>
    match mergeMaps (definedFields ctx) l with
    | some m => (Node.new (.map m) ctx.node.src, true)
    | none => controlIssue ctx "invalid entry type"
  | _ => controlIssue ctx "invalid value type"

/-- dynaml/control/merge.go:12-43 `flowMerge` -/
def flowMerge (ctx : CtlCtx F E) : CtlOut E :=
  match controlReady ctx true with
  | some r => r
  | none => mergeBody ctx

end Spiff
