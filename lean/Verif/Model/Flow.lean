import Verif.Model.Cleanup
/-
Model of flow/flow.go (one processing pass) and of
flow/environment.go:321-354 (the fixpoint loop).

Generic in the expression language: `Lang` bundles what flow.go uses of a
`dynaml.Expression`. Not modelled here: tags (flow/flow.go:37-56 records tags in
the state; nodes keep their tag annotation, but nothing is recorded), controls
(the control feature is off, which is the default: features/features.go:59-67), the
proof-of-concept marker `&dynamic` (flow/flow.go:147-159, 850-868), nil nodes.
-/
namespace Spiff
variable {E : Type}

/-- flow/environment.go:15-22 `Scope` (the fields used for lookups). -/
structure Scope (E : Type) where
  list : Option (List (Node E)) := none
  locals : Option (List (String × Node E)) := none
  path : Option (List String) := none

/-- flow/environment.go:49-66 `DefaultEnvironment`. `outer` keeps the scope chains
of the outer environments, innermost first. -/
structure Env (E : Type) where
  scopes : List (Scope E) := []
  path : List String := []
  stubs : List (Node E) := []
  stubPath : List String := []
  nomerge : Bool := false
  sourceName : String := ""
  currentSourceName : String := ""
  outer : List (List (Scope E)) := []

namespace Env
/-- flow/environment.go:298-308 -/
def withPath (e : Env E) (step : String) : Env E :=
  { e with path := e.path ++ [step], stubPath := e.stubPath ++ [step] }
/-- flow/environment.go:264-268 -/
def withScope (e : Env E) (m : List (String × Node E)) : Env E :=
  { e with scopes := { locals := some m, path := some e.path } :: e.scopes }
/-- flow/environment.go:38-47, 270-274: a list scope shares the locals of the
outer scope. -/
def withListScope (e : Env E) (l : List (Node E)) : Env E :=
  { e with scopes :=
      { list := some l, path := some e.path, locals := (e.scopes.head?).bind (·.locals) } :: e.scopes }
/-- flow/environment.go:258-262 -/
def withSource (e : Env E) (s : String) : Env E := { e with sourceName := s }
/-- flow/environment.go:310-319 -/
def redirectOverwrite (e : Env E) (p : List String) : Env E :=
  if p ≠ [] then { e with stubPath := p, nomerge := false } else { e with nomerge := true }
end Env

/-- dynaml/expression.go:80-94 `EvaluationInfo` (without clean-up handlers; the
issue is its message). -/
structure Info where
  redirectPath : Option (List String) := none
  replace : Bool := false
  merged : Bool := false
  preferred : Bool := false
  keyName : String := ""
  source : String := ""
  localError : Bool := false
  failed : Bool := false
  undefined : Bool := false
  raw : Bool := false
  issue : String := ""
  flags : Flags := {}
deriving DecidableEq, Repr, Inhabited

/-- dynaml/marker.go:21-24 `MarkerExpr`: the flags set by the marker list
(`GetFlags`), whether `&template` is in it, the tag (`GetTag`), the marked
expression. -/
structure Marker (E : Type) where
  flags : Flags := {}
  template : Bool := false
  tag : String := ""
  expr : Option E := none

/-- The expression language as seen by flow.go. -/
structure Lang (E : Type) where
  /-- `dynaml.Parse(expr, path, stubPath)` (dynaml/parser.go); `none` = syntax error -/
  parse : String → List String → List String → Option E
  /-- `Expression.Evaluate(binding, false)`; clean-up handlers already run
  (flow/flow.go:136-141) -/
  eval : E → Env E → Val E × Info × Bool
  /-- type assertion to `dynaml.MarkerExpr` -/
  marker : E → Option (Marker E)
  /-- is `dynaml.MergeExpr` with `!Required` (flow/flow.go:278-284) -/
  simpleMerge : E → Bool
  /-- `dynaml.IncludesDirectMerge` (dynaml/expression.go:155-160) -/
  directMerge : E → Bool
  /-- `fmt.Sprintf("(( %s ))", e)` (dynaml/marker.go:133) -/
  print : E → String
  /-- `dynaml.RequireTemplate(key, env)` (dynaml/control.go:190-196) -/
  requireTemplate : String → Bool
  /-- `json.Marshal` of a string -/
  quote : List Char → List Char
  /-- the interpolation feature -/
  interpol : Bool

/-- Why a computation did not return: recursion fuel of the model exhausted, or a
Go run time panic. -/
inductive Stop | fuel | panic
deriving DecidableEq, Repr

abbrev Run (α : Type) := Except Stop α

section Flow
variable (L : Lang E)

/-- `yaml.EmbeddedDynaml(node, interpolation)` (yaml/node.go:522-540) -/
def embedded (L : Lang E) (n : Node E) : Option String :=
  match n.val with
  | .str s => (embeddedDynaml L.quote L.interpol s.toList).map String.ofList
  | _ => none

/-- flow/flow.go:575-589 `FlowString` (the error result is not used by flow.go). -/
def flowString (L : Lang E) (root : Node E) (env : Env E) : Node E :=
  match embedded L root with
  | none => root
  | some sub => match L.parse sub env.path env.stubPath with
    | none => root
    | some e => root.withVal (.expr e)

/-- flow/flow.go:27-33 `get_inherited_flags` -/
def inheritedFlags (env : Env E) : Flags × Option (Node E) :=
  match findInStubs false env.stubs env.stubPath with
  | some o => ({ temporary := o.flags.temporary, state := o.flags.state }, some o)
  | none => ({}, none)

/-- flow/flow.go:870-883 `asTemplate`. In the marker case the Go code calls
`m.Add(TEMPLATE)` on a value receiver and drops the result, so nothing is added. -/
def asTemplate (L : Lang E) (e : E) (enforce : Bool) : Option (Marker E) :=
  match L.marker e with
  | some m => some m
  | none => if enforce then some { template := true, expr := some e } else none

/-- dynaml/marker.go:116-136 `TemplateExpression` -/
def templateExpression (L : Lang E) (m : Marker E) (orig : Node E) : Option (Node E) :=
  m.expr.map (fun e => (orig.withVal (.str (L.print e))).addFlags m.flags)

/-- flow/flow.go:840-848 `updateNode`. Adding flags that are all present is the
identity. -/
def updateNode (n : Node E) (flags : Flags) (tag : String) : Node E :=
  let n := n.addFlags flags
  if tag ≠ "" ∧ tag ≠ n.ann.tag then n.setTag tag else n

/-- is the value a `dynaml.Expression` -/
def Val.isExpr : Val E → Bool | .expr _ => true | _ => false
def Val.isStr : Val E → Bool | .str _ => true | _ => false
def Val.isNil : Val E → Bool | .nil => true | _ => false

/-- flow/flow.go:278-284 `simpleMergeCompatibilityCheck` -/
def simpleMergeCheck (L : Lang E) (initial : Bool) (n : Node E) : Bool :=
  !initial && match n.val with | .expr e => L.simpleMerge e | _ => false

/-- recursive call of `flow`/`_flow`: environment, node, shouldOverride, enforceTemplate -/
abbrev FlowFn (E : Type) := Env E → Node E → Bool → Bool → Run (Node E)

/-- flow/flow.go:245-266: override by stub values. The arguments are the local
variables of `_flow`. -/
def override (env : Env E) (root : Node E) (shouldOverride merged replace : Bool)
    (redirect : Option (List String)) (keyName : String) (flags : Flags) : Node E :=
  if !merged && root.ann.standardOverride && shouldOverride && !env.nomerge then
    match findInStubs false env.stubs env.stubPath with
    | some o =>
      if !o.flags.isDefault && !root.flags.injected then
        let r := if keyName ≠ "" then o.keyNameNode keyName else o
        let r := if replace then Node.replaceNode r.val r redirect
          else if redirect.isSome then Node.redirectNode r.val r redirect
          else if merged then r.mergedNode else r
        r.addFlags flags.overridden
      else root
    | none => root
  else root

/-! #### flowMap -/

/-- The local variables of `flowMap` changed by the handling of the merge key
(flow/flow.go:318-401). `mergeval = none` is Go's nil. -/
structure MapVars (E : Type) where
  env : Env E
  flags : Flags
  tag : String
  processed : Bool := true
  merged : Bool := false
  template : Bool
  redirect : Option (List String)
  replace : Bool
  addEntries : Bool := true
  newMap : List (String × Node E) := []
  mergeval : Option (Node E) := none
  err : Option String := none

/-- flow/flow.go:318-401: merge handling for the merge value `val` whose flow
result is `base` (already known not to be undefined). -/
def mergeVars (L : Lang E) (root val base : Node E) (v : MapVars E) : MapVars E :=
  match base.val with
  | .expr e =>
    let mk := asTemplate L e v.template
    let v := match mk with
      | some m => { v with tag := if m.tag ≠ "" then m.tag else v.tag, flags := v.flags.add m.flags }
      | none => v
    match mk with
    | some m =>
      if m.template then { v with template := true, mergeval := templateExpression L m root }
      else if simpleMergeCheck L val.val.isStr base then { v with mergeval := none }
      else { v with processed := false, mergeval := some base }
    | none =>
      if simpleMergeCheck L val.val.isStr base then { v with mergeval := none }
      else { v with processed := false, mergeval := some base }
  | bv =>
    let v := match base.ann.redirectPath with
      | some r => { v with redirect := some r, env := v.env.redirectOverwrite r }
      | none => v
    let v := if base.ann.merged then { v with merged := true } else v
    let parseError := (embedded L base).isSome
    let v := { v with replace := base.ann.replace }
    match bv with
    | .map bm =>
      { v with newMap := bm, mergeval := none, addEntries := if v.replace then false else v.addEntries }
    | _ =>
      let v := if !bv.isNil && !parseError then
        { v with err := some "require map value for '<<' insert" } else v
      if bv.isNil || !parseError then
        { v with mergeval := none, addEntries := if v.replace then false else v.addEntries }
      else { v with mergeval := some base }

/-- the merge key of a map: flow/flow.go:307-316. `none`: both keys are used. -/
def mergeKey (m : List (String × Node E)) : Option (String × Option (Node E)) :=
  match mget m "<<" with
  | some v => if (mget m MERGEKEY).isSome then none else some ("<<", some v)
  | none => some (MERGEKEY, mget m MERGEKEY)

/-- flow/flow.go:410-416, 428-433: value to be stored for a map entry: `mergeval` for the merge
key, otherwise the processed value; `none`: no entry -/
def mapEntry (L : Lang E) (rec : FlowFn E) (v : MapVars E) (mergekey : String) (shouldOverride : Bool)
    (key : String) (val : Node E) : Run (Option (Node E)) :=
  if key = mergekey then .ok v.mergeval
  else if v.processed then
    (rec (v.env.withPath key) val shouldOverride (L.requireTemplate key)).map some
  else .ok (some val)

/-- flow/flow.go:428-436: defined values are stored, if necessary marked as implied. -/
def storeEntry (v : MapVars E) (key : String) (val : Option (Node E)) (acc : List (String × Node E)) :
    List (String × Node E) :=
  match val with
  | some n =>
    if n.ann.undefined then acc
    else mset acc key (if v.flags.propagateImplied then n.addFlags { implied := true } else n)
  | none => acc

/-- flow/flow.go:408-437: the loop over the entries. Go iterates in sorted key
order, which is irrelevant for the result, because the iterations are
independent (without tags). -/
def mapEntries (L : Lang E) (rec : FlowFn E) (v : MapVars E) (mergekey : String) (shouldOverride : Bool) :
    List (String × Node E) → List (String × Node E) → Run (List (String × Node E))
  | [], acc => .ok acc
  | (key, val) :: rest, acc =>
    (mapEntry L rec v mergekey shouldOverride key val).bind (fun n =>
      mapEntries L rec v mergekey shouldOverride rest (storeEntry v key n acc))

/-- flow/flow.go:443-453: injection of stub fields -/
def injectFields (stub : List (String × Node E)) (m : List (String × Node E)) : List (String × Node E) :=
  stub.foldl (fun acc e =>
    if e.2.flags.isInject && (mget acc e.1).isNone then
      mset acc e.1 (e.2.addFlags { inject := true, injected := true })
    else acc) m

/-- flow/flow.go:439-456: injection, unless the map is merged. -/
def injectStub (stub : Option (Node E)) (flags : Flags) (m : List (String × Node E)) : List (String × Node E) :=
  match stub with
  | some s => if !flags.injected then
      match s.val with
      | .map sm => injectFields sm m
      | _ => m
    else m
  | none => m

/-- flow/flow.go:306-406: the variables after the merge handling; `none`: the merge value is
undefined (line 323-325). -/
def mapVars (L : Lang E) (rec : FlowFn E) (root : Node E) (mergeval : Option (Node E)) (v0 : MapVars E) :
    Run (Option (MapVars E)) :=
  match mergeval with
  | none => .ok (some v0)
  | some val =>
    (rec v0.env val false false).map (fun base =>
      if base.ann.undefined then none
      else
        let v := mergeVars L root val base v0
        some (if v.template then { v with processed := false } else v))

/-- flow/flow.go:407-437 -/
def mapNew (L : Lang E) (rec : FlowFn E) (v : MapVars E) (mergekey : String) (shouldOverride : Bool)
    (rootMap : List (String × Node E)) : Run (List (String × Node E)) :=
  if v.addEntries then mapEntries L rec v mergekey shouldOverride rootMap v.newMap else .ok v.newMap

/-- flow/flow.go:439-478: the resulting node -/
def mapNode (root : Node E) (stub : Option (Node E)) (v : MapVars E) (newMap : List (String × Node E)) : Node E :=
  let flags := if v.merged then { v.flags with injected := true } else v.flags
  let newMap := if v.merged then newMap else injectStub stub v.flags newMap
  let result : Val E := if v.template then .templ (Node.new (.map newMap) root.src) else .map newMap
  let node := if v.replace then Node.replaceNode result root v.redirect
    else Node.redirectNode result root v.redirect
  let node := match v.err with
    | some e => node.issueNode true true e
    | none => if root.ann.failed then node.issueNode true true root.ann.issue else node
  updateNode node flags v.tag

/-- the initial variables of `flowMap`: flow/flow.go:287-305, 403-406 -/
def mapVars0 (root : Node E) (env : Env E) (iflags : Flags) (template : Bool) : MapVars E :=
  { env := env, flags := iflags, tag := root.ann.tag, template := template, processed := !template,
    redirect := root.ann.redirectPath, replace := root.ann.replace }

/-- flow/flow.go:286-479 `flowMap` for a root with map value `rootMap`. -/
def flowMap (L : Lang E) (rec : FlowFn E) (root : Node E) (rootMap : List (String × Node E)) (env : Env E)
    (shouldOverride template : Bool) : Run (Node E) :=
  match mergeKey rootMap with
  | none => .ok (root.issueNode true true "multiple merge keys not allowed")
  | some (mergekey, mergeval) =>
    (mapVars L rec root mergeval
      (mapVars0 root (env.withScope rootMap) (inheritedFlags env).1 template)).bind (fun v? =>
        match v? with
        | none => .ok root.undefinedNode
        | some v =>
          (mapNew L rec v mergekey shouldOverride rootMap).map (mapNode root (inheritedFlags env).2 v))

/-! #### flowList -/

/-- flow/flow.go:767 -/
def NO_LIST_KEY : String := "<<<NO LIST KEY>>"

/-- `key:<name>` map keys: flow/flow.go:776-794, 797-807. The name with a leading
`!` removed, and whether there was one. -/
def keyTag (k : String) : Option (String × Bool) :=
  match splitColon k.toList with
  | some (p, s) =>
    if p = "key".toList then
      match s with
      | '!' :: r => some (String.ofList r, true)
      | _ => some (String.ofList s, false)
    else none
  | none => none

/-- flow/flow.go:774-795: the list key determined by the `key:` tags of the map fields,
and the `!` indication. -/
def keyTagStep (st : Option (String × Bool)) (k : String) : Option (String × Bool) :=
  match keyTag k with
  | none => st
  | some (name, no) => match st with
    | none => some (name, no)
    | some (k, no') => if (if no then "!" ++ name else name) ≠ k then some (NO_LIST_KEY, no') else some (k, no')

/-- flow/flow.go:797-807: the key without its tag -/
def untag (k : String) : String :=
  match keyTag k with
  | some (name, _) => name
  | none => k

/-- flow/flow.go:769-816 `ProcessKeyTag`, for the iteration order given by the
association list. A second tagged key is compared including a leading `!` with the
first one (line 781). -/
def processKeyTag (val : Node E) : Node E × String :=
  match val.val with
  | .map m =>
    match (mkeys m).foldl keyTagStep none with
    | none => (val, "")
    | some (k, no) =>
      (val.withVal (.map (m.foldl (fun acc e => mset acc (untag e.1) e.2) [])), if no then NO_LIST_KEY else k)
  | _ => (val, "")

/-- flow/flow.go:818-838 `newEntries`: entries of `a` whose key field value is not
found in `b`. -/
def newEntries (a b : List (Node E)) (keyName : String) : List (Node E) :=
  let keyName := if keyName = "" then "name" else keyName
  let old := (Node.new (.list b) "some map").keyNameNode keyName
  (a.filter (fun val =>
    match findStr false true val [keyName] with
    | some name => (findRaw false old [name]).isNone
    | none => true)).map Node.mergedNode

/-- local variables of `processMerges` (flow/flow.go:631-640) -/
structure ListVars (E : Type) where
  flags : Flags
  tag : String
  spliced : List (Node E) := []
  process : Bool := true
  merged : Bool
  keyName : String
  replaced : Bool
  redirect : Option (List String)
  template : Bool

/-- line 728-732 -/
def spliceEntry (v : ListVars E) (val : Node E) : ListVars E :=
  let (val, newKey) := processKeyTag val
  { v with keyName := if newKey ≠ "" then newKey else v.keyName, spliced := v.spliced ++ [val] }

/-- flow/flow.go:680-708: the merge value of a list entry is (still) an expression -/
def listEntryExpr (L : Lang E) (orig inlineNode result : Node E) (qual : String) (e : E) (v : ListVars E) : ListVars E :=
  if simpleMergeCheck L inlineNode.val.isStr inlineNode then v
  else
    match asTemplate L e v.template with
    | some m =>
      let v := { v with flags := v.flags.add m.flags, tag := if m.tag ≠ "" then m.tag else v.tag, process := false }
      if m.template then
        let v := { v with template := true }
        match templateExpression L m orig with
        | none => v
        | some r => spliceEntry v (orig.withVal (.map [(qual, r)]))
      else spliceEntry v (orig.withVal (.map [(qual, result)]))
    | none => spliceEntry { v with process := false } (orig.withVal (.map [(qual, result)]))

/-- flow/flow.go:709-733: one list entry with a merge expression `inlineNode` whose
flow result is `result`. The Boolean tells that the loop is left (line 716-721). -/
def listEntry (L : Lang E) (orig : Node E) (root : List (Node E)) (val inlineNode result : Node E) (qual : String)
    (v : ListVars E) : ListVars E × Bool :=
  let v := if result.ann.keyName ≠ "" then { v with keyName := result.ann.keyName } else v
  match result.val with
  | .expr e => (listEntryExpr L orig inlineNode result qual e v, false)
  | .list inline =>
    let inlineNew := newEntries inline root v.keyName
    let v := { v with merged := true, replaced := result.ann.replace, redirect := result.ann.redirectPath }
    if v.replaced then ({ v with spliced := inlineNew, process := false }, true)
    else ({ v with spliced := v.spliced ++ inlineNew }, false)
  | rv =>
    if rv.isNil || (embedded L result).isNone then
      ({ v with redirect := result.ann.redirectPath, merged := v.merged || result.ann.merged }, false)
    else (spliceEntry v val, false)

/-- flow/flow.go:660-733: the loop over the entries. -/
def listEntries (L : Lang E) (rec : FlowFn E) (env : Env E) (orig : Node E) (root : List (Node E)) :
    List (Node E) → ListVars E → Run (ListVars E)
  | [], v => .ok v
  | val :: rest, v =>
    match listEntryMerge val with
    | none => listEntries L rec env orig root rest (spliceEntry v val)
    | some (inlineNode, qual) =>
      (rec env inlineNode false false).bind (fun result =>
        if (listEntry L orig root val inlineNode result qual v).2 then
          .ok (listEntry L orig root val inlineNode result qual v).1
        else listEntries L rec env orig root rest (listEntry L orig root val inlineNode result qual v).1)

/-- flow/flow.go:641-658: is a list entry a direct merge -/
def isDirectMerge (L : Lang E) (val : Node E) : Bool :=
  match listEntryMerge val with
  | some (.mk (.expr e) _ _, _) => L.directMerge e
  | _ => false

/-- flow/flow.go:631-640: initial variables -/
def listVars0 (orig : Node E) (iflags : Flags) (template : Bool) : ListVars E :=
  { flags := iflags, tag := orig.ann.tag, merged := orig.ann.merged, keyName := orig.ann.keyName,
    replaced := orig.ann.replace, redirect := orig.ann.redirectPath, template := template }

/-- flow/flow.go:734-739 -/
def setNoMerge (nomerge : Bool) (v : ListVars E) : ListVars E :=
  if nomerge then { v with flags := { v.flags with nomerge := true } } else v

/-- flow/flow.go:630-765 `processMerges`, without controls (line 740-756 is the
identity with the control feature off). The result list is in `spliced`. -/
def processMerges (L : Lang E) (rec : FlowFn E) (orig : Node E) (root : List (Node E)) (env : Env E)
    (template : Bool) : Run (ListVars E) :=
  (listEntries L rec env orig root root (listVars0 orig (inheritedFlags env).1 template)).map
    (setNoMerge (orig.flags.nomerge || root.any (isDirectMerge L)))

/-- line 609-619: the step for the (processed) key field `v` of an entry: step, keyed, resolved, unique -/
def stepOf (v : Node E) (keyName step : String) (unique : Bool) : String × Bool × Bool × Bool :=
  if v.val.isExpr then (step, false, false, false)
  else match v.val with
    | .str name => if unique then (keyName ++ ":" ++ name, true, true, true) else (step, false, true, false)
    | _ => (step, false, true, false)

/-- flow/flow.go:591-621 `stepName`: step, keyed, resolved, unique. -/
def stepName (rec : FlowFn E) (index : Nat) (value : Node E) (keyName : String) (env : Env E) (unique : Bool) :
    Run (String × Bool × Bool × Bool) :=
  let keyName := if keyName = "" then "name" else keyName
  let step := "[" ++ toString index ++ "]"
  match (if unique then findStr false false value [keyName] else none) with
  | some name => .ok (keyName ++ ":" ++ name, true, true, true)
  | none =>
    match findRaw false value [keyName] with
    | some v =>
      if v.val.isNil then .ok (step, false, true, false)
      else if v.val.isExpr then
        (rec (env.withPath step) v false false).map (fun v => stepOf v keyName step unique)
      else .ok (stepOf v keyName step unique)
    | none => .ok (step, false, true, false)

/-- flow/flow.go:502-515: are all entries identified by a unique key -/
def uniqueKeys (rec : FlowFn E) (keyName : String) (env : Env E) :
    Nat → List (Node E) → List String → Run Bool
  | _, [], _ => .ok true
  | idx, val :: rest, keys =>
    (stepName rec idx val keyName env true).bind (fun s =>
      if !s.2.2.1 || !s.2.2.2 || keys.contains s.1 then .ok false
      else uniqueKeys rec keyName env (idx + 1) rest (s.1 :: keys))

/-- flow/flow.go:519-526: one entry of the list; `s` is the result of `stepName` -/
def flowEntry (rec : FlowFn E) (env : Env E) (nomerge : Bool) (val : Node E) (s : String × Bool × Bool × Bool) :
    Run (Node E) :=
  let val := if !s.2.1 && nomerge then val.mergedNode else val
  if s.2.2.1 then rec (env.withPath s.1) val false false else .ok val

/-- flow/flow.go:517-530 -/
def flowEntries (rec : FlowFn E) (keyName : String) (env : Env E) (unique nomerge : Bool) :
    Nat → List (Node E) → Run (List (Node E))
  | _, [] => .ok []
  | idx, val :: rest =>
    (stepName rec idx val keyName env unique).bind (fun s =>
      (flowEntry rec env nomerge val s).bind (fun val =>
        (flowEntries rec keyName env unique nomerge (idx + 1) rest).map (fun r =>
          if !val.ann.undefined then val :: r else r)))

/-- flow/flow.go:532-548: injection of stub entries into an unmerged list -/
def injectList (stub : Option (Node E)) (rootFlags flags : Flags) (newList : List (Node E)) : Val E × Flags :=
  match stub with
  | some s =>
    if !rootFlags.injected then
      match s.val with
      | .list sl => (Val.list (sl.filter (fun x => x.flags.isInject) ++ newList), { flags with injected := true })
      | _ => (Val.list newList, { flags with injected := true })
    else (Val.list newList, flags)
  | none => (Val.list newList, flags)

/-- flow/flow.go:496-548: the processed entries, and the flags -/
def listNew (rec : FlowFn E) (root : Node E) (env : Env E) (stub : Option (Node E)) (v : ListVars E) :
    Run (Val E × Flags) :=
  if v.process then
    if v.template then .error .panic
    else
      let env := match v.redirect with
        | some r => env.redirectOverwrite r
        | none => env
      (if v.keyName ≠ NO_LIST_KEY then uniqueKeys rec v.keyName env 0 v.spliced [] else .ok false).bind (fun unique =>
        (flowEntries rec v.keyName env unique v.flags.nomerge 0 v.spliced).map (fun newList =>
          if v.merged then (Val.list newList, { v.flags with injected := true })
          else injectList stub root.flags v.flags newList))
  else .ok (if v.template then Val.templ (Node.new (.list v.spliced) root.src) else Val.list v.spliced, v.flags)

/-- flow/flow.go:550-572: the resulting node. The tag is only set if no flag is added (line 566-572). -/
def listNode (root : Node E) (v : ListVars E) (value : Val E) (flags : Flags) : Node E :=
  let root := if v.keyName ≠ "" then root.keyNameNode v.keyName else root
  let root := if v.replaced then Node.replaceNode value root v.redirect
    else match v.redirect with
      | some r => Node.redirectNode value root (some r)
      | none => root.withVal value
  if root.flags.add flags ≠ root.flags then root.addFlags flags
  else if v.tag ≠ "" ∧ v.tag ≠ root.ann.tag then root.setTag v.tag
  else root

/-- flow/flow.go:481-573 `flowList` for a root with list value `rootList`. Line 517
panics if the merged value is a template but is to be processed. -/
def flowList (L : Lang E) (rec : FlowFn E) (root : Node E) (rootList : List (Node E)) (env : Env E)
    (template : Bool) : Run (Node E) :=
  if root.ann.merged then .ok root
  else
    (processMerges L rec root rootList env template).bind (fun v =>
      (listNew rec root env (inheritedFlags env).2 v).map (fun x => listNode root v x.1 x.2))

/-! #### the pass -/

/-- flow/flow.go:115-119: the tag of a marker is taken over -/
def exprRoot (mk : Option (Marker E)) (root : Node E) : Node E :=
  match mk with
  | some m => if m.tag ≠ "" ∧ root.ann.tag = "" then root.setTag m.tag else root
  | none => root

/-- flow/flow.go:120-145: value, info, ok and the flags of a template marker -/
def exprEval (L : Lang E) (e : E) (mk : Option (Marker E)) (root : Node E) (env : Env E) :
    Val E × Info × Bool × Flags :=
  match mk with
  | some m =>
    if m.template then
      match templateExpression L m root with
      | none => (.nil, { issue := "empty template value", localError := true }, false, m.flags)
      | some tval => (.templ tval, {}, true, m.flags)
    else ((L.eval e env).1, (L.eval e env).2.1, (L.eval e env).2.2, {})
  | none => ((L.eval e env).1, (L.eval e env).2.1, (L.eval e env).2.2, {})

/-- flow/flow.go:169-180: the node for an evaluation result; a string is parsed -/
def exprValue (L : Lang E) (ev : Val E) (info : Info) (root : Node E) (env : Env E) : Node E :=
  let result := Node.new ev (if info.source ≠ "" then info.source else root.src)
  if ev.isStr then flowString L result env else result

/-- flow/flow.go:181-226: annotations of the result -/
def exprAnn (result : Node E) (info : Info) (root : Node E) (flags : Flags) (redirect : Option (List String)) : Node E :=
  let result := if info.issue ≠ "" then result.issueNode false info.failed info.issue else result
  let result := if info.undefined then result.undefinedNode else result
  let result := if root.ann.preferred || info.preferred then result.preferredNode else result
  let result := if info.keyName ≠ "" then result.keyNameNode info.keyName else result
  let result := if redirect.isSome then Node.redirectNode result.val result redirect else result
  let result := if info.replace then Node.replaceNode result.val result redirect
    else if root.ann.merged || info.merged then result.mergedNode else result
  updateNode result flags root.ann.tag

/-- Expression case of `_flow` (flow/flow.go:105-231). `.inl` = return of `_flow`,
`.inr` = continue with the override handling: root and `replace`, `flags`, `redirect`, `keyName`. -/
def flowExpr (L : Lang E) (root : Node E) (e : E) (env0 : Env E) (shouldOverride enforceTemplate : Bool)
    (redirect0 : Option (List String)) :
    Node E ⊕ (Node E × Bool × Flags × Option (List String) × String) :=
  let env := if root.src ≠ env0.sourceName then env0.withSource root.src else env0
  let mk := asTemplate L e enforceTemplate
  let root := exprRoot mk root
  let (ev, info, ok, mflags) := exprEval L e mk root env
  let flags := (root.flags.add mflags).add info.flags
  if !ok then
    -- line 162-167
    let root := root.issueNode true false info.issue
    if !shouldOverride then .inl root
    else .inr (root, info.replace, flags, redirect0, root.ann.keyName)
  else
    -- line 169-230
    let redirect := if info.redirectPath.isSome then info.redirectPath else redirect0
    let keyName := if info.keyName ≠ "" then info.keyName else root.ann.keyName
    let result0 := exprValue L ev info root env
    let result := exprAnn result0 info root flags redirect
    if result0.val.isExpr || result.ann.merged || !shouldOverride || result.ann.preferred then .inl result
    else .inr (result, result.ann.replace, flags, redirect, keyName)

/-- flow/flow.go:60-270 `_flow` with open recursion. -/
def flowStep (L : Lang E) (rec : FlowFn E) : FlowFn E :=
  fun env root shouldOverride enforceTemplate =>
    let env := match root.ann.redirectPath with
      | some r => env.redirectOverwrite r
      | none => env
    let ov := fun (r : Node E) (rep : Bool) (fl : Flags) (red : Option (List String)) (k : String) =>
      override env r shouldOverride root.ann.merged rep red k fl
    if !root.ann.replace then
      if !root.val.isExpr && root.ann.merged then .ok root
      else match root.val with
        | .map m => flowMap L rec root m env true enforceTemplate
        | .list l => flowList L rec root l env enforceTemplate
        | .expr e =>
          match flowExpr L root e env shouldOverride enforceTemplate root.ann.redirectPath with
          | .inl r => .ok r
          | .inr (r, rep, fl, red, k) => .ok (ov r rep fl red k)
        | .str _ =>
          let r := flowString L root env
          if r.val.isExpr then .ok r
          else .ok (ov root root.ann.replace root.flags root.ann.redirectPath root.ann.keyName)
        | _ => .ok (ov root root.ann.replace root.flags root.ann.redirectPath root.ann.keyName)
    else .ok (ov root root.ann.replace root.flags root.ann.redirectPath root.ann.keyName)

/-- `flow`/`_flow` (flow/flow.go:35-270) with the recursion bounded by fuel. -/
def flow (L : Lang E) : Nat → FlowFn E
  | 0 => fun _ _ _ _ => .error .fuel
  | n + 1 => flowStep L (flow L n)

/-! #### the fixpoint loop -/

mutual
/-- `reflect.DeepEqual` on nodes (maps independent of the order of the
association list). -/
def deepEq [DecidableEq E] : Node E → Node E → Bool
  | .mk v s a, .mk v' s' a' => decide (s = s') && decide (a = a') && deepEqV v v'
termination_by structural n => n
def deepEqV [DecidableEq E] : Val E → Val E → Bool
  | .nil, .nil => true
  | .bool a, .bool b => decide (a = b)
  | .int a, .int b => decide (a = b)
  | .float a, .float b => floatEq a b
  | .str a, .str b => decide (a = b)
  | .list a, .list b => deepEqL a b
  | .map a, .map b => decide (a.length = b.length) && deepEqM a b
  | .expr a, .expr b => decide (a = b)
  | .templ a, .templ b => deepEq a b
  | .lambda a, .lambda b => decide (a = b)
  | _, _ => false
termination_by structural n => n
def deepEqL [DecidableEq E] : List (Node E) → List (Node E) → Bool
  | [], [] => true
  | a :: r, b :: r' => deepEq a b && deepEqL r r'
  | _, _ => false
termination_by structural n => n
def deepEqM [DecidableEq E] : List (String × Node E) → List (String × Node E) → Bool
  | [], _ => true
  | (k, a) :: r, m => (match mget m k with | some b => deepEq a b | none => false) && deepEqM r m
termination_by structural n => n
end

/-- environment of one pass: flow/environment.go:326-329 -/
def passEnv (env : Env E) (source : Node E) : Env E :=
  match source.val with
  | .list l => env.withListScope l
  | _ => env

/-- one pass: flow/environment.go:330-337 (`Cleanup` with `updateBinding` does not
change the document). -/
def pass (L : Lang E) (fuel : Nat) (env : Env E) (source result : Node E) (shouldOverride : Bool) : Run (Node E) :=
  flow L fuel (passEnv env source) result shouldOverride false

/-- The loop of `DefaultEnvironment.Flow` (flow/environment.go:324-345): `fuel`
bounds the recursion depth of each pass, the first argument the number of passes. -/
def flowLoop [DecidableEq E] (L : Lang E) (fuel : Nat) (env : Env E) (source : Node E) (shouldOverride : Bool) :
    Nat → Node E → Run (Node E)
  | 0, _ => .error .fuel
  | n + 1, result => do
    let next ← pass L fuel env source result shouldOverride
    if next.ann.undefined then pure (Node.new Val.nil "__ctx").undefinedNode
    else if deepEq result next then pure result
    else flowLoop L fuel env source shouldOverride n next

end Flow
end Spiff
