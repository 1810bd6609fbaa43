import Verif.Model.Interp
/-
Model of flow/cascade.go: `Cleanup` and the clean-up functions, and the
cascade itself (`PrepareStubs`, `Apply`, `Cascade`).
-/
namespace Spiff
variable {E : Type}

/-- A clean-up function (flow/cascade.go:96 `CleanupFunction`): it looks at a
node and returns nil (discard) or a node, and the function to use below.
Functions that return each other are states `T`. All functions modelled this
way only look at and change the annotation of the node
(flow/cascade.go:55-94); `unescapeDynamlFunc` is modelled separately. -/
abbrev CleanFn (T : Type) := T → Ann → Option (Ann × T)

/-- the annotation of a node replaced -/
def Node.reann : Node E → Ann → Node E
  | .mk v s _, a => .mk v s a

mutual
/-- flow/cascade.go:98-123 `Cleanup`; the function is applied to the children
only, never to the root itself. -/
def cleanup {T : Type} (f : CleanFn T) (t : T) : Node E → Node E
  | .mk v s a => .mk (cleanupVal f t v) s a
termination_by structural n => n
/-- the type switch of flow/cascade.go:103-121 -/
def cleanupVal {T : Type} (f : CleanFn T) (t : T) : Val E → Val E
  | .list l => .list (cleanupList f t l)
  | .map m => .map (cleanupMap f t m)
  | v => v
termination_by structural v => v
/-- flow/cascade.go:104-111 -/
def cleanupList {T : Type} (f : CleanFn T) (t : T) : List (Node E) → List (Node E)
  | [] => []
  | e :: r =>
    match f t e.ann with
    | some (a, t') => (cleanup f t' e).reann a :: cleanupList f t r
    | none => cleanupList f t r
termination_by structural l => l
/-- flow/cascade.go:113-120 -/
def cleanupMap {T : Type} (f : CleanFn T) (t : T) : List (String × Node E) → List (String × Node E)
  | [] => []
  | (k, e) :: r =>
    match f t e.ann with
    | some (a, t') => (k, (cleanup f t' e).reann a) :: cleanupMap f t r
    | none => cleanupMap f t r
termination_by structural m => m
end

/-- flow/cascade.go:55-60 `discardTemporary` -/
def discardTemporary : CleanFn Unit := fun _ a =>
  if a.flags.temporary || a.flags.loc then none else some (a, ())

/-- flow/cascade.go:62-67 `discardTags` -/
def discardTags : CleanFn Unit := fun _ a =>
  if a.tag ≠ "" then some ({ a with tag := "" }, ()) else some (a, ())

/-- flow/cascade.go:78-83 `discardLocal` -/
def discardLocal : CleanFn Unit := fun _ a =>
  if a.flags.loc then none else some (a, ())

/-- flow/cascade.go:85-94 `keepAll` (state true) and `DiscardNonState` (state
false). -/
def discardNonState : CleanFn Bool := fun keepAll a =>
  if keepAll then some (a, true)
  else if a.flags.state then some (a, true)
  else none

/-- flow/cascade.go:125-127 `DetermineState` -/
def determineState (n : Node E) : Node E := cleanup discardNonState false n

/-- string conversion used by unescapeDynamlFunc -/
def unescapeS (q : List Char → List Char) (ip : Bool) (s : String) : String :=
  String.ofList (unescapeStr q ip s.toList)

mutual
/-- the type switch of `Cleanup`, flow/cascade.go:103-121, for unescaping -/
def unescapeVal (q : List Char → List Char) (ip : Bool) : Val E → Val E
  | .list l => .list (unescapeList q ip l)
  | .map m => .map (unescapeMap q ip m)
  | v => v
termination_by structural v => v
/-- `Cleanup(UnescapeDynaml(child), f)` for one child: yaml/node.go:542-582. A
changed node loses its annotations (`NewNode`). -/
def unescapeChild (q : List Char → List Char) (ip : Bool) : Node E → Node E
  | .mk (.str x) s a =>
    let y := unescapeS q ip x
    if y = x then .mk (.str x) s a else Node.new (.str y) s
  | .mk (.map m) s a =>
    let m' := unescapeMap q ip m
    if m.any (fun e => decide (unescapeKey e.1 ≠ e.1)) then
      Node.new (.map (m'.foldl (fun acc e => mset acc (unescapeKey e.1) e.2) [])) s
    else .mk (.map m') s a
  | .mk v s a => .mk (unescapeVal q ip v) s a
termination_by structural n => n
def unescapeList (q : List Char → List Char) (ip : Bool) : List (Node E) → List (Node E)
  | [] => []
  | e :: r => unescapeChild q ip e :: unescapeList q ip r
termination_by structural l => l
def unescapeMap (q : List Char → List Char) (ip : Bool) : List (String × Node E) → List (String × Node E)
  | [] => []
  | (k, e) :: r => (k, unescapeChild q ip e) :: unescapeMap q ip r
termination_by structural m => m
end

/-- `Cleanup(root, unescapeDynamlFunc(..))`, flow/cascade.go:69-76 and 98-123:
the root node itself is not unescaped. -/
def unescapeDoc (q : List Char → List Char) (ip : Bool) : Node E → Node E
  | .mk v s a => .mk (unescapeVal q ip v) s a

/-! ### the cascade -/

/-- flow/cascade.go:9-16 `Options` -/
structure Options where
  preserveEscapes : Bool := false
  preserveTemporary : Bool := false
  isPartial : Bool := false

/-- Result of `NestedFlow` on one document (flow/flow.go:21-25): the flowed
document and whether it ended with an error. -/
abbrev NestedFlow (E : Type) := Node E → List (Node E) → Node E × Option String

/-- flow/cascade.go:18-30 `PrepareStubs`: the loop runs from the last to the
first index; `stubs[i+1:]` are the already processed ones. `none` = error
returned (together with the error). The effects of `ResetStream` on the tag
state are not part of this function (see Model/State.lean). -/
def prepareStubs (fl : NestedFlow E) (isPartial : Bool) : List (Node E) → Except String (List (Node E))
  | [] => .ok []
  | s :: rest =>
    match prepareStubs fl isPartial rest with
    | .error e => .error e
    | .ok done =>
      match fl s done with
      | (r, none) => .ok (cleanup discardLocal () r :: done)
      | (r, some e) => if isPartial then .ok (cleanup discardLocal () r :: done) else .error e

/-- flow/cascade.go:32-44 `Apply` -/
def applyTemplate (q : List Char → List Char) (ip : Bool) (fl : NestedFlow E) (template : Node E)
    (prepared : List (Node E)) (opts : Options) : Node E × Option String :=
  match fl template prepared with
  | (r, some e) => (r, some e)
  | (r, none) =>
    let r := if opts.preserveTemporary then r else cleanup discardTemporary () r
    let r := if opts.preserveEscapes then r else unescapeDoc q ip r
    (r, none)

/-- flow/cascade.go:46-53 `Cascade`: `.error` is the nil result with an error. -/
def cascade (q : List Char → List Char) (ip : Bool) (fl : NestedFlow E) (template : Node E)
    (opts : Options) (stubs : List (Node E)) : Except String (Node E × Option String) :=
  match prepareStubs fl opts.isPartial stubs with
  | .error e => .error e
  | .ok prepared => .ok (applyTemplate q ip fl template prepared opts)

end Spiff
