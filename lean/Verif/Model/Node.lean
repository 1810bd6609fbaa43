/-
Model of yaml/node.go: node flags, annotations, values and nodes.

The node type is generic in the type `E` of dynaml expressions, because all of
yaml/ and flow/ handle expressions only through the `dynaml.Expression`
interface (dynaml/expression.go:147-149).
-/
namespace Spiff

/-- yaml/node.go:70-84 `NodeFlags` (a bit mask; every bit is one field here).
`Props/Flags.lean` relates this record to the bit mask representation. -/
structure Flags where
  temporary : Bool := false   -- 0x001
  loc       : Bool := false   -- 0x002 FLAG_LOCAL
  inject    : Bool := false   -- 0x004
  state     : Bool := false   -- 0x008
  default   : Bool := false   -- 0x010
  dynamic   : Bool := false   -- 0x020
  injected  : Bool := false   -- 0x040
  implied   : Bool := false   -- 0x080
  nomerge   : Bool := false   -- 0x100
deriving DecidableEq, Repr, Inhabited

namespace Flags

/-- yaml/node.go:86-89 `AddFlags` (bitwise or). -/
def add (f g : Flags) : Flags where
  temporary := f.temporary || g.temporary
  loc       := f.loc || g.loc
  inject    := f.inject || g.inject
  state     := f.state || g.state
  default   := f.default || g.default
  dynamic   := f.dynamic || g.dynamic
  injected  := f.injected || g.injected
  implied   := f.implied || g.implied
  nomerge   := f.nomerge || g.nomerge

/-- yaml/node.go:107-109 `Inject()`: INJECT or DEFAULT bit set. -/
def isInject (f : Flags) : Bool := f.inject || f.default

/-- yaml/node.go:115-117 `Default()`: DEFAULT bit set and INJECT bit not set. -/
def isDefault (f : Flags) : Bool := f.default && !f.inject

/-- yaml/node.go:123-125 `Implied()`: IMPLIED bit set and DEFAULT bit not set. -/
def isImplied (f : Flags) : Bool := f.implied && !f.default

/-- yaml/node.go:130-132 `PropagateImplied()`. -/
def propagateImplied (f : Flags) : Bool := f.implied || f.default

/-- yaml/node.go:134-139 `Overridden()`. -/
def overridden (f : Flags) : Flags :=
  if f.isDefault then { f with inject := true, default := false } else f

end Flags

/-- yaml/node.go:173-185 `Annotation`. `redirectPath = none` is Go's nil slice.
Simplification: `issue` keeps only the message text of the Go `Issue` structure
(yaml/node.go:55-60; nested issues and original path are for printing only). -/
structure Ann where
  redirectPath : Option (List String) := none
  replace   : Bool := false
  preferred : Bool := false
  merged    : Bool := false
  keyName   : String := ""
  error     : Bool := false
  failed    : Bool := false
  undefined : Bool := false
  issue     : String := ""
  tag       : String := ""
  flags     : Flags := {}
deriving DecidableEq, Repr, Inhabited

namespace Ann

/-- yaml/node.go:319-321 `StandardOverride`. (`len(nil) = 0`.) -/
def standardOverride (a : Ann) : Bool :=
  !a.merged && !a.replace && (a.redirectPath.getD []).isEmpty

/-- yaml/node.go:417-422 `AddKeyName`. -/
def addKeyName (a : Ann) (k : String) : Ann :=
  if k ≠ "" then { a with keyName := k } else a

/-- yaml/node.go:424-431 `AddIssue`. -/
def addIssue (a : Ann) (error failed : Bool) (issue : String) : Ann :=
  { a with issue := if issue ≠ "" then issue else a.issue, error := error, failed := failed }

/-- yaml/node.go:295-297 `NewReferencedAnnotation`. -/
def referenced (a : Ann) : Ann :=
  { keyName := a.keyName, error := a.error, failed := a.failed,
    undefined := a.undefined, issue := a.issue }

end Ann

/-- IEEE 754 double, given by its bit pattern: not a number -/
def isNaN (bits : Nat) : Bool := bits / 2^52 % 2^11 == 2047 && bits % 2^52 != 0

/-- Go's `==` on float64: a NaN differs from every number, positive and negative zero are equal. -/
def floatEq (a b : Nat) : Bool :=
  !isNaN a && !isNaN b && (a == b || (a % 2^63 == 0 && b % 2^63 == 0))

mutual
/-- The dynamic types a node value (`interface{}`) can have in spiff:
nil, bool, int64, float64 (bit pattern), string, []Node,
map[string]Node (association list), dynaml.Expression and
dynaml.TemplateValue (dynaml/template.go:13; only its prepared node is kept) and
dynaml.LambdaValue (opaque, identified by its printed form). -/
inductive Val (E : Type) : Type where
  | nil
  | bool (b : Bool)
  | int (i : Int)
  | float (bits : Nat)
  | str (s : String)
  | list (l : List (Node E))
  | map (m : List (String × Node E))
  | expr (e : E)
  | templ (n : Node E)
  | lambda (s : String)
/-- yaml/node.go:47-53 `AnnotatedNode`: value, source name, annotation.
Not modelled: `template` (only used for the proof-of-concept marker `&dynamic`)
and `resolver` (only used for references to `_`). -/
inductive Node (E : Type) : Type where
  | mk (val : Val E) (src : String) (ann : Ann)
end

namespace Node
variable {E : Type}

/-- yaml/node.go:433 `Value()` -/
def val : Node E → Val E | .mk v _ _ => v
/-- yaml/node.go:437 `SourceName()` -/
def src : Node E → String | .mk _ s _ => s
/-- yaml/node.go:449 `GetAnnotation()` -/
def ann : Node E → Ann | .mk _ _ a => a
/-- yaml/node.go:299 `Flags()` -/
def flags (n : Node E) : Flags := n.ann.flags

/-- yaml/node.go:194-196 `NewNode`. (`MassageType` converts small Go ints to
int64, which are not distinguished in the model.) -/
def new (v : Val E) (src : String) : Node E := .mk v src {}

/-- yaml/node.go:208-212 `ReplaceValue` and 217-221 `SubstituteNode`. -/
def withVal (n : Node E) (v : Val E) : Node E := .mk v n.src n.ann
/-- copyNodeAnnotated, yaml/node.go:190-192 -/
def withAnn (n : Node E) (a : Ann) : Node E := .mk n.val n.src a
/-- yaml/node.go:223-227 `RedirectNode`. -/
def redirectNode (v : Val E) (n : Node E) (r : Option (List String)) : Node E :=
  .mk v n.src { n.ann with redirectPath := r }
/-- yaml/node.go:229-233 `ReplaceNode`. -/
def replaceNode (v : Val E) (n : Node E) (r : Option (List String)) : Node E :=
  .mk v n.src { n.ann with replace := true, redirectPath := r }
/-- yaml/node.go:235-237 -/
def preferredNode (n : Node E) : Node E := n.withAnn { n.ann with preferred := true }
/-- yaml/node.go:239-241 -/
def mergedNode (n : Node E) : Node E := n.withAnn { n.ann with merged := true }
/-- yaml/node.go:243-245 -/
def keyNameNode (n : Node E) (k : String) : Node E := n.withAnn (n.ann.addKeyName k)
/-- yaml/node.go:247-249 -/
def issueNode (n : Node E) (error failed : Bool) (issue : String) : Node E :=
  n.withAnn (n.ann.addIssue error failed issue)
/-- yaml/node.go:251-253 -/
def undefinedNode (n : Node E) : Node E := n.withAnn { n.ann with undefined := true }
/-- yaml/node.go:255-257 -/
def addFlags (n : Node E) (f : Flags) : Node E :=
  n.withAnn { n.ann with flags := n.ann.flags.add f }
/-- yaml/node.go:259-261 -/
def setTag (n : Node E) (t : String) : Node E := n.withAnn { n.ann with tag := t }
/-- yaml/node.go:213-215 `ReferencedNode` -/
def referencedNode (n : Node E) : Node E := n.withAnn n.ann.referenced

end Node

/-! ### Go maps as association lists -/

section Maps
variable {α : Type}

/-- `m[k]` of a Go map. -/
def mget (m : List (String × α)) (k : String) : Option α :=
  match m with
  | [] => none
  | (k', v) :: r => if k' = k then some v else mget r k

/-- `m[k] = v` of a Go map. -/
def mset (m : List (String × α)) (k : String) (v : α) : List (String × α) :=
  match m with
  | [] => [(k, v)]
  | (k', v') :: r => if k' = k then (k, v) :: r else (k', v') :: mset r k v

/-- `delete(m, k)`. -/
def mdel (m : List (String × α)) (k : String) : List (String × α) :=
  m.filter (fun e => e.1 ≠ k)

/-- The keys of a Go map (in some order). -/
def mkeys (m : List (String × α)) : List String := m.map Prod.fst

/-- insertion into a sorted list of strings -/
def insertStr (a : String) : List String → List String
  | [] => [a]
  | b :: r => if a ≤ b then a :: b :: r else b :: insertStr a r

/-- Go's `sort.Strings` (the result of sorting strings does not depend on the
algorithm). Go compares bytes, Lean code points; these orders agree. -/
def sortStr : List String → List String
  | [] => []
  | a :: r => insertStr a (sortStr r)

/-- yaml/value.go:11-20 `GetSortedKeys`. -/
def sortedKeys (m : List (String × α)) : List String := sortStr (mkeys m)

/-- A Go map has at most one entry per key. -/
def MapOK (m : List (String × α)) : Prop := (mkeys m).Nodup

end Maps

end Spiff
