import Verif.Spec.Agree
import Verif.Model.Merge
import Mathlib.Data.List.Forall2
/-
Specification vocabulary for C82: documents that differ only in the order of the fields of
their maps.
-/
namespace Spiff.Spec
variable {E : Type}

/-- The same kind of value, equal if it is a scalar, an expression or a function. -/
def SameLeaf : Val E → Val E → Prop
  | .list _, .list _ => True
  | .map _, .map _ => True
  | .templ _, .templ _ => True
  | .list _, _ => False
  | .map _, _ => False
  | .templ _, _ => False
  | a, b => a = b

/-- Two documents with the same positions and, at every position, the same scalar (or the same
kind of container), source name and annotation. As maps are association lists in the model, the order of the fields of
every map may be different; the order of lists is the same. -/
def Reordered : Node E → Node E → Prop :=
  AgreeBy (fun x y => SameLeaf x.val y.val ∧ x.src = y.src ∧ x.ann = y.ann)

/-- the same for documents of which every map has at most one value for a key (as all Go maps) -/
structure Same (a b : Node E) : Prop where
  reordered : Reordered a b
  left : GoMaps a
  right : GoMaps b

/-- the same for the fields of two maps -/
def SameFields (m m' : List (String × Node E)) : Prop :=
  Same (Node.new (.map m) "") (Node.new (.map m') "")

/-- the same for values -/
def SameValue (v v' : Val E) : Prop := Same (Node.new v "") (Node.new v' "")

/-- the same for the scopes of an environment -/
structure SameScope (s s' : Scope E) : Prop where
  list : Both (List.Forall₂ Same) s.list s'.list
  locals : Both SameFields s.locals s'.locals
  path : s.path = s'.path

/-- the same for environments -/
structure SameEnv (e e' : Env E) : Prop where
  scopes : List.Forall₂ SameScope e.scopes e'.scopes
  path : e.path = e'.path
  stubs : List.Forall₂ Same e.stubs e'.stubs
  stubPath : e.stubPath = e'.stubPath
  nomerge : e.nomerge = e'.nomerge
  sourceName : e.sourceName = e'.sourceName
  currentSourceName : e.currentSourceName = e'.currentSourceName
  outer : List.Forall₂ (List.Forall₂ SameScope) e.outer e'.outer

/-- An expression language whose results do not depend on the order of fields: the values are the
same up to the order of fields, the information about the evaluation and success are equal. -/
def OrderFree (L : Lang E) : Prop :=
  ∀ e env env', SameEnv env env' →
    SameValue (L.eval e env).1 (L.eval e env').1 ∧ (L.eval e env).2 = (L.eval e env').2

/-- If the first computation delivers a result, so does the second one, and the results are related. -/
def Delivers {α β : Type} (H : α → β → Prop) (x : Run α) (y : Run β) : Prop :=
  ∀ a, x = .ok a → ∃ b, y = .ok b ∧ H a b

/-- Two fields of a list entry have the same name after removing the marker `key:` (or `key:!`), for
example `key:name` and `name`. Which of the two values is kept depends on the order in which Go
iterates over the map (flow/flow.go:796-811). -/
def ambiguous (n : Node E) : Bool :=
  match n.val with
  | .map m => !decide ((mkeys m).map untag).Nodup
  | _ => false

/-- a list with such an entry -/
def ambiguousList (n : Node E) : Bool :=
  match n.val with
  | .list l => l.any ambiguous
  | _ => false

/-- One processing pass that gives up if it comes to a list with an ambiguous entry. -/
def flowC (L : Lang E) : Nat → FlowFn E
  | 0 => fun _ _ _ _ => .error .fuel
  | n + 1 => fun env root shouldOverride enforceTemplate =>
    if ambiguousList root then .error .panic
    else flowStep L (flowC L n) env root shouldOverride enforceTemplate

/-- The processing of a document (`flowLoop`) that gives up if a pass comes to a list with an
ambiguous entry. -/
def flowLoopC [DecidableEq E] (L : Lang E) (fuel : Nat) (env : Env E) (source : Node E) (shouldOverride : Bool) :
    Nat → Node E → Run (Node E)
  | 0, _ => .error .fuel
  | n + 1, result =>
    (flowC L fuel (passEnv env source) result shouldOverride false).bind (fun next =>
      if next.ann.undefined then .ok (Node.new Val.nil "__ctx").undefinedNode
      else if deepEq result next then .ok result
      else flowLoopC L fuel env source shouldOverride n next)

/-- Two fields of a map have the same name after removing the escape character `!` of merge keys. -/
def clashHere (n : Node E) : Bool :=
  match n.val with
  | .map m => !decide ((mkeys m).map unescapeKey).Nodup
  | _ => false

mutual
/-- Two fields of a map below the root have the same name after removing the escape character `!` of merge keys, for example
`<<!` and `<<`. Which of the two values is kept depends on the order in which Go iterates over the map
(yaml/node.go:562-580). -/
def escapeClash : Node E → Bool
  | .mk v _ _ => match v with
    | .list l => escapeClashL l
    | .map m => escapeClashM m
    | _ => false
termination_by structural n => n
/-- the entries of a list -/
def escapeClashL : List (Node E) → Bool
  | [] => false
  | n :: r => clashHere n || escapeClash n || escapeClashL r
termination_by structural n => n
/-- the fields of a map -/
def escapeClashM : List (String × Node E) → Bool
  | [] => false
  | (_, n) :: r => clashHere n || escapeClash n || escapeClashM r
termination_by structural n => n
end

/-- the processing of a document (`nestedFlow`) that gives up in case of ambiguous list entries -/
def nestedFlowC [DecidableEq E] (L : Lang E) (fuel passes : Nat) : DocFlow E := fun source stubs =>
  (flowLoopC L fuel (nestedEnv stubs source.src) source true passes source).map (fun r => (r, (findUnresolved L [] r).isEmpty))

/-- The merge of a template with stubs (`mergeDocs`) that gives up (no result), if a result would depend on the iteration
order of Go maps: in case of ambiguous list entries, or if two keys become equal by unescaping. -/
def mergeDocsC [DecidableEq E] (L : Lang E) (fuel passes : Nat) (ip : Bool) (opts : Options) (template : Node E) (stubs : List (Node E)) : Run (Option (Node E)) :=
  mergeRun (nestedFlowC L fuel passes) (fun n => if escapeClash n then .error .panic else .ok (unescapeDoc L.quote ip n)) opts template stubs

end Spiff.Spec
