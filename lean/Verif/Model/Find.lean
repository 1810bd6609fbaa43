import Verif.Model.Node
/-
Model of yaml/find.go: path lookup.
-/
namespace Spiff
variable {E : Type}

/-- Outcome of a lookup. `panic` is a Go run time panic. -/
inductive Look (α : Type) where
  | found (a : α)
  | missing
  | panic
deriving Repr, DecidableEq

/-- Forget the difference between "not found" and a panic. -/
def Look.toOption {α : Type} : Look α → Option α
  | .found a => some a
  | _ => none

/-- a non empty sequence of ASCII digits -/
def isDigits (l : List Char) : Bool := !l.isEmpty && l.all (fun c => '0' ≤ c && c ≤ '9')

/-- value of a digit sequence -/
def digitsVal (l : List Char) : Nat := l.foldl (fun a c => a * 10 + (c.toNat - '0'.toNat)) 0

/-- yaml/find.go:12 the regular expression `^\[(-?\d+)\]$` together with
strconv.Atoi of the matched group (yaml/find.go:87-92). -/
def listIndex (s : List Char) : Option Int :=
  match s with
  | '[' :: r =>
    if r.getLast? = some ']' then
      match r.dropLast with
      | '-' :: ds => if isDigits ds then some (-(digitsVal ds : Int)) else none
      | ds => if isDigits ds then some (digitsVal ds : Int) else none
    else none
  | _ => none

/-- `strings.Index(step, ":")` with result > 0, splitting at that place
(yaml/find.go:107-111 and 132-138). -/
def splitColon (s : List Char) : Option (List Char × List Char) :=
  match s.span (fun c => c ≠ ':') with
  | (k :: ks, _ :: rest) => some (k :: ks, rest)
  | _ => none

/-- yaml/node.go:14 -/
def MERGEKEY : String := "<<<"

/-- `strings.HasPrefix` -/
def hasPrefix (s p : String) : Bool := p.toList.isPrefixOf s.toList

/-- yaml/find.go:157-166 `IsMapResolved`; `ctl` is the control feature. -/
def isMapResolved (ctl : Bool) (m : List (String × Node E)) : Bool :=
  !(ctl && m.any (fun e => hasPrefix e.1 "<<")) &&
  (mget m "<<").isNone && (mget m MERGEKEY).isNone

/-- yaml/find.go:140-155 `UnresolvedListEntryMerge`: the merge expression of a
list entry of the form `- <<: expr`. -/
def listEntryMerge (n : Node E) : Option (Node E × String) :=
  match n.val with
  | .map [(k, v)] =>
    if k = "<<" then some (v, "<<") else if k = MERGEKEY then some (v, MERGEKEY) else none
  | _ => none

/-- yaml/find.go:168-178 `IsListResolved`. -/
def isListResolved (l : List (Node E)) : Bool := l.all (fun n => (listEntryMerge n).isNone)

/-- map case of yaml/find.go:66-84 `nextStep` -/
def stepMap (ctl raw : Bool) (m : List (String × Node E)) (step : String) : Option (Node E) :=
  if !raw && !isMapResolved ctl m then none else mget m step

/-- yaml/find.go:113-127: the first map entry whose key field is the wanted string. -/
def findNamed (ctl raw : Bool) (l : List (Node E)) (key step : String) : Option (Node E) :=
  match l with
  | [] => none
  | sub :: r =>
    match sub.val with
    | .map m =>
      match stepMap ctl raw m key with
      | some (.mk (.str name) _ _) => if name = step then some sub else findNamed ctl raw r key step
      | _ => findNamed ctl raw r key step
    | _ => findNamed ctl raw r key step

/-- yaml/find.go:87-105: access by index. Only the upper bound of the
index is checked (line 97), so an index below `-len` panics, as does an index
outside the int range (line 90-92). -/
def indexList (l : List (Node E)) (i : Int) : Look (Node E) :=
  if i < -(2^63) || i ≥ 2^63 then .panic
  else if i < 0 then
    if (l.length : Int) + i < 0 then .panic
    else match l[((l.length : Int) + i).toNat]? with
      | some n => .found n
      | none => .missing
  else match l[i.toNat]? with
    | some n => .found n
    | none => .missing

/-- yaml/find.go:86-130 `stepThroughList`. -/
def stepList (ctl raw : Bool) (l : List (Node E)) (step key : String) : Look (Node E) :=
  match listIndex step.toList with
  | some i => indexList l i
  | none =>
    let key := if key = "" then "name" else key
    let (key, step) := match splitColon step.toList with
      | some (k, s) => (String.ofList k, String.ofList s)
      | none => (key, step)
    match findNamed ctl raw l key step with
    | some n => .found n
    | none => .missing

/-- yaml/find.go:66-84 `nextStep`. -/
def nextStep (ctl raw : Bool) (step : String) (here : Node E) : Look (Node E) :=
  match here.val with
  | .map m => match stepMap ctl raw m step with
    | some n => .found n
    | none => .missing
  | .list l =>
    if !raw && !isListResolved l then .missing
    else stepList ctl raw l step here.ann.keyName
  | _ => .missing

/-- yaml/find.go:18-35 `FindR` (with explicit panics). -/
def findR (ctl raw : Bool) (root : Node E) : List String → Look (Node E)
  | [] => .found root
  | step :: path =>
    match nextStep ctl raw step root with
    | .found n => findR ctl raw n path
    | .missing => .missing
    | .panic => .panic

/-- yaml/find.go:14-16 `Find`, panics being totalised to "not found"
(used in the flow model, where they are excluded by hypotheses). -/
def find (ctl : Bool) (root : Node E) (path : List String) : Option (Node E) :=
  (findR ctl false root path).toOption

/-- `FindR(true, ...)`, totalised. -/
def findRaw (ctl : Bool) (root : Node E) (path : List String) : Option (Node E) :=
  (findR ctl true root path).toOption

/-- yaml/find.go:41-50 `FindStringR`, totalised. -/
def findStr (ctl raw : Bool) (root : Node E) (path : List String) : Option String :=
  match (findR ctl raw root path).toOption with
  | some (.mk (.str s) _ _) => some s
  | _ => none

/-- yaml/find.go:132-138 `PathComponent`. -/
def pathComponent (step : String) : String :=
  match splitColon step.toList with
  | some (_, s) => String.ofList s
  | none => step

/-- flow/environment.go:241-256 `FindInStubs`. -/
def findInStubs (ctl : Bool) (stubs : List (Node E)) (path : List String) : Option (Node E) :=
  match stubs with
  | [] => none
  | s :: r =>
    match find ctl s path with
    | some n => if !n.flags.isImplied then some n else findInStubs ctl r path
    | none => findInStubs ctl r path

end Spiff
