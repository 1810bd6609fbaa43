import Verif.Spec.Delay
import Verif.Spec.Print
/-
The tree built by the parser (Model/Syntax.lean) and the expression evaluated (Model/Eval.lean) are two views of the same data: `toEx` is
the translation. Used for C66.
-/
namespace Spiff

/-- the comparison operators by their text (comparison.go:30-45) -/
def cmpOf (t : Txt) : Option CmpOp :=
  if t = "==".toList then some .eq else if t = "!=".toList then some .ne else if t = "<=".toList then some .le
  else if t = "<".toList then some .lt else if t = ">".toList then some .gt else if t = ">=".toList then some .ge else none

/-- the function called by a name: intrinsic functions are operators of their own (call.go:83-98) -/
def callOp (fn : String) : Op :=
  if fn = "defined" then .defined else if fn = "valid" then .valid else if fn = "require" then .require
  else if fn = "optional" then .optional else if fn = "stub" then .stub else if fn = "catch" then .catchCall else .call fn

/-- a call; `sync` is not modelled here -/
def callOf (fn : String) (args : List Ex) : Option Ex :=
  if fn = "sync" ∨ fn = "" ∨ fn = "_" then none else some (.node (callOp fn) args)

/-- the last argument first (the body of a scope) -/
def rotate (l : List Ex) : Option (List Ex) := l.getLast?.map (fun e => e :: l.dropLast)

/-- the expression with an operator of the parser and the translated operands. `none`: not an expression of Model/Eval.lean (lambda
expressions, templates, tags ...) -/
def exOp (op : SynOp) (args : List Ex) : Option Ex :=
  match op with
  | .nil => some (.node (.lit .nil) args)
  | .undef => some (.node .undef args)
  | .bool b => some (.node (.lit (.bool b)) args)
  | .int i => some (.node (.lit (.int i)) args)
  | .str s => some (.node (.lit (.str (String.ofList s))) args)
  | .ref tag path => if tag = [] then some (.node (.ref (path.map String.ofList)) args) else none
  | .group => some (.node .group args)
  | .prefer => some (.node .prefer args)
  | .not => some (.node .not args)
  | .or => some (.node .or args)
  | .validOr => some (.node .validOr args)
  | .cond => some (.node .cond args)
  | .concat => some (.node (.bin .concat) args)
  | .logOr => some (.node .lor args)
  | .logAnd => some (.node .land args)
  | .cmp t => (cmpOf t).map (fun c => .node (.bin (.cmp c)) args)
  | .add => some (.node (.bin .add) args)
  | .sub => some (.node (.bin .sub) args)
  | .mul => some (.node (.bin .mul) args)
  | .div => some (.node (.bin .div) args)
  | .mod => some (.node (.bin .mod) args)
  | .list => some (.node .list args)
  | .expand => some (.node .expand args)
  | .map => some (.node .map args)
  | .scope => (rotate args).map (.node .scope)
  | .merge path redirect replace required noMrg key =>
    some (.node (.merge ⟨path.map String.ofList, redirect, replace, required, noMrg, String.ofList key⟩) args)
  | .range l r => if l && r then some (.node .range args) else none
  | .dyn => some (.node .dyn args)
  | .projection => some (.node .proj args)
  | .projValue => some (.node .projValue args)
  | .qual path => some (.node (.qual (path.map String.ofList)) args)
  | .call curry => match args with
    | .node (.ref [fn]) [] :: rest => if curry then none else callOf fn rest
    | _ => none
  | _ => none

mutual
/-- the expression evaluated for a tree of the parser -/
def toEx : Syn → Option Ex
  | .node op args => (toExAll args).bind (exOp op)
termination_by structural x => x
def toExAll : List Syn → Option (List Ex)
  | [] => some []
  | e :: r => (toEx e).bind (fun x => (toExAll r).map (fun l => x :: l))
termination_by structural x => x
end

/-- `a // b` or a projection `a.[*]` occurs in the expression -/
def validOrOp : Op → Bool
  | .validOr => true
  | .proj => true
  | _ => false
mutual
def hasValidOr : Ex → Bool
  | .node op args => validOrOp op || hasValidOrL args
termination_by structural x => x
def hasValidOrL : List Ex → Bool
  | [] => false
  | e :: r => hasValidOr e || hasValidOrL r
termination_by structural x => x
end

/-- no parentheses around operands in the expression -/
def notGroup : SynOp → Bool
  | .group => false
  | _ => true
mutual
def noGroup : Syn → Bool
  | .node op args => notGroup op && noGroupL args
termination_by structural x => x
def noGroupL : List Syn → Bool
  | [] => true
  | e :: r => noGroup e && noGroupL r
termination_by structural x => x
end

/-- The same outcome: the same value and information, the same failure, or both left for later. -/
inductive Ev.Alike : Ev → Ev → Prop
  | value {v i} : Alike (.val v i) (.val v i)
  | later {e e' i} : Alike (.val (.expr e) i) (.val (.expr e') i)
  | fail {i} : Alike (.fail i) (.fail i)
  | crash : Alike .crash .crash

/-- the string written for a remaining expression (dynaml/unresolved_check.go:250 `ResetUnresolvedNodes`) -/
def leftText (lib : PLib) (e : Syn) : Txt := "(( ".toList ++ synText lib e ++ " ))".toList

/-- the expression read from a string of a document: the body of `((...))` is parsed (dynaml/parser.go:76, flow/flow.go) -/
def ReadAs (lib : PLib) (cx : PCtx) (s : Txt) (e : Syn) : Prop :=
  ∃ body, embeddedDynaml (fun x => x) false s = some body ∧ ParseTo lib cx body (.ok e)

end Spiff
