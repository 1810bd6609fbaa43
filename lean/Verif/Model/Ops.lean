import Verif.Model.Equiv
import Verif.Model.IP
/-
Model of the dynaml operators on evaluated operands: dynaml/addition.go, subtraction.go,
multiplication.go, division.go, modulo.go, comparison.go, log_and.go, log_or.go, not.go, cond.go.
-/
namespace Spiff
variable {E : Type}

/-- Outcome of an operation on values: a value; a reported error (`info.Error`, result not ok);
not ok without an error (the expression stays unresolved); a Go run time panic. -/
inductive Out (α : Type) where
  | ok (a : α)
  | err
  | undet
  | panic
deriving DecidableEq, Repr

/-- The parts of Go's standard library the operators use and that are not modelled:
address syntax (package net) and floating point. -/
structure Lib where
  /-- `net.ParseIP`, 16 bytes -/
  parseIP : String → Option (List Nat)
  /-- `net.ParseCIDR`: address (16 bytes), network address and mask (both of 4 or of 16 bytes) -/
  parseCIDR : String → Option (List Nat × List Nat × List Nat)
  /-- `net.IP.String` -/
  showIP : List Nat → String
  /-- `net.IPNet.String` -/
  showNet : List Nat → List Nat → String
  /-- float64 operations on bit patterns -/
  fadd : Nat → Nat → Nat
  fsub : Nat → Nat → Nat
  fmul : Nat → Nat → Nat
  fdiv : Nat → Nat → Nat
  /-- conversion `float64(i)` -/
  ofInt : Int → Nat

/-- dynaml/addition.go:81-99 `NumberOperands` -/
inductive Nums where
  | ints (a b : Int)
  | floats (a b : Nat)
  | none

def numberOperands (lib : Lib) : Val E → Val E → Nums
  | .int a, .int b => .ints a b
  | .float a, .float b => .floats a b
  | .float a, .int b => .floats a (lib.ofInt b)
  | .int a, .float b => .floats (lib.ofInt a) b
  | _, _ => .none

/-- an address or a network: `net.ParseIP`, else `net.ParseCIDR` (addition.go:35-42) -/
def parseAddr (lib : Lib) (s : String) : Option (List Nat × Option (List Nat × List Nat)) :=
  match lib.parseIP s with
  | some ip => some (ip, none)
  | none => (lib.parseCIDR s).map (fun c => (c.1, some c.2))

/-- dynaml/addition.go:48-56, subtraction.go:43-52: the moved address must stay in its network -/
def moveAddr (lib : Lib) (ip : List Nat) (cidr : Option (List Nat × List Nat)) (offset : Int) : Out (Val E) :=
  match cidr with
  | none => .ok (.str (lib.showIP (ipAdd ip offset)))
  | some (net, mask) =>
    if cidrContains net mask (ipAdd ip offset) then .ok (.str (lib.showNet (ipAdd ip offset) mask)) else .err

/-- dynaml/addition.go:14-64 `AdditionExpr.Evaluate` on the evaluated operands -/
def addVals (lib : Lib) (a b : Val E) : Out (Val E) :=
  match a with
  | .str s => match parseAddr lib s with
    | none => .err
    | some (ip, cidr) => match b with
      | .int k => moveAddr lib ip cidr k
      | _ => .err
  | _ => match numberOperands lib a b with
    | .ints x y => .ok (.int (wrap64 (x + y)))
    | .floats x y => .ok (.float (lib.fadd x y))
    | .none => .err

/-- dynaml/subtraction.go:13-79 -/
def subVals (lib : Lib) (a b : Val E) : Out (Val E) :=
  match a with
  | .str s => match parseAddr lib s with
    | none => .err
    | some (ip, cidr) => match b with
      | .int k => moveAddr lib ip cidr (wrap64 (-k))
      | .str t => match parseAddr lib t with
        | none => .err
        | some (ipb, _) => if ip.length ≠ ipb.length then .err else .ok (.int (diffIP ip ipb))
      | _ => .err
  | _ => match numberOperands lib a b with
    | .ints x y => .ok (.int (wrap64 (x - y)))
    | .floats x y => .ok (.float (lib.fsub x y))
    | .none => .err

/-- number of leading one bits of a mask: `net.IPMask.Size` for the masks delivered by
`net.ParseCIDR` (which are of the form `cidrMask ones len`) -/
def maskOnes (mask : List Nat) : Nat :=
  ((List.range (8 * mask.length + 1)).find? (fun o => cidrMask o mask.length = mask)).getD 0

/-- dynaml/multiplication.go:13-56. `ip.Mask(mask)` is the network address `net`. -/
def mulVals (lib : Lib) (a b : Val E) : Out (Val E) :=
  match a with
  | .str s => match lib.parseCIDR s with
    | none => .err
    | some (_, net, mask) => match b with
      | .int k => .ok (.str (lib.showNet (ipAdd net (wrap64 (numIP (maskOnes mask) * k))) mask))
      | _ => .err
  | _ => match numberOperands lib a b with
    | .ints x y => .ok (.int (wrap64 (x * y)))
    | .floats x y => .ok (.float (lib.fmul x y))
    | .none => .err

/-- dynaml/division.go:47-56: halve until 1, counting the halvings and remembering an odd remainder -/
def halvings : Nat → Nat → Bool → Nat × Bool
  | 0, _, round => (0, round)
  | fuel + 1, n, round =>
    if n ≤ 1 then (0, round)
    else let r := halvings fuel (n / 2) (round || n % 2 == 1); (r.1 + 1, r.2)

/-- dynaml/division.go:47-59: the number of additional network bits for a divisor -/
def extraBits (n : Nat) : Nat := let r := halvings n n false; if r.2 then r.1 + 1 else r.1

/-- dynaml/division.go:13-77 -/
def divVals (lib : Lib) (a b : Val E) : Out (Val E) :=
  match a with
  | .str s => match lib.parseCIDR s with
    | none => .err
    | some (_, net, mask) => match b with
      | .int k =>
        if k < 1 then .err
        else if maskOnes mask + extraBits k.toNat > 32 then .err
        else .ok (.str (lib.showNet net (cidrMask (maskOnes mask + extraBits k.toNat) mask.length)))
      | _ => .err
  | _ => match numberOperands lib a b with
    | .ints x y => if y = 0 then .err else .ok (.int (wrap64 (x.tdiv y)))
    | .floats x y => if floatEq y 0 then .err else .ok (.float (lib.fdiv x y))
    | .none => .err

/-- dynaml/expression.go:263-278 `ResolveIntegerExpressionOrPushEvaluation`: nil counts as 0; another
non-integer value is not ok (without being marked as error). -/
def intOperand : Val E → Option Int
  | .int i => some i
  | .nil => some 0
  | _ => none

/-- dynaml/modulo.go:12-34; Go's `%` truncates like `/` -/
def modVals (a b : Val E) : Out (Val E) :=
  match intOperand a, intOperand b with
  | some x, some y => if y = 0 then .err else .ok (.int (wrap64 (x.tmod y)))
  | _, _ => .undet

/-! ### comparison -/

/-- `strconv.ParseInt(s, 10, 64)` -/
def parseInt (s : String) : Option Int :=
  let v : Option Int := match s.toList with
    | '-' :: ds => if isDigits ds then some (-(digitsVal ds : Int)) else none
    | '+' :: ds => if isDigits ds then some (digitsVal ds : Int) else none
    | ds => if isDigits ds then some (digitsVal ds : Int) else none
  match v with
  | some i => if -(2^63) ≤ i ∧ i < 2^63 then some i else none
  | none => none

/-- `strconv.ParseBool(strings.ToLower(s))` -/
def parseBoolLower (s : String) : Option Bool :=
  let t := s.toList.map Char.toLower
  if t = ['1'] ∨ t = ['t'] ∨ t = ['t', 'r', 'u', 'e'] then some true
  else if t = ['0'] ∨ t = ['f'] ∨ t = ['f', 'a', 'l', 's', 'e'] then some false
  else none

/-- `strconv.FormatBool` -/
def showBool (b : Bool) : String := if b then "true" else "false"

/-- dynaml/comparison.go:100-121: a string compared with a value. `none`: not comparable (not ok). -/
def eqStr (a : String) : Val E → Option Bool
  | .str b => some (decide (a = b))
  | .int i => some (decide (a = toString i))
  | .lambda s => some (decide (a = s))
  | .bool b => some (decide (a = showBool b))
  | _ => none

/-- dynaml/comparison.go:123-151: an integer compared with a value -/
def eqInt (a : Int) : Val E → Bool
  | .str s => match parseInt s with
    | some i => decide (a = i)
    | none => false
  | .int b => decide (a = b)
  | .bool b => decide (a = if b then 1 else 0)
  | _ => false

/-- dynaml/comparison.go:153-173: a bool compared with a value -/
def eqBool (a : Bool) : Val E → Bool
  | .bool b => a == b
  | .str s => match parseBoolLower s with
    | some b => a == b
    | none => false
  | _ => false

/-- dynaml/comparison.go:175-178 -/
def eqTempl [DecidableEq E] (a : Node E) : Val E → Bool
  | .templ b => equivN a b
  | _ => false
def eqLambda (a : String) : Val E → Bool
  | .lambda b => decide (a = b)
  | _ => false

mutual
/-- dynaml/comparison.go:85-225 `compareEquals` (the boolean result; the flag `ok` is
`eqComparable`, which the recursive calls ignore). Recursion over the second operand. -/
def eqVals [DecidableEq E] (a : Val E) : Val E → Bool
  | .nil => match a with
    | .nil => true
    | _ => false
  | .list l => match a with
    | .list l' => decide (l'.length = l.length) && eqList l' l
    | _ => false
  | .map m => match a with
    | .map m' => decide (m'.length = m.length) && eqMap m' m
    | _ => false
  | .bool b => eqScalar a (.bool b)
  | .int i => eqScalar a (.int i)
  | .float f => eqScalar a (.float f)
  | .str s => eqScalar a (.str s)
  | .expr e => eqScalar a (.expr e)
  | .templ n => eqScalar a (.templ n)
  | .lambda s => eqScalar a (.lambda s)
termination_by structural b => b
/-- second operand is neither nil nor a list or map -/
def eqScalar [DecidableEq E] (a b : Val E) : Bool :=
  match a with
  | .str s => (eqStr s b).getD false
  | .int i => eqInt i b
  | .bool x => eqBool x b
  | .templ n => eqTempl n b
  | .lambda s => eqLambda s b
  | _ => false
/-- dynaml/comparison.go:186-192 -/
def eqList [DecidableEq E] (a : List (Node E)) : List (Node E) → Bool
  | [] => true
  | .mk v _ _ :: r => match a with
    | [] => true -- not reached, the lengths are equal
    | x :: xs => eqVals x.val v && eqList xs r
termination_by structural b => b
/-- dynaml/comparison.go:202-214 -/
def eqMap [DecidableEq E] (a : List (String × Node E)) : List (String × Node E) → Bool
  | [] => true
  | (k, .mk v _ _) :: r => (match mget a k with | some x => eqVals x.val v | none => false) && eqMap a r
termination_by structural b => b
end

/-- The result flag of `compareEquals`: nil is comparable with nil only, a string with scalars only. -/
def eqComparable (a b : Val E) : Bool :=
  match a, b with
  | .nil, .nil => true
  | .nil, _ => false
  | _, .nil => false
  | .str s, b => (eqStr s b).isSome
  | _, _ => true

/-- the comparison operators -/
inductive CmpOp | eq | ne | le | lt | gt | ge
deriving DecidableEq, Repr

def cmpInt : CmpOp → Int → Int → Bool
  | .le, a, b => decide (a ≤ b)
  | .lt, a, b => decide (a < b)
  | .gt, a, b => decide (a > b)
  | .ge, a, b => decide (a ≥ b)
  | _, _, _ => false
def cmpStr : CmpOp → String → String → Bool
  | .le, a, b => decide (a ≤ b)
  | .lt, a, b => decide (a < b)
  | .gt, a, b => decide (a > b)
  | .ge, a, b => decide (a ≥ b)
  | _, _, _ => false

/-- order comparison, dynaml/comparison.go:45-80. For a first operand that is neither an integer nor
a string the result is false (and ok). -/
def ordVals (op : CmpOp) (a b : Val E) : Out (Val E) :=
  match a with
  | .int x => match b with
    | .int y => .ok (.bool (cmpInt op x y))
    | _ => .err
  | .str x => match b with
    | .str y => .ok (.bool (cmpStr op x y))
    | _ => .err
  | _ => .ok (.bool false)

/-- dynaml/comparison.go:18-82 `ComparisonExpr.Evaluate` on the evaluated operands -/
def compareVals [DecidableEq E] (op : CmpOp) (a b : Val E) : Out (Val E) :=
  match op with
  | .eq => if eqComparable a b then .ok (.bool (eqVals a b)) else .undet
  | .ne => if eqComparable a b then .ok (.bool (!eqVals a b)) else .undet
  | _ => ordVals op a b

/-! ### logic -/

/-- dynaml/cond.go:45-64 `toBool` -/
def toBool : Val E → Bool
  | .nil => false
  | .bool b => b
  | .str s => !s.isEmpty
  | .int i => decide (i ≠ 0)
  | .list l => !l.isEmpty
  | .map m => !m.isEmpty
  | _ => true

/-- two's complement bits of a 64 bit integer -/
def bits64 (i : Int) : BitVec 64 := BitVec.ofInt 64 i

/-- dynaml/log_and.go:18-41. The operands as evaluated; the second one may have failed
(`undet`). With both operands evaluated, non-integer pairs are reduced to their truth
value (log_or.go:69-76). -/
def logAnd (a : Val E) (b : Option (Val E)) : Out (Val E) :=
  match b with
  | none => match a with
    | .int _ => .undet
    | _ => if toBool a then .undet else .ok (.bool false)
  | some b => match a, b with
    | .int x, .int y => .ok (.int ((bits64 x &&& bits64 y).toInt))
    | _, _ => .ok (.bool (toBool a && toBool b))

/-- dynaml/log_or.go:18-41 -/
def logOr (a : Val E) (b : Option (Val E)) : Out (Val E) :=
  match b with
  | none => match a with
    | .int _ => .undet
    | _ => if toBool a then .ok (.bool true) else .undet
  | some b => match a, b with
    | .int x, .int y => .ok (.int ((bits64 x ||| bits64 y).toInt))
    | _, _ => .ok (.bool (toBool a || toBool b))

/-- dynaml/not.go:13-26 -/
def logNot (a : Val E) : Out (Val E) := .ok (.bool (!toBool a))

end Spiff
