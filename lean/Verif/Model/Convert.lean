import Verif.Model.StrFns
import Verif.Model.Find
/-
Model of the conversion functions (dynaml/convert.go), the functions on numbers (dynaml/floatmath.go), `rand` (dynaml/rand.go),
`auto` (dynaml/auto.go), `basename` and `dirname` (dynaml/basename.go), `lower` and `upper` (dynaml/lower.go). Floats are bit patterns,
their operations are parameters.
-/
namespace Spiff
variable {E : Type}

/-- The operations on floats: `strconv.ParseFloat`, `fmt.Sprintf("%g")`, the conversions from and to `int64`, the comparison with 0,
`math.IsNaN` and the functions of package math listed in floatmath.go:10-16. -/
structure FloatOps where
  parse : String → Option Nat
  text : Nat → String
  toInt : Nat → Int
  ofInt : Int → Nat
  isZero : Nat → Bool
  isNaN : Nat → Bool
  fn : String → Nat → Nat

/-- A result: a value of one of the types known to dynaml, or a Go value of type `int` (not `int64`), which no other operation of
dynaml accepts. -/
inductive Conv (E : Type) where
  | val (v : Val E)
  | goInt (i : Int)

/-- Go's `digits` -/
def digitOf (d : Nat) : Char := if d < 10 then Char.ofNat (48 + d) else Char.ofNat (97 + (d - 10))

/-- the loop of Go's `strconv.formatBits` -/
def formatLoop (b : Nat) : Nat → Nat → List Char → List Char
  | 0, u, acc => digitOf u :: acc
  | fuel + 1, u, acc => if b ≤ u then formatLoop b fuel (u / b) (digitOf (u % b) :: acc) else digitOf u :: acc

/-- `strconv.FormatInt(i, b)` -/
def formatInt (b : Nat) (i : Int) : String :=
  String.ofList (if i < 0 then '-' :: formatLoop b i.natAbs i.natAbs [] else formatLoop b i.natAbs i.natAbs [])

/-- convert.go:15-52 `func_string` -/
def funcString (F : FloatOps) (args : List (Val E)) : Out (Conv E) :=
  match args with
  | [] => .panic
  | [.str s] => .ok (.val (.str s))
  | [.int i] => .ok (.val (.str (formatInt 10 i)))
  | [.float f] => .ok (.val (.str (F.text f)))
  | [.bool b] => .ok (.val (.str (if b then "true" else "false")))
  | [.int i, .int b] => if 2 > b ∨ b > 36 then .err else .ok (.val (.str (formatInt b.toNat i)))
  | _ => .err

/-- convert.go:54-79 `func_integer` -/
def funcInteger (F : FloatOps) (args : List (Val E)) : Out (Conv E) :=
  match args with
  | [.str s] => match parseInt s with
    | some i => .ok (.val (.int i))
    | none => .err
  | [.int i] => .ok (.val (.int i))
  | [.float f] => .ok (.val (.int (F.toInt f)))
  | [.bool b] => .ok (.goInt (if b then 1 else 0))
  | _ => .err

/-- convert.go:81-106 `func_float` -/
def funcFloat (F : FloatOps) (args : List (Val E)) : Out (Conv E) :=
  match args with
  | [.str s] => match F.parse s with
    | some f => .ok (.val (.float f))
    | none => .err
  | [.int i] => .ok (.val (.float (F.ofInt i)))
  | [.float f] => .ok (.val (.float f))
  | [.bool b] => .ok (.val (.float (F.ofInt (if b then 1 else 0))))
  | _ => .err

/-- `strconv.ParseBool` -/
def parseBool (s : String) : Option Bool :=
  if s ∈ ["1", "t", "T", "true", "TRUE", "True"] then some true
  else if s ∈ ["0", "f", "F", "false", "FALSE", "False"] then some false
  else none

/-- convert.go:108-135 `func_bool` -/
def funcBool (F : FloatOps) (args : List (Val E)) : Out (Conv E) :=
  match args with
  | [.nil] => .ok (.val (.bool false))
  | [.str s] => if s = "" then .ok (.val (.bool false)) else match parseBool s with
    | some b => .ok (.val (.bool b))
    | none => .err
  | [.int i] => .ok (.val (.bool (decide (i ≠ 0))))
  | [.float f] => .ok (.val (.bool (!F.isZero f)))
  | [.bool b] => .ok (.val (.bool b))
  | _ => .err

/-- floatmath.go:30-78 `_float` -/
def funcMath (F : FloatOps) (name : String) (args : List (Val E)) : Out (Conv E) :=
  if name = "ceil" ∨ name = "floor" ∨ name = "round" ∨ name = "roundtoeven" then
    match args with
    | [.int i] => .ok (.val (.int i))
    | [.float f] => .ok (.val (.int (F.toInt (F.fn name f))))
    | [.bool b] => .ok (.goInt (if b then 1 else 0))
    | _ => .err
  else
    let real := fun (r : Nat) => if F.isNaN r then Out.err else .ok (Conv.val (.float r))
    match args with
    | [.int i] => if name = "abs" then .ok (.val (.int (if i < 0 then wrap64 (-i) else i))) else real (F.fn name (F.ofInt i))
    | [.float f] => real (F.fn name f)
    | _ => .err

/-! ### rand -/

/-- rand.go:12-16 `randNumber`; `rand.Int` panics for a bound that is not positive. `draw` is the random source. -/
def randNumber (draw : Int → Int) (max : Int) : Out Int := if max ≤ 0 then .panic else .ok (draw max)

/-- rand.go:64-71: the loop that collects `n` matches; `next k` is the match of the regular expression at the start of the `k`-th
four random bytes. `none`: no end within `fuel` reads. -/
def randChars (next : Nat → Option (List Char)) : Nat → Nat → Nat → List Char → Option (List Char)
  | _, _, 0, r => some r
  | 0, _, _ + 1, _ => none
  | fuel + 1, k, n + 1, r => match next k with
    | some found => randChars next fuel (k + 1) n (r ++ found)
    | none => randChars next fuel (k + 1) (n + 1) r

/-- rand.go:18-77 `func_rand`. `compile` is `regexp.Compile("^[" + v + "]")` with the matches of the random bytes. -/
def funcRand (draw : Int → Int) (compile : String → Option (Nat → Option (List Char))) (fuel : Nat) (args : List (Val E)) : Out (Val E) :=
  let num := fun (max : Int) (f : Int → Val E) => match randNumber draw max with
    | .ok r => Out.ok (f r)
    | .panic => .panic
    | _ => .err
  let chars := fun (v : String) (n : Nat) => match compile v with
    | none => Out.err
    | some next => match randChars next fuel 0 n [] with
      | some r => .ok (.str (String.ofList r))
      | none => .undet
  match args with
  | [] => num (2^63 - 1) .int
  | [.int i] =>
    if i < 0 then num (wrap64 (-i)) (fun r => .int (wrap64 (-r)))
    else if i > 0 then num i .int else .err
  | [.bool _] => num 2 (fun r => .bool (decide (r = 1)))
  | [.str s] => chars s 1
  | [.str s, .int l] => match compile s with
    | none => .err
    | some _ => if l ≤ 0 then .err else chars s l.toNat
  | [.str _, _] => .err
  | [.int _, _] => .err
  | [.bool _, _] => .err
  | [_] => .ok .nil
  | [_, _] => .ok .nil
  | _ => .err

/-! ### auto -/

/-- auto.go:35-52: the loop over the jobs -/
def autoSum (ctl : Bool) (pool : String) : List (Node E) → Int → Out Int
  | [], size => .ok size
  | job :: rest, size => match (find ctl job ["resource_pool"]).map Node.val with
    | some (.str p) =>
      if p ≠ pool then autoSum ctl pool rest size
      else match (find ctl job ["instances"]).map Node.val with
        | some (.int n) => autoSum ctl pool rest (wrap64 (size + n))
        | _ => .undet
    | _ => autoSum ctl pool rest size

/-! ### paths and letters -/

/-- Go's `path.Base` -/
def pathBase (p : List Char) : List Char :=
  if p = [] then ['.']
  else
    let q := (p.reverse.dropWhile (· = '/')).reverse
    if q = [] then ['/'] else (q.reverse.takeWhile (· ≠ '/')).reverse

/-- basename.go:13-33 `func_basename` on a string; `url` is the path found by `url.Parse`, `none` for an error -/
def basename (url : List Char → Option (List Char)) (s : List Char) : List Char :=
  match url s with
  | some p => if p = [] then ['/'] else pathBase p
  | none => pathBase s

/-- basename.go:35-56 `func_dirname` on a string; `clean` is `path.Clean`, `path.Dir` cleans the part up to the last slash -/
def dirname (url : List Char → Option (List Char)) (clean : List Char → List Char) (s : List Char) : List Char :=
  let dir := fun (p : List Char) => clean (p.reverse.dropWhile (· ≠ '/')).reverse
  match url s with
  | some p => if p = [] then ['/'] else dir p
  | none => dir s

end Spiff
