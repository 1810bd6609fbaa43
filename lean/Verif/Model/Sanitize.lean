import Verif.Model.Node
/-
Model of yaml/parser.go `Sanitize` and yaml/marshal.go `Normalize`: conversion between decoded data and nodes.
The scanner of YAML text (legacy/candiedyaml) and JSON rendering are not modelled; `[]byte` values are not modelled.
-/
namespace Spiff
variable {E : Type}

/-- the Go number types handled by `Sanitize` -/
inductive NumKind where | int | int32 | int64
deriving DecidableEq, Repr

/-- `time.Time`: date and the rest (time of day, zone) -/
structure Time where
  year : Nat
  month : Nat
  day : Nat
  rest : Nat
deriving DecidableEq, Repr

/-- key of a `map[interface{}]interface{}` -/
inductive Key where
  | str (s : String)
  | other (what : String)
deriving DecidableEq, Repr

/-- Decoded data: the `interface{}` values handed to `Sanitize`. `float32` carries the bit pattern of the float64 it is
converted to. `conv d` is a value of a defined type whose underlying value is `d` (convertible to
`map[string]interface{}` or `[]interface{}`), `other` any other Go type. -/
inductive Data where
  | nil
  | bool (b : Bool)
  | num (k : NumKind) (i : Int)
  | float (bits : Nat)
  | float32 (bits : Nat)
  | str (s : String)
  | time (t : Time)
  | seq (l : List Data)
  | dict (m : List (Key × Data))
  | smap (m : List (String × Data))
  | conv (d : Data)
  | other (type : String)

/-- two digits -/
def pad2 (n : Nat) : String := if n < 10 then "0" ++ toString n else toString n

/-- yaml/parser.go:72 `rootVal.Format("2019-01-08T10:06:26Z")`. The layout is not written with Go's reference time: `2` is the day,
`01` the two digit month, `1` the month, `06` the two digit year, everything else is literal text. -/
def timeText (t : Time) : String :=
  toString t.day ++ pad2 t.month ++ "9-" ++ pad2 t.month ++ "-08T" ++ toString t.month ++ "0:" ++ pad2 (t.year % 100) ++ ":" ++
    toString t.day ++ "6Z"

/-- adding a converted entry to a converted rest -/
def consOpt {α : Type} : Option α → Option (List α) → Option (List α)
  | some x, some r => some (x :: r)
  | _, _ => none

mutual
/-- yaml/parser.go:69-134 `Sanitize`; `none` is an error. (The value of a defined map or slice type is converted first,
lines 127-132; only maps with string keys and slices are convertible.) -/
def sanitize (src : String) : Data → Option (Node E)
  | .nil => some (Node.new .nil src)
  | .bool b => some (Node.new (.bool b) src)
  | .num _ i => some (Node.new (.int i) src)
  | .float b => some (Node.new (.float b) src)
  | .float32 b => some (Node.new (.float b) src)
  | .str s => some (Node.new (.str s) src)
  | .time t => some (Node.new (.str (timeText t)) src)
  | .seq l => (sanitizeL src l).map (fun l => Node.new (.list l) src)
  | .dict m => (sanitizeD src m).map (fun m => Node.new (.map m) src)
  | .smap m => (sanitizeM src m).map (fun m => Node.new (.map m) src)
  | .conv (.seq l) => (sanitizeL src l).map (fun l => Node.new (.list l) src)
  | .conv (.smap m) => (sanitizeM src m).map (fun m => Node.new (.map m) src)
  | .conv _ => none
  | .other _ => none
termination_by structural d => d
def sanitizeL (src : String) : List Data → Option (List (Node E))
  | [] => some []
  | d :: r => consOpt (sanitize src d) (sanitizeL src r)
termination_by structural d => d
def sanitizeD (src : String) : List (Key × Data) → Option (List (String × Node E))
  | [] => some []
  | (.str k, d) :: r => consOpt ((sanitize src d).map (fun n => (k, n))) (sanitizeD src r)
  | (.other _, _) :: _ => none
termination_by structural d => d
def sanitizeM (src : String) : List (String × Data) → Option (List (String × Node E))
  | [] => some []
  | (k, d) :: r => consOpt ((sanitize src d).map (fun n => (k, n))) (sanitizeM src r)
termination_by structural d => d
end

mutual
/-- yaml/marshal.go:30-78 `Normalize`. Templates and lambdas implement the marshaler interface (dynaml/template.go:72-74,
dynaml/lambda.go:230-232); expressions are of an unknown type. -/
def normalize : Node E → Option Data
  | .mk v _ _ => normalizeV v
termination_by structural n => n
def normalizeV : Val E → Option Data
  | .nil => some .nil
  | .bool b => some (.bool b)
  | .int i => some (.num .int64 i)
  | .float b => some (.float b)
  | .str s => some (.str s)
  | .list l => (normalizeL l).map .seq
  | .map m => (normalizeM m).map .smap
  | .expr _ => none
  | .templ n => normalize n
  | .lambda s => some (.str ("(( " ++ s ++ " ))"))
termination_by structural n => n
def normalizeL : List (Node E) → Option (List Data)
  | [] => some []
  | d :: r => consOpt (normalize d) (normalizeL r)
termination_by structural d => d
def normalizeM : List (String × Node E) → Option (List (String × Data))
  | [] => some []
  | (k, d) :: r => consOpt ((normalize d).map (fun n => (k, n))) (normalizeM r)
termination_by structural d => d
end

end Spiff
