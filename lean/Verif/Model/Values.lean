import Verif.Model.Ops
/-
Model of the value definitions on the command line (option `-D`, cmd/merge.go).
-/
namespace Spiff
variable {E : Type}

/-- `strings.Split(s, sep)` for a separator of one character -/
def splitCh (sep : Char) : List Char → List (List Char)
  | [] => [[]]
  | c :: r =>
    if c = sep then [] :: splitCh sep r
    else match splitCh sep r with
      | [] => [[c]]
      | p :: ps => (c :: p) :: ps

/-- cmd/merge.go:84-94: one definition; `none`: invalid -/
def valueDef (s : List Char) : Option (List Char × List Char) :=
  match splitCh '=' s with
  | [k, v] => if k = [] then none else some (k, v)
  | _ => none

/-- cmd/merge.go:80-96 `createValuesFromArgs`; the map is given as association list, `none`
is the error. (A nil result for no arguments is not distinguished from the empty map; the only
caller tests the length, cmd/merge.go:152.) -/
def createValues : List (List Char) → Option (List (String × List Char))
  | args => go [] args
where
  go (result : List (String × List Char)) : List (List Char) → Option (List (String × List Char))
    | [] => some result
    | s :: rest => match valueDef s with
      | none => none
      | some (k, v) => go (mset result (String.ofList k) v) rest

/-- the number of trailing backslashes (cmd/merge.go:408-411) -/
def trailing (c : List Char) : Nat := (c.reverse.takeWhile (· = '\\')).length

/-- cmd/merge.go:407-415: a component whose trailing backslashes are halved (rounding down) -/
def halve (c : List Char) : List Char :=
  c.take (c.length - trailing c) ++ List.replicate (trailing c / 2) '\\'

/-- cmd/merge.go:403-422: the path components; `none`: empty component. An odd number of
trailing backslashes joins a component with its successor, and the result is examined again. -/
def normComps : List (List Char) → Option (List (List Char))
  | [] => some []
  | [c] => some [c]
  | c :: d :: r =>
    if c = [] then none
    else if trailing c % 2 = 1 then normComps ((halve c ++ '.' :: d) :: r)
    else (normComps (d :: r)).map (halve c :: ·)
termination_by l => l.length

/-- cmd/merge.go:423-437: the walk through the maps; `none`: a field on the path is no map.
The maps are updated in place by the Go code, so the enclosing nodes keep their annotations. -/
def setAt (value : Node E) : List String → List (String × Node E) → Option (List (String × Node E))
  | [], _ => none
  | [k], m => some (mset m k value)
  | k :: k' :: ks, m =>
    match mget m k with
    | none => (setAt value (k' :: ks) []).map (fun n => mset m k (Node.new (.map n) "<values>"))
    | some x => match x.val with
      | .map n => (setAt value (k' :: ks) n).map (fun n => mset m k (x.withVal (.map n)))
      | _ => none

/-- cmd/merge.go:402-422: the path denoted by a name -/
def valuePath (name : String) : Option (List String) :=
  (normComps (splitCh '.' name.toList)).map (List.map String.ofList)

/-- cmd/merge.go:401-439 `addValue` -/
def addValue (m : List (String × Node E)) (name : String) (value : Node E) : Option (List (String × Node E)) :=
  (valuePath name).bind (fun path => setAt value path m)

/-- cmd/merge.go:162-167: integers are recognized (`strconv.ParseInt(v, 10, 64)`) -/
def valueNode (v : List Char) : Node E :=
  match parseInt (String.ofList v) with
  | some i => Node.new (.int i) "<values>"
  | none => Node.new (.str (String.ofList v)) "<values>"

/-- cmd/merge.go:161-171: all definitions, in the iteration order of the Go map; `none`: the
program is terminated with an error message. -/
def addValues : List (String × List Char) → List (String × Node E) → Option (List (String × Node E))
  | [], m => some m
  | (k, v) :: rest, m => (addValue m k (valueNode v)).bind (addValues rest)

end Spiff
