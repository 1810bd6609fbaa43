import Verif.Model.Ops
/-
Model of the function `match`: dynaml/match.go. Go's package regexp is a parameter.
-/
namespace Spiff

/-- the functions used of the package regexp -/
structure RegLib (R : Type) where
  /-- `regexp.Compile` -/
  compile : String → Option R
  /-- `FindStringSubmatch`; no match is the empty list -/
  first : R → String → List String
  /-- `FindAllStringSubmatch` -/
  find : R → String → Int → List (List String)

section
variable {R E : Type}

/-- dynaml/match.go:73-79 `MakeStringList`; the source of the nodes is empty here -/
def matchTexts (l : List String) : List (Node E) := l.map (fun s => Node.new (.str s) "")

/-- dynaml/match.go:25-41: the optional number of matches, 0 for a call without -/
def matchCount : List (Val E) → Option Int
  | [] => some 0
  | .int n :: _ => if n = 0 then none else some n
  | .bool b :: _ => some (if b then -1 else 1)
  | _ => none

/-- dynaml/match.go:43-53: the text to match; the text of a number is the one of `strconv.FormatInt` -/
def matchElem : Val E → Option String
  | .str s => some s
  | .int i => some (toString i)
  | .bool b => some (if b then "true" else "false")
  | _ => none

/-- dynaml/match.go:55-70: the matches -/
def matchFind (L : RegLib R) (p elem : String) (occ : Int) : Out (Val E) :=
  match L.compile p with
  | none => .err
  | some re =>
    if occ = 0 then .ok (.list (matchTexts (L.first re elem)))
    else .ok (.list ((L.find re elem occ).map (fun m => Node.new (.list (matchTexts m)) "")))

/-- dynaml/match.go:10-71 `func_match`; the value nil is tested before the other arguments -/
def funcMatch (L : RegLib R) : List (Val E) → Out (Val E)
  | p :: a :: more =>
    if more.length > 1 then .err
    else match p with
      | .str s => match a with
        | .nil => .ok (.bool false)
        | a => match matchCount more with
          | none => .err
          | some occ => match matchElem a with
            | none => .err
            | some t => matchFind L s t occ
      | _ => .err
  | _ => .err

end
end Spiff
