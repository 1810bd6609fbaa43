import Verif.Model.Find
import Verif.Model.Equiv
/-
Model of compare/compare.go: structural comparison of documents (`spiff diff`). Go iterates maps in random order; the model
iterates in list order, so the order of the reported differences is meaningless.
-/
namespace Spiff
variable {E : Type}

/-- compare/compare.go:10-15 -/
structure Diff (E : Type) where
  a : Option (Node E)
  b : Option (Node E)
  path : List String

/-- appending results; `none` is a Go panic -/
def cat {α : Type} : Option (List α) → Option (List α) → Option (List α)
  | some x, some y => some (x ++ y)
  | _, _ => none

/-- `yaml.FindString(node, nil, "name")` -/
def nameOf (n : Node E) : Option String := findStr false false n ["name"]

/-- `av != b.Value()` for a value `av` that is neither a map nor a list (compare.go:57): Go compares types and
values. Documents read from files contain no expressions, templates or lambdas. -/
def scalarSame [DecidableEq E] : Val E → Val E → Bool
  | .nil, .nil => true
  | .bool a, .bool b => decide (a = b)
  | .int a, .int b => decide (a = b)
  | .float a, .float b => floatEq a b
  | .str a, .str b => decide (a = b)
  | .expr a, .expr b => decide (a = b)
  | .templ a, .templ b => equivN a b
  | .lambda a, .lambda b => decide (a = b)
  | _, _ => false

/-- compare/compare.go:65-89 `listToMap` -/
def nameMap (acc : List (String × Node E)) : List (Node E) → Option (List (String × Node E))
  | [] => some acc
  | n :: r => match nameOf n with
    | none => none
    | some name => match n.val with
      | .map m => nameMap (mset acc name (n.withVal (.map (mdel m "name")))) r
      | _ => none

/-- compare/compare.go:103-109: the fields of `b` not in `a` -/
def extraFields (keys : List String) (m' : List (String × Node E)) (path : List String) : List (Diff E) :=
  (m'.filter (fun e => !keys.contains e.1)).map (fun e => ⟨none, some e.2, path ++ [e.1]⟩)

/-- `fmt.Sprintf("[%d]", index)` -/
def indexKey (i : Nat) : String := "[" ++ toString i ++ "]"

/-- compare/compare.go:131-138: the entries of `b` at positions not in `a` -/
def extraEntries (na : Nat) (l' : List (Node E)) (path : List String) : List (Diff E) :=
  ((l'.zipIdx).filter (fun e => decide (na ≤ e.2))).map (fun e => ⟨none, some e.1, path ++ [indexKey e.2]⟩)

/-- compare/compare.go:192-200 `findByIndex` -/
def findByIndex (l' : List (Node E)) (i : Nat) : String × Option (Node E) := (indexKey i, l'[i]?)

/-- compare/compare.go:177-190 `findByName` -/
def findByName (name : String) (l' : List (Node E)) : Option (Node E) := l'.find? (fun n => nameOf n == some name)

/-- compare/compare.go:163-175 `findByNameOrIndex` -/
def findByNameOrIndex (n : Node E) (l' : List (Node E)) (i : Nat) : String × Option (Node E) :=
  match nameOf n with
  | none => findByIndex l' i
  | some name => match findByName name l' with
    | some x => (name, some x)
    | none => findByIndex l' i

/-- compare/compare.go:146-161 `jobMap`: every job must be a map (line 151 writes to it) with a string name -/
def jobsOK (l : List (Node E)) : Bool :=
  l.all (fun n => (match n.val with | .map _ => true | _ => false) &&
    (match n.val with | .map m => (nameOf (n.withVal (.map (mset m "index" (Node.new (.int 0) ""))))).isSome | _ => false))

/-- the attributes of a job and its position in the job map: the last job with the name -/
def findJob (name : String) (l' : List (Node E)) : Option (List (String × Node E) × Nat) :=
  match (l'.zipIdx.reverse.find? (fun e => nameOf e.1 == some name)) with
  | some (n, i) => match n.val with
    | .map m => some (m, i)
    | _ => none
  | none => none

/-- the jobs of `b` with a name not used in `a` -/
def extraJobs (names : List (Option String)) (l' : List (Node E)) (path : List String) : List (Diff E) :=
  ((l'.filter (fun n => !names.contains (nameOf n))).map (fun n => ⟨none, some n, path ++ [(nameOf n).getD ""]⟩))

/-- comparison of the positions of two jobs (they are stored as field `index`, compare.go:151) -/
def indexDiff (src : String) (i j : Nat) (path : List String) : List (Diff E) :=
  if i = j then [] else [⟨some (Node.new (.int i) src), some (Node.new (.int j) src), path ++ ["index"]⟩]

mutual
/-- compare/compare.go:21-63 `compare` -/
def cmpN [DecidableEq E] : Node E → Node E → List String → Option (List (Diff E))
  | .mk v s an, b, path => cmpV v s an b path
termination_by structural n => n
def cmpV [DecidableEq E] : Val E → String → Ann → Node E → List String → Option (List (Diff E))
  | .map m, s, an, b, path => match b.val with
    | .map m' => cat (cmpFields m m' path) (some (extraFields (mkeys m) m' path))
    | .list l' => match nameMap [] l' with
      | some m' => cat (cmpFields m m' path) (some (extraFields (mkeys m) m' path))
      | none => some [⟨some (.mk (.map m) s an), some b, path⟩]
    | _ => some [⟨some (.mk (.map m) s an), some b, path⟩]
  | .list l, s, an, b, path => match b.val with
    | .list l' =>
      if path = ["jobs"] then
        if jobsOK l && jobsOK l' then cat (cmpJobs 0 l l' path) (some (extraJobs (l.map nameOf) l' path)) else none
      else cat (cmpEntries 0 l l' path) (some (extraEntries l.length l' path))
    | _ => some [⟨some (.mk (.list l) s an), some b, path⟩]
  | .nil, s, an, b, path => if scalarSame .nil b.val then some [] else some [⟨some (.mk .nil s an), some b, path⟩]
  | .bool x, s, an, b, path => if scalarSame (.bool x) b.val then some [] else some [⟨some (.mk (.bool x) s an), some b, path⟩]
  | .int x, s, an, b, path => if scalarSame (.int x) b.val then some [] else some [⟨some (.mk (.int x) s an), some b, path⟩]
  | .float x, s, an, b, path => if scalarSame (.float x) b.val then some [] else some [⟨some (.mk (.float x) s an), some b, path⟩]
  | .str x, s, an, b, path => if scalarSame (.str x) b.val then some [] else some [⟨some (.mk (.str x) s an), some b, path⟩]
  | .expr x, s, an, b, path => if scalarSame (.expr x) b.val then some [] else some [⟨some (.mk (.expr x) s an), some b, path⟩]
  | .templ x, s, an, b, path => if scalarSame (.templ x) b.val then some [] else some [⟨some (.mk (.templ x) s an), some b, path⟩]
  | .lambda x, s, an, b, path => if scalarSame (.lambda x) b.val then some [] else some [⟨some (.mk (.lambda x) s an), some b, path⟩]
termination_by structural n => n
/-- compare/compare.go:94-101 -/
def cmpFields [DecidableEq E] : List (String × Node E) → List (String × Node E) → List String → Option (List (Diff E))
  | [], _, _ => some []
  | (k, x) :: r, m', path =>
    cat (match mget m' k with
      | some y => cmpN x y (path ++ [k])
      | none => some [⟨some x, none, path ++ [k]⟩]) (cmpFields r m' path)
termination_by structural n => n
/-- compare/compare.go:120-129; the argument `i` is the index of the first entry -/
def cmpEntries [DecidableEq E] : Nat → List (Node E) → List (Node E) → List String → Option (List (Diff E))
  | _, [], _, _ => some []
  | i, x :: r, l', path =>
    cat (match findByNameOrIndex x l' i with
      | (key, some y) => cmpN x y (path ++ [key])
      | (key, none) => some [⟨some x, none, path ++ [key]⟩]) (cmpEntries (i + 1) r l' path)
termination_by structural _ n => n
/-- compare/compare.go:142-144 `compareJobs` on the jobs of `a` that are in its job map: the last ones of their names -/
def cmpJobs [DecidableEq E] : Nat → List (Node E) → List (Node E) → List String → Option (List (Diff E))
  | _, [], _, _ => some []
  | i, x :: r, l', path =>
    cat (if (r.map nameOf).contains (nameOf x) then some []
      else match findJob ((nameOf x).getD "") l' with
        | some (m', j) => cmpJob x i m' j (path ++ [(nameOf x).getD ""])
        | none => some [⟨some x, none, path ++ [(nameOf x).getD ""]⟩]) (cmpJobs (i + 1) r l' path)
termination_by structural _ n => n
def cmpJob [DecidableEq E] : Node E → Nat → List (String × Node E) → Nat → List String → Option (List (Diff E))
  | .mk v s _, i, m', j, path => cmpJobV v s i m' j path
termination_by structural n => n
def cmpJobV [DecidableEq E] : Val E → String → Nat → List (String × Node E) → Nat → List String → Option (List (Diff E))
  | .map m, s, i, m', j, path =>
    cat (cmpAttrs m m' path) (some (indexDiff s i j path ++ extraFields ("index" :: mkeys m) m' path))
  | .nil, _, _, _, _, _ => none
  | .bool _, _, _, _, _, _ => none
  | .int _, _, _, _, _, _ => none
  | .float _, _, _, _, _, _ => none
  | .str _, _, _, _, _, _ => none
  | .list _, _, _, _, _, _ => none
  | .expr _, _, _, _, _, _ => none
  | .templ _, _, _, _, _, _ => none
  | .lambda _, _, _, _, _, _ => none
termination_by structural n => n
/-- the attributes of two jobs but `index` -/
def cmpAttrs [DecidableEq E] : List (String × Node E) → List (String × Node E) → List String → Option (List (Diff E))
  | [], _, _ => some []
  | (k, x) :: r, m', path =>
    cat (if k = "index" then some []
      else match mget m' k with
      | some y => cmpN x y (path ++ [k])
      | none => some [⟨some x, none, path ++ [k]⟩]) (cmpAttrs r m' path)
termination_by structural n => n
end

/-- compare/compare.go:17-19 `Compare` -/
def compareDocs [DecidableEq E] (a b : Node E) : Option (List (Diff E)) := cmpN a b []

end Spiff
