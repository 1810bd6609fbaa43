/-
Specification of merging plain YAML documents: path-wise override.
Independent of the model (it does not use nodes, annotations or path strings).
-/
namespace Spiff.Spec

/-- Plain YAML data. -/
inductive Doc where
  | nil
  | bool (b : Bool)
  | int (i : Int)
  | float (bits : Nat)
  | str (s : String)
  | list (l : List Doc)
  | map (m : List (String × Doc))

/-- One step of a path: a map field, a list position, a list entry with a name. -/
inductive Sel where
  | key (k : String)
  | entry (i : Nat)
  | named (n : String)
deriving DecidableEq, Repr

/-- The name of a list entry: its string valued field `name`. -/
def Doc.nameOf : Doc → Option String
  | .map m => match m.lookup "name" with
    | some (.str s) => some s
    | _ => none
  | _ => none

/-- One lookup step. A plain field name applied to a list selects the (first) entry
with this name. -/
def Doc.sel : Doc → Sel → Option Doc
  | .map m, .key k => m.lookup k
  | .list l, .key n => l.find? (fun d => d.nameOf == some n)
  | .list l, .named n => l.find? (fun d => d.nameOf == some n)
  | .list l, .entry i => l[i]?
  | _, _ => none

/-- The value at a path. -/
def Doc.at : Doc → List Sel → Option Doc
  | d, [] => some d
  | d, s :: p => match d.sel s with
    | some d' => d'.at p
    | none => none

/-- The value the stubs define at a path: the first stub wins. -/
def stubValue (stubs : List Doc) (p : List Sel) : Option Doc := stubs.findSome? (fun d => d.at p)

/-- Are all entries of a list identified by a name (their names are distinct)? -/
def allNamed (l : List Doc) : Bool :=
  l.all (fun d => d.nameOf.isSome) && decide ((l.map Doc.nameOf).Nodup)

/-- How the `i`-th entry `d` of a list is addressed. -/
def entrySel (named : Bool) (i : Nat) (d : Doc) : Sel :=
  match named, d.nameOf with
  | true, some n => .named n
  | _, _ => .entry i

mutual
/-- The merge of a template with stubs: every scalar at a map field is replaced by
the value the stubs have at its path. `over` says whether the node itself is a
candidate (list entries that are scalars are not). -/
def overlay (stubs : List Doc) (over : Bool) (p : List Sel) : Doc → Doc
  | .map m => .map (overlayM stubs p m)
  | .list l => .list (overlayL stubs (allNamed l) p 0 l)
  | .nil => if over then (stubValue stubs p).getD .nil else .nil
  | .bool b => if over then (stubValue stubs p).getD (.bool b) else .bool b
  | .int b => if over then (stubValue stubs p).getD (.int b) else .int b
  | .float b => if over then (stubValue stubs p).getD (.float b) else .float b
  | .str b => if over then (stubValue stubs p).getD (.str b) else .str b
termination_by structural d => d
def overlayM (stubs : List Doc) (p : List Sel) : List (String × Doc) → List (String × Doc)
  | [] => []
  | (k, d) :: r => (k, overlay stubs true (p ++ [.key k]) d) :: overlayM stubs p r
termination_by structural d => d
def overlayL (stubs : List Doc) (named : Bool) (p : List Sel) (i : Nat) : List Doc → List Doc
  | [] => []
  | d :: r => overlay stubs false (p ++ [entrySel named i d]) d :: overlayL stubs named p (i + 1) r
termination_by structural d => d
end

/-- The merge result for a whole document. -/
def merge (stubs : List Doc) (template : Doc) : Doc := overlay stubs true [] template

end Spiff.Spec
