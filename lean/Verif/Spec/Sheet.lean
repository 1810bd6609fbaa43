import Verif.Lemmas.Plain
import Verif.Model.Eval
/-
Specification for C94 and C95: documents of nested maps with expressions, seen as a sheet of cells that refer to each other.
-/
namespace Spiff.Spec
open Spiff

/-- A cell: data, or a text with an expression `(( ... ))`, with the value given for this place by stubs, if any. -/
inductive Cell where
  | data (n : Node Ex)
  | formula (text src : String) (stub : Option (Node Ex))

/-- A document: cells in nested maps. -/
inductive Sheet where
  | cell (c : Cell)
  | block (fields : List (String × Sheet)) (src : String)

/-- the maps around a cell, innermost first -/
abbrev Blocks := List (List (String × Sheet))

mutual
/-- the document as it is read -/
def Sheet.source : Sheet → Node Ex
  | .cell (.data n) => n
  | .cell (.formula t s _) => .mk (.str t) s {}
  | .block fs s => .mk (.map (sourceM fs)) s {}
termination_by structural x => x
def sourceM : List (String × Sheet) → List (String × Node Ex)
  | [] => []
  | (k, x) :: r => (k, x.source) :: sourceM r
termination_by structural x => x
end

mutual
/-- all cells, with the maps around them, satisfy `P` -/
def AllCells (P : Blocks → Cell → Prop) (around : Blocks) : Sheet → Prop
  | .cell c => P around c
  | .block fs _ => AllCellsM P (fs :: around) fs
termination_by structural x => x
def AllCellsM (P : Blocks → Cell → Prop) (around : Blocks) : List (String × Sheet) → Prop
  | [] => True
  | (_, x) :: r => AllCells P around x ∧ AllCellsM P around r
termination_by structural x => x
end

mutual
/-- `n` has the maps of the sheet, with the same keys, and for each cell a node satisfying `P` -/
def Filled (P : Blocks → Cell → Node Ex → Prop) (around : Blocks) : Sheet → Node Ex → Prop
  | .cell c, n => P around c n
  | .block fs s, n => ∃ m, n = .mk (.map m) s {} ∧ FilledM P (fs :: around) fs m
termination_by structural x => x
def FilledM (P : Blocks → Cell → Node Ex → Prop) (around : Blocks) : List (String × Sheet) → List (String × Node Ex) → Prop
  | [], m => m = []
  | (k, x) :: r, m => ∃ n m', m = (k, n) :: m' ∧ Filled P around x n ∧ FilledM P around r m'
termination_by structural x => x
end

/-- What a path leads to: a cell and the rest of the path in its value; a missing field; anything else (a whole map, reserved names). -/
inductive Target where
  | place (around : Blocks) (c : Cell) (rest : List String)
  | absent
  | other

/-- following a path -/
def descend : List String → Blocks → Sheet → Target
  | p, around, .cell c => .place around c p
  | [], _, .block _ _ => .other
  | k :: p, around, .block fs _ => match mget fs k with
    | some x => descend p (fs :: around) x
    | none => .absent

/-- Lexical scoping: the innermost map with a field of this name. -/
def lexical (name : String) (p : List String) : Blocks → Target
  | [] => .absent
  | fs :: r => match mget fs name with
    | some x => descend p (fs :: r) x
    | none => lexical name p r

/-- What the reference `path` in a cell means; a path starting with the empty name is absolute. -/
def target (around : Blocks) : List String → Target
  | [] => .other
  | name :: p =>
    if name = "" then match around.getLast? with
      | some top => descend p [] (.block top "")
      | none => .other
    else if name = "_" ∨ name = "__" ∨ name = "___" ∨ name = "__ctx" then .other
    else lexical name p around

/-- The field of a value at a path. -/
def dataAt : List String → Val Ex → Option (Val Ex)
  | [], v => some v
  | k :: p, v => match v with
    | .map m => (mget m k).bind (fun n => dataAt p n.val)
    | _ => none

/-- The truth value of data. -/
def truth : Val Ex → Bool
  | .nil => false
  | .bool b => b
  | .int i => i ≠ 0
  | .str s => s ≠ ""
  | .list l => l ≠ []
  | .map m => m ≠ []
  | _ => true

def literal : Lit → Val Ex
  | .nil => .nil
  | .bool b => .bool b
  | .int i => .int i
  | .float f => .float f
  | .str s => .str s

/-- Some of the binary operators. -/
inductive Calc : BinOp → Val Ex → Val Ex → Val Ex → Prop
  | add (x y : Int) : Calc .add (.int x) (.int y) (.int (wrap64 (x + y)))
  | sub (x y : Int) : Calc .sub (.int x) (.int y) (.int (wrap64 (x - y)))
  | mul (x y : Int) : Calc .mul (.int x) (.int y) (.int (wrap64 (x * y)))
  | concat (s t : String) : Calc .concat (.str s) (.str t) (.str (s ++ t))
  | eq (x y : Int) : Calc (.cmp .eq) (.int x) (.int y) (.bool (decide (x = y)))
  | ne (x y : Int) : Calc (.cmp .ne) (.int x) (.int y) (.bool (decide (x ≠ y)))
  | lt (x y : Int) : Calc (.cmp .lt) (.int x) (.int y) (.bool (decide (x < y)))
  | le (x y : Int) : Calc (.cmp .le) (.int x) (.int y) (.bool (decide (x ≤ y)))
  | gt (x y : Int) : Calc (.cmp .gt) (.int x) (.int y) (.bool (decide (x > y)))
  | ge (x y : Int) : Calc (.cmp .ge) (.int x) (.int y) (.bool (decide (x ≥ y)))

/-- The builtin functions as functions on data. -/
abbrev Fns := String → Option (List (Val Ex) → Option (Val Ex))

/-- The value of an expression, if `val` gives the values of references and `absent` tells the missing ones. -/
inductive Means (fns : Fns) (val : List String → Val Ex → Prop) (absent : List String → Prop) : Ex → Val Ex → Prop
  | lit (l : Lit) : Means fns val absent (Ex.lit l) (literal l)
  | ref {p : List String} {v : Val Ex} : val p v → Means fns val absent (Ex.ref p) v
  | group {e : Ex} {v : Val Ex} : Means fns val absent e v → Means fns val absent (.node .group [e]) v
  | not {e : Ex} {v : Val Ex} : Means fns val absent e v → Means fns val absent (.node .not [e]) (.bool (!truth v))
  | bin {op : BinOp} {a b : Ex} {x y v : Val Ex} : Means fns val absent a x → Means fns val absent b y → Calc op x y v →
      Means fns val absent (Ex.bin op a b) v
  | yes {c t f : Ex} {x v : Val Ex} : Means fns val absent c x → truth x = true → Means fns val absent t v → Means fns val absent (Ex.cond c t f) v
  | no {c t f : Ex} {x v : Val Ex} : Means fns val absent c x → truth x = false → Means fns val absent f v → Means fns val absent (Ex.cond c t f) v
  | first {a b : Ex} {v : Val Ex} : Means fns val absent a v → Means fns val absent (Ex.or a b) v
  | second {p : List String} {b : Ex} {v : Val Ex} : absent p → Means fns val absent b v → Means fns val absent (Ex.or (Ex.ref p) b) v
  | call {fn : String} {f : List (Val Ex) → Option (Val Ex)} {args : List Ex} {vs : List (Val Ex)} {v : Val Ex} :
      fns fn = some f → args.length = vs.length → (∀ (i : Nat) (h : i < args.length) (h' : i < vs.length), Means fns val absent args[i] vs[i]) →
      f vs = some v → Means fns val absent (Ex.call fn args) v

/-- An expression whose value depends on a reference that is stuck, all else it needs being known or stuck as well. -/
inductive Waits (means : Ex → Val Ex → Prop) (stuck : List String → Prop) : Ex → Prop
  | ref {p : List String} : stuck p → Waits means stuck (Ex.ref p)
  | group {e : Ex} : Waits means stuck e → Waits means stuck (.node .group [e])
  | not {e : Ex} : Waits means stuck e → Waits means stuck (.node .not [e])
  | both {op : BinOp} {a b : Ex} : op ≠ .mod → Waits means stuck a → Waits means stuck b → Waits means stuck (Ex.bin op a b)
  | left {op : BinOp} {a b : Ex} {v : Val Ex} : op ≠ .mod → Waits means stuck a → means b v → Waits means stuck (Ex.bin op a b)
  | right {op : BinOp} {a b : Ex} {v : Val Ex} : op ≠ .mod → means a v → Waits means stuck b → Waits means stuck (Ex.bin op a b)
  | cond {c t f : Ex} : Waits means stuck c → Waits means stuck (Ex.cond c t f)
  | or {a b : Ex} : Waits means stuck a → Waits means stuck (Ex.or a b)
  | call {fn : String} {args : List Ex} (w : Nat → Bool) : (∃ i, i < args.length ∧ w i = true) →
      (∀ (i : Nat) (h : i < args.length), w i = true → Waits means stuck args[i]) →
      (∀ (i : Nat) (h : i < args.length), w i = false → ∃ v, means args[i] v) → Waits means stuck (Ex.call fn args)

/-- The expression of a text. -/
def ParsesTo (L : Lang Ex) (text : String) (e : Ex) : Prop :=
  ∃ sub, embeddedDynaml L.quote L.interpol text.toList = some sub ∧ ∀ path stubPath, L.parse (String.ofList sub) path stubPath = some e

/-- the value given by stubs replaces the one of the expression -/
def replaced (stub : Option (Node Ex)) (v : Val Ex) : Val Ex := match stub with
  | some o => o.val
  | none => v

/-- `v` is the value of a cell, found by following at most `k` references in a row: data is its own value; the value of a formula follows from the
values of the cells it refers to. -/
def ComputesIn (L : Lang Ex) (fns : Fns) : Nat → Blocks → Cell → Val Ex → Prop
  | _, _, .data n, v => v = n.val
  | 0, _, .formula _ _ _, _ => False
  | k + 1, around, .formula text _ stub, v => ∃ w, v = replaced stub w ∧ PlainV L {} w ∧ ∃ e, ParsesTo L text e ∧
      Means fns (fun p w => ∃ around' c q u, target around p = .place around' c q ∧ ComputesIn L fns k around' c u ∧ dataAt q u = some w)
        (fun p => target around p = .absent) e w

/-- The value of a cell. -/
def Computes (L : Lang Ex) (fns : Fns) (around : Blocks) (c : Cell) (v : Val Ex) : Prop := ∃ k, ComputesIn L fns k around c v

/-- the values of references -/
def known (L : Lang Ex) (fns : Fns) (around : Blocks) (p : List String) (w : Val Ex) : Prop :=
  ∃ around' c q u, target around p = .place around' c q ∧ Computes L fns around' c u ∧ dataAt q u = some w

/-- A set of formulas each of which waits for another one of the set. -/
def Cycle (L : Lang Ex) (fns : Fns) (S : Blocks → Cell → Prop) : Prop :=
  ∀ around c, S around c → ∃ text src stub e, c = .formula text src stub ∧ ParsesTo L text e ∧
    Waits (Means fns (known L fns around) (fun p => target around p = .absent))
      (fun p => ∃ around' c' q, target around p = .place around' c' q ∧ S around' c') e

/-- A formula that depends on itself, directly or by other formulas. -/
def Circular (L : Lang Ex) (fns : Fns) (around : Blocks) (c : Cell) : Prop := ∃ S, Cycle L fns S ∧ S around c

/-- What processing makes of a cell: data stays, a formula is replaced by the value of a stub or its own value, a circular one remains an expression. -/
def CellResult (L : Lang Ex) (fns : Fns) (around : Blocks) : Cell → Node Ex → Prop
  | .data d, n => n = d
  | .formula text src stub, n => (∀ v, Computes L fns around (.formula text src stub) v → n = stub.getD (.mk v src {})) ∧
      (Circular L fns around (.formula text src stub) → ∃ e, n.val = .expr e)

mutual
/-- Keys are different and without a special meaning, data and the values of stubs are plain. -/
def Tidy (L : Lang Ex) : Sheet → Prop
  | .cell (.data n) => Plain L n
  | .cell (.formula _ _ stub) => ∀ o, stub = some o → Plain L o
  | .block fs _ => MapOK fs ∧ TidyM L fs
termination_by structural x => x
def TidyM (L : Lang Ex) : List (String × Sheet) → Prop
  | [] => True
  | (k, x) :: r => PlainKey L k ∧ Tidy L x ∧ TidyM L r
termination_by structural x => x
end

/-! ### stubs -/

/-- the node at a path of keys -/
def nodeAt : List String → Node Ex → Option (Node Ex)
  | [], n => some n
  | k :: p, n => match n.val with
    | .map m => (mget m k).bind (nodeAt p)
    | _ => none

def isScalar : Val Ex → Bool
  | .map _ => false
  | .list _ => false
  | _ => true

/-- Following the path, no list is entered, and it does not end at a map or list. -/
def Fits : List String → Node Ex → Prop
  | [], n => isScalar n.val = true
  | k :: p, n => match n.val with
    | .map m => ∀ n', mget m k = some n' → Fits p n'
    | .list _ => False
    | _ => True

mutual
/-- The values of stubs are put in place: the first stub with a value for the place of a cell. -/
def Sheet.merged (stubs : List (Node Ex)) (path : List String) : Sheet → Sheet
  | .cell (.data n) => .cell (.data ((stubs.findSome? (nodeAt path)).getD n))
  | .cell (.formula t s _) => .cell (.formula t s (stubs.findSome? (nodeAt path)))
  | .block fs s => .block (mergedM stubs path fs) s
termination_by structural x => x
def mergedM (stubs : List (Node Ex)) (path : List String) : List (String × Sheet) → List (String × Sheet)
  | [] => []
  | (k, x) :: r => (k, x.merged stubs (path ++ [k])) :: mergedM stubs path r
termination_by structural x => x
end

mutual
/-- The stubs give scalars only, and only for cells with expressions or scalars. -/
def FitsAll (stubs : List (Node Ex)) (path : List String) : Sheet → Prop
  | .cell c => (∀ s ∈ stubs, Fits path s) ∧ match c with
    | .data n => (∃ s ∈ stubs, (nodeAt path s).isSome) → isScalar n.val = true
    | .formula _ _ _ => True
  | .block fs _ => FitsAllM stubs path fs
termination_by structural x => x
def FitsAllM (stubs : List (Node Ex)) (path : List String) : List (String × Sheet) → Prop
  | [] => True
  | (k, x) :: r => FitsAll stubs (path ++ [k]) x ∧ FitsAllM stubs path r
termination_by structural x => x
end

end Spiff.Spec
