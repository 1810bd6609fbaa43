import Verif.Spec.Intrinsics
import Verif.Spec.Select
import Mathlib.Data.List.Forall2
/-
Specification for references: what a path designates, and which values can be used.
-/
namespace Spiff
open Spec

/-- something in the value is still to be determined: an expression, a map that is still to be merged, or a string with a dynaml
expression -/
inductive Unfinished (ctl : Bool) : Val Ex → Prop
  | expr (e : Ex) : Unfinished ctl (.expr e)
  | merge (m : List (String × Node Ex)) : ¬ Addressable ctl m → Unfinished ctl (.map m)
  | field (m : List (String × Node Ex)) (k : String) (n : Node Ex) : (k, n) ∈ m → Unfinished ctl n.val → Unfinished ctl (.map m)
  | entry (l : List (Node Ex)) (n : Node Ex) : n ∈ l → Unfinished ctl n.val → Unfinished ctl (.list l)
  | str (s : String) : strDynaml s = true → Unfinished ctl (.str s)

/-- the entries of the value can be selected: it is no expression, and no map or list that is still to be merged -/
def Usable (ctl : Bool) (v : Val Ex) : Prop :=
  (∀ e, v ≠ .expr e) ∧ (∀ m, v = .map m → Addressable ctl m) ∧ (∀ l, v = .list l → AddressableL l)

/-- what a path designates in the scope of an expression: a path with an empty first component starts at the root of the document -/
def Designates (b : Bind) (path : List String) (r : Look (Node Ex)) : Prop :=
  (∃ p, path = "" :: p ∧ b.root p = r) ∨ (path.head? ≠ some "" ∧ b.ref path = r)

/-- All non-empty prefixes of the path (shorter than the path: `strict`) designate a usable node. -/
def WayOpen (ctl : Bool) (D : List String → Look (Node Ex) → Prop) (path : List String) (strict : Bool) : Prop :=
  ∀ q, q ≠ [] → q <+: path → (strict = true → q ≠ path) → ∃ c, D q (.found c) ∧ Usable ctl c.val

/-- some step of the path leaves the bounds of a list that are checked: an index below `-length`, or no machine integer -/
def OutOfBounds (ctl : Bool) (root : Node Ex) (path : List String) : Prop :=
  ∃ p s q n l i, path = p ++ s :: q ∧ Reaches ctl false root p n ∧ n.val = .list l ∧ AddressableL l ∧ IndexStep s i ∧
    (i < -(l.length : Int) ∨ i < -(2^63) ∨ 2^63 ≤ i)

/-- A path followed in a given value: it reaches a node; or it leads nowhere and no step leaves the bounds that are checked (see C15). -/
def Within (ctl : Bool) (root : Node Ex) (path : List String) : Look (Node Ex) → Prop
  | .found c => Reaches ctl false root path c
  | .missing => (∀ c, ¬ Reaches ctl false root path c) ∧ ¬ OutOfBounds ctl root path
  | .panic => OutOfBounds ctl root path

/-- the expression is a reference -/
def Ex.isRef : Ex → Bool
  | .node (.ref _) _ => true
  | _ => false

/-- the path denoted by the index value of `e.[index]`: an index (for lists), a name, or a non-empty list of indices and names -/
inductive IndexPath : Val Ex → Val Ex → List String → Prop
  | int (l : List (Node Ex)) (k : Int) : IndexPath (.list l) (.int k) ["[" ++ toString k ++ "]"]
  | str (r : Val Ex) (s : String) : IndexPath r (.str s) [s]
  | single (r : Val Ex) (n : Node Ex) (p : List String) : IndexPath r n.val p → (∀ l, n.val ≠ .list l) → IndexPath r (.list [n]) p
  | path (r : Val Ex) (ns : List (Node Ex)) (p : List String) : ns.length ≠ 1 → ns ≠ [] →
      List.Forall₂ (fun (n : Node Ex) c => n.val = .str c ∨ ∃ k : Int, n.val = .int k ∧ c = "[" ++ toString k ++ "]") ns p → IndexPath r (.list ns) p

end Spiff
