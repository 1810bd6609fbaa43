import Verif.Model.ListFns
/-
Model of Go slices for the dynaml functions whose effect on shared lists is observable: concatenation
(dynaml/concatenation.go:69-79 uses `append`), `sort` (dynaml/sort.go:33) and `reverse` (dynaml/reverse.go:25-28), which work in place. The
value of a list node is a slice; all nodes and references to a node share it.

All slices used here start at the beginning of their array.
-/
namespace Spiff
variable {α : Type}

/-- the arrays allocated so far; the number of elements of an array never changes -/
abbrev Arrays (α : Type) := List (List α)

/-- a Go slice: array, length and capacity -/
structure Slice where
  arr : Nat
  len : Nat
  cap : Nat

/-- the elements of a slice -/
def Slice.read (h : Arrays α) (s : Slice) : List α := (h.getD s.arr []).take s.len

/-- writing `xs` into an array, beginning at index `i` -/
def overwrite (a : List α) (i : Nat) (xs : List α) : List α := a.take i ++ xs ++ a.drop (i + xs.length)

/-- Go's `append(s, xs...)`: in place if the capacity suffices, otherwise the elements are copied into a new array. The new capacity is
chosen by the run time system: `grow` (old capacity, required capacity). Unused elements of a new array are zero (`default`). -/
def Slice.append [Inhabited α] (grow : Nat → Nat → Nat) (h : Arrays α) (s : Slice) (xs : List α) : Arrays α × Slice :=
  if s.len + xs.length ≤ s.cap then
    (h.modify s.arr (fun a => overwrite a s.len xs), { s with len := s.len + xs.length })
  else
    (h ++ [s.read h ++ xs ++ List.replicate (grow s.cap (s.len + xs.length) - (s.len + xs.length)) default],
     ⟨h.length, s.len + xs.length, max (grow s.cap (s.len + xs.length)) (s.len + xs.length)⟩)

/-- An empty slice; `[]yaml.Node{}` has capacity 0 -/
def emptySlice (h : Arrays α) : Arrays α × Slice := (h ++ [[]], ⟨h.length, 0, 0⟩)

/-- A list built element by element, as by yaml/parser.go:96-106 and flow/flow.go:494-529 -/
def buildSlice [Inhabited α] (grow : Nat → Nat → Nat) (h : Arrays α) (xs : List α) : Arrays α × Slice :=
  xs.foldl (fun r x => r.2.append grow r.1 [x]) (emptySlice h)

/-- the growth of small slices by Go's run time system (below 256 elements): doubling -/
def goGrow (cap n : Nat) : Nat := if n > 2 * cap then n else 2 * cap

/-- dynaml/sort.go:33, dynaml/reverse.go:25-28: the elements of the slice are rearranged in place -/
def Slice.inPlace (f : List α → List α) (h : Arrays α) (s : Slice) : Arrays α :=
  h.modify s.arr (fun a => f (a.take s.len) ++ a.drop s.len)

/-- Operations producing lists. Lists are numbered in the order of their creation. -/
inductive ListOp (α : Type) where
  /-- a new list with some spare capacity, as created by all other expressions and by processing a document -/
  | create (xs : List α) (spare : Nat)
  /-- concatenation of two lists, dynaml/concatenation.go:71-73 -/
  | concat (i j : Nat)
  /-- concatenation with another value, dynaml/concatenation.go:78-79 -/
  | add (i : Nat) (x : α)

/-- arrays and lists created so far -/
structure Lists (α : Type) where
  heap : Arrays α := []
  lists : List Slice := []

/-- One operation; unknown lists have no effect. -/
def Lists.step [Inhabited α] (grow : Nat → Nat → Nat) (w : Lists α) : ListOp α → Lists α
  | .create xs spare =>
    { heap := w.heap ++ [xs ++ List.replicate spare default], lists := w.lists ++ [⟨w.heap.length, xs.length, xs.length + spare⟩] }
  | .concat i j => match w.lists[i]?, w.lists[j]? with
    | some s, some t => { heap := (s.append grow w.heap (t.read w.heap)).1, lists := w.lists ++ [(s.append grow w.heap (t.read w.heap)).2] }
    | _, _ => w
  | .add i x => match w.lists[i]? with
    | some s => { heap := (s.append grow w.heap [x]).1, lists := w.lists ++ [(s.append grow w.heap [x]).2] }
    | none => w

/-- a sequence of operations -/
def Lists.run [Inhabited α] (grow : Nat → Nat → Nat) (w : Lists α) (ops : List (ListOp α)) : Lists α := ops.foldl (Lists.step grow) w

/-- the current elements of list number `k` -/
def Lists.get (w : Lists α) (k : Nat) : Option (List α) := (w.lists[k]?).map (fun s => s.read w.heap)

end Spiff
