import Verif.Model.Node
/-
Specification of path lookup, as a relation (independent of the lookup functions).
-/
namespace Spiff.Spec
variable {E : Type}

/-- `ds` is the decimal representation of `n` (leading zeros allowed). -/
inductive Decimal : List Char → Nat → Prop
  | digit (d : Nat) (h : d < 10) : Decimal [Char.ofNat (48 + d)] d
  | more (ds : List Char) (n d : Nat) (h : d < 10) (hd : Decimal ds n) :
      Decimal (ds ++ [Char.ofNat (48 + d)]) (10 * n + d)

/-- the step `[i]` or `[-i]` -/
def IndexStep (step : String) (i : Int) : Prop :=
  ∃ ds n, Decimal ds n ∧
    ((step.toList = '[' :: ds ++ [']'] ∧ i = n) ∨ (step.toList = '[' :: '-' :: ds ++ [']'] ∧ i = -(n : Int)))

/-- the step `name`, or `key:name` with a non-empty key; `dflt` is the key used without explicit
one. Only the first colon counts; a step starting with a colon is a plain name. -/
def NameStep (dflt : String) (step : String) (key name : String) : Prop :=
  (∃ k : List Char, k ≠ [] ∧ ':' ∉ k ∧ step.toList = k ++ ':' :: name.toList ∧ key.toList = k) ∨
  (key = dflt ∧ name = step ∧ (':' ∉ step.toList ∨ step.toList.head? = some ':'))

/-- a map is addressable: it has no merge key, and with the control feature no key that starts with `<<` -/
def Addressable (ctl : Bool) (m : List (String × Node E)) : Prop :=
  (∀ e ∈ m, e.1 ≠ "<<" ∧ e.1 ≠ "<<<") ∧
  (ctl = true → ∀ e ∈ m, e.1.toList.take 2 ≠ ['<', '<'])

/-- a list is addressable: no entry is a map that only consists of a merge key -/
def AddressableL (l : List (Node E)) : Prop :=
  ∀ n ∈ l, ∀ k v, n.val = .map [(k, v)] → k ≠ "<<" ∧ k ≠ "<<<"

/-- `n` is a map with the string `name` in field `key` -/
def HasName (ctl raw : Bool) (key name : String) (n : Node E) : Prop :=
  ∃ m v, n.val = .map m ∧ (raw = true ∨ Addressable ctl m) ∧ mget m key = some v ∧ v.val = .str name

/-- One step of a path selects a child: the field of a map, the entry of a list at the
given index (negative ones count from the end), or the first entry of a list with the wanted name. -/
inductive Selects (ctl raw : Bool) : Node E → String → Node E → Prop
  | field (n c : Node E) (m : List (String × Node E)) (step : String) (hv : n.val = .map m)
      (hr : raw = true ∨ Addressable ctl m) (hc : mget m step = some c) : Selects ctl raw n step c
  | index (n c : Node E) (l : List (Node E)) (step : String) (i : Int) (j : Nat) (hv : n.val = .list l)
      (hr : raw = true ∨ AddressableL l) (hi : IndexStep step i)
      (hb : -(2^63) ≤ i ∧ i < 2^63)
      (hj : (j : Int) = if i < 0 then l.length + i else i) (hc : l[j]? = some c) : Selects ctl raw n step c
  | named (n c : Node E) (l before after : List (Node E)) (step key name : String) (hv : n.val = .list l)
      (hr : raw = true ∨ AddressableL l) (hi : ∀ i, ¬ IndexStep step i)
      (hs : NameStep (if n.ann.keyName = "" then "name" else n.ann.keyName) step key name)
      (hl : l = before ++ c :: after) (hb : ∀ x ∈ before, ¬ HasName ctl raw key name x)
      (hc : HasName ctl raw key name c) : Selects ctl raw n step c

/-- the node reached by a path -/
inductive Reaches (ctl raw : Bool) : Node E → List String → Node E → Prop
  | here (n : Node E) : Reaches ctl raw n [] n
  | step (n c r : Node E) (s : String) (p : List String) (hs : Selects ctl raw n s c) (hr : Reaches ctl raw c p r) :
      Reaches ctl raw n (s :: p) r

end Spiff.Spec
