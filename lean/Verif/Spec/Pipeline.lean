import Verif.Spec.Agree
import Verif.Spec.Interpol
import Verif.Spec.Override
/-
Specification vocabulary for complete runs: documents without anything the processing gives a meaning to.
-/
namespace Spiff.Spec
variable {E : Type}

/-- names of fields with a meaning: merge keys, controls (`<<…`) and list keys (`key:…`) -/
def SpecialName (k : String) : Prop := (∃ r, k.toList = '<' :: '<' :: r) ∨ ∃ r, k.toList = 'k' :: 'e' :: 'y' :: ':' :: r

/-- A document of data only: no text contains `((`, no field has a special name. Floating point numbers are numbers, and not zero (a zero is read back as integer). -/
structure Inert (n : Node E) : Prop where
  texts : ∀ p x s, locate n p = some x → x.val = .str s → NoOpen s.toList
  names : ∀ p k x, locate n (p ++ [.key k]) = some x → ¬ SpecialName k
  floats : ∀ p x b, locate n p = some x → x.val = .float b → isNaN b = false ∧ b % 2^63 ≠ 0

/-- The effective stubs: every stub is merged with the effective stubs behind it. -/
def effective : List Doc → List Doc
  | [] => []
  | s :: r => merge (effective r) s :: effective r

mutual
/-- a document as tree of nodes -/
def nodeOf : Doc → Node E
  | .nil => .mk .nil "" {}
  | .bool b => .mk (.bool b) "" {}
  | .int i => .mk (.int i) "" {}
  | .float b => .mk (.float b) "" {}
  | .str s => .mk (.str s) "" {}
  | .list l => .mk (.list (nodesOf l)) "" {}
  | .map m => .mk (.map (entriesOf m)) "" {}
termination_by structural d => d
def nodesOf : List Doc → List (Node E)
  | [] => []
  | d :: r => nodeOf d :: nodesOf r
termination_by structural d => d
def entriesOf : List (String × Doc) → List (String × Node E)
  | [] => []
  | (k, d) :: r => (k, nodeOf d) :: entriesOf r
termination_by structural d => d
end

end Spiff.Spec
