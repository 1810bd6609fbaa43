import Verif.Spec.Refs
/-
Specification for C70: projections `e.[*]…`.
-/
namespace Spiff

/-- the entries of a value a projection is applied to: those of a list in their order, those of a map in the order of the keys -/
inductive Entries : Val Ex → List (Val Ex) → Prop
  | list (l : List (Node Ex)) : Entries (.list l) (l.map Node.val)
  | map (m : List (String × Node Ex)) (ks : List String) (vs : List (Val Ex)) : ks.Pairwise (· < ·) → (∀ k, k ∈ ks ↔ ∃ n, (k, n) ∈ m) →
      List.Forall₂ (fun k v => ∃ n, (k, n) ∈ m ∧ n.val = v) ks vs → Entries (.map m) vs

/-- evaluation of the chain following `[*]` for the entry `v` -/
def entryEval (X : EvLib) (chain : Ex) (b : Bind) (loc : Bool) (v : Val Ex) : Ev := eval X chain { b with proj := v } loc

/-- the chain `.a.b` following `[*]` -/
abbrev pathChain (path : List String) : Ex := .node (.qual path) [.node .projValue []]

/-- the chain `.[index]` following `[*]` -/
abbrev indexChain (index : Ex) : Ex := .node .dyn [.node .projValue [], index]

/-- `e.[*]` followed by a chain -/
abbrev Ex.proj (e chain : Ex) : Ex := .node .proj [e, chain]

end Spiff
