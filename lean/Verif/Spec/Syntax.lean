import Verif.Model.Syntax
/-
Specification of the structure of expressions: which expression may be an operand of which operator without parentheses.

Levels: 0 chains (references, parentheses, lists, maps, calls, mappings, ...), 1 all operands (literals, lambdas, `!`, ...),
2 `*` `/` `%`, 3 `+` `-`, 4 comparisons, 5 `-or` `-and`, 6 concatenation, 7 conditional, 8 `||` `//`, 9 scopes.
The left operand of an operator belongs to the same or a lower level (operators associate to the left), the right one to a lower level.
-/
namespace Spiff

/-- number of the parameters with default -/
def defaultCount (ps : List (Txt × Bool)) : Nat := (ps.filter (·.2)).length

/-- leaf expressions of level 1 -/
inductive Literal : SynOp → Prop
  | nil : Literal .nil
  | undef : Literal .undef
  | bool (b) : Literal (.bool b)
  | int (i) : Literal (.int i)
  | float (t) : Literal (.float t)
  | str (s) : Literal (.str s)
  | merge (path a b c d k) : Literal (.merge path a b c d k)
  | auto (path) : Literal (.auto path)

/-- the operators taking two operands: the levels of the result, of the left operand and of the right operand -/
inductive Infix : SynOp → Nat → Nat → Nat → Prop
  | mul : Infix .mul 2 2 1
  | div : Infix .div 2 2 1
  | mod : Infix .mod 2 2 1
  | add : Infix .add 3 3 2
  | sub : Infix .sub 3 3 2
  | cmp (o) : Infix (.cmp o) 4 4 3
  | logOr : Infix .logOr 5 5 4
  | logAnd : Infix .logAnd 5 5 4
  | concat : Infix .concat 6 6 5
  | or : Infix .or 8 8 7
  | validOr : Infix .validOr 8 8 7

mutual
/-- `Shape k e`: the expression can stand where an operand of level `k` is required. -/
inductive Shape : Nat → Syn → Prop
  | up {k j e} (h : Shape k e) (hk : k ≤ j) : Shape j e
  | ref (tag path) : Shape 0 (.node (.ref tag path) [])
  | projValue : Shape 0 (.node .projValue [])
  | group {e} (h : Shape 9 e) : Shape 0 (.node .group [e])
  | list {l} (h : ∀ a ∈ l, Element a) : Shape 0 (.node .list l)
  | map {l} (h : ∀ a ∈ l, Shape 9 a) (hl : l.length % 2 = 0) : Shape 0 (.node .map l)
  | range {l r args} (h : ∀ a ∈ args, Shape 9 a) (hl : args.length = l.toNat + r.toNat) : Shape 0 (.node (.range l r) args)
  | slice {a l r args} (ha : Shape 0 a) (h : Shape 0 (.node (.range l r) args)) : Shape 0 (.node .slice [a, .node (.range l r) args])
  | dyn {a l} (ha : Shape 0 a) (h : ∀ a ∈ l, Element a) : Shape 0 (.node .dyn [a, .node .list l])
  | qual {path a} (ha : Shape 0 a) : Shape 0 (.node (.qual path) [a])
  | call {curry f args} (hf : Shape 0 f) (h : ∀ a ∈ args, Argument a) : Shape 0 (.node (.call curry) (f :: args))
  | projection {a q} (ha : Shape 0 a) (hq : Shape 0 q) : Shape 0 (.node .projection [a, q])
  | mapping {kind curly a l} (ha : Shape 8 a) (hl : Shape 9 l) : Shape 0 (.node (.mapping kind curly) [a, l])
  | catch {a l} (ha : Shape 8 a) (hl : Shape 9 l) : Shape 0 (.node .catch [a, l])
  | sum {a i l} (ha : Shape 8 a) (hi : Shape 8 i) (hl : Shape 9 l) : Shape 0 (.node .sum [a, i, l])
  | sync {a c v t} (ha : Shape 8 a) (hc : Shape 9 c) (hv : Optional v) (ht : Optional t) : Shape 0 (.node .sync [a, c, v, t])
  | literal {op} (h : Literal op) : Shape 1 (.node op [])
  | not {e} (h : Shape 1 e) : Shape 1 (.node .not [e])
  | subst {e} (h : Shape 1 e) : Shape 1 (.node .subst [e])
  | lambda {ps v args} (h : ∀ a ∈ args, Shape 9 a) (hl : args.length = defaultCount ps + 1) : Shape 1 (.node (.lambda ps v) args)
  | lambdaRef {p q e} (h : Shape 9 e) : Shape 1 (.node (.lambdaRef p q) [e])
  | infix {op k l r a b} (h : Infix op k l r) (ha : Shape l a) (hb : Shape r b) : Shape k (.node op [a, b])
  | cond {c t f} (hc : Shape 6 c) (ht : Shape 9 t) (hf : Shape 9 f) : Shape 7 (.node .cond [c, t, f])
  | scope {args} (h : ∀ a ∈ args, Shape 9 a) (hl : args.length % 2 = 1) : Shape 9 (.node .scope args)
/-- an element of a list: an expression or an expanded list -/
inductive Element : Syn → Prop
  | expr {e} (h : Shape 9 e) : Element e
  | expand {e} (h : Shape 9 e) : Element (.node .expand [e])
/-- an argument of a call -/
inductive Argument : Syn → Prop
  | elem {e} (h : Element e) : Argument e
  | named {n e} (h : Shape 9 e) : Argument (.node (.named n) [e])
/-- an optional part of a sync expression -/
inductive Optional : Syn → Prop
  | expr {e} (h : Shape 9 e) : Optional e
  | default : Optional (.node .default [])
end

/-- A complete dynaml expression: an expression, `prefer` with an expression, or markers with an optional expression in parentheses. -/
inductive TopShape : Syn → Prop
  | expr {e} (h : Shape 9 e) : TopShape e
  | prefer {e} (h : Shape 9 e) : TopShape (.node .prefer [e])
  | marker {l} : TopShape (.node (.marker l) [])
  | marked {l t e} (h : Shape 9 e) : TopShape (.node (.marker l) [.node (.markerExpr t) [.node .group [e]]])

end Spiff
