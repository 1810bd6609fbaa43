import Verif.Spec.Syntax
/-
Specification of the expressions whose printed text is understood again, and of the comparison of expressions up to parentheses.
-/
namespace Spiff

/-! ### words -/

/-- letters, digits and underscore -/
def isWordChar (c : Char) : Bool := (decide ('a' ≤ c) && decide (c ≤ 'z')) || ((decide ('A' ≤ c) && decide (c ≤ 'Z')) || ((decide ('0' ≤ c) && decide (c ≤ '9')) || c == '_'))
/-- letters and underscore -/
def isLetterChar (c : Char) : Bool := (decide ('a' ≤ c) && decide (c ≤ 'z')) || ((decide ('A' ≤ c) && decide (c ≤ 'Z')) || c == '_')
/-- the characters of keys -/
def isKeyChar (c : Char) : Bool :=
  (decide ('a' ≤ c) && decide (c ≤ 'z')) || ((decide ('A' ≤ c) && decide (c ≤ 'Z')) || ((decide ('0' ≤ c) && decide (c ≤ '9')) || (c == '_' || c == '-')))
def isDigitChar (c : Char) : Bool := decide ('0' ≤ c) && decide (c ≤ '9')

/-- a name -/
def NameText (n : Txt) : Prop := n ≠ [] ∧ ∀ c ∈ n, isWordChar c = true
/-- the text of a key: it may contain minus signs -/
def KeyChars (k : Txt) : Prop := ∃ c w, k = c :: w ∧ isWordChar c = true ∧ ∀ d ∈ w, isKeyChar d = true
/-- the text of an index -/
def IndexText (k : Txt) : Prop := ∃ sg d, k = '[' :: (sg ++ d ++ [']']) ∧ (sg = [] ∨ sg = ['-']) ∧ d ≠ [] ∧ ∀ c ∈ d, isDigitChar c = true
/-- a component of a path -/
def CompText (k : Txt) : Prop := KeyChars k ∨ IndexText k

/-- the first component of a relative reference: it starts with a letter or an underscore and is not mistaken for a keyword -/
structure FirstKey (k : Txt) : Prop where
  head : ∃ c w, k = c :: w ∧ isLetterChar c = true
  chars : ∀ d ∈ k, isKeyChar d = true
  reserved : ∀ l ∈ ["true", "false", "nil", "auto", "merge", "lambda"], ¬ l.toList <+: k
  noPrefer : k ≠ "prefer".toList
  noDoc : k ≠ "doc".toList

/-- the first component of the reference of a merge without option: not mistaken for an option -/
structure MergeKey (k : Txt) : Prop where
  noReplace : ¬ "replace".toList <+: k
  noRequired : ¬ "required".toList <+: k
  noOn : k ≠ "on".toList

/-- printable ASCII characters and the control characters JSON has short escapes for -/
def PlainChar (c : Char) : Prop := (32 ≤ c.toNat ∧ c.toNat < 127) ∨ c.toNat = 8 ∨ c.toNat = 12 ∨ c = '\n' ∨ c = '\r' ∨ c = '\t'

/-- strings whose quoted text is understood by the parser: plain characters, the last one is not a backslash -/
structure PlainString (s : Txt) : Prop where
  chars : ∀ c ∈ s, PlainChar c
  last : s.getLast? ≠ some '\\'

/-! ### expressions -/

/-- keys and values -/
def pairArgs (kvs : List (Syn × Syn)) : List Syn := kvs.flatMap (fun p => [p.1, p.2])

/-- a lambda expression: parameters without default, parameters with default, variable arguments, body -/
def lambdaSyn (ns : List Txt) (ds : List (Txt × Syn)) (v : Bool) (b : Syn) : Syn :=
  .node (.lambda (ns.map (fun n => (n, false)) ++ ds.map (fun d => (d.1, true))) v) (ds.map (·.2) ++ [b])

/-- where an expression stands: as operand of a level (is it allowed to end with a complete expression, as lambda expressions and
conditionals do?), as expression, as element of a list, as named argument, as lambda expression of a mapping -/
inductive PKind where
  | operand (trail : Bool) (k : Nat)
  | expr
  | elem
  | named
  | lam

/-- the operators of mappings -/
inductive MapOp : SynOp → Prop
  | map (curly) : MapOp (.mapping "map".toList curly)
  | select (curly) : MapOp (.mapping "select".toList curly)
  | filter (curly) : MapOp (.mapping "filter".toList curly)
  | catch : MapOp .catch

/-- the comparison operators -/
def cmpOps : List Txt := ["==".toList, "!=".toList, "<=".toList, ">=".toList, "<".toList, ">".toList]

/-- `Printable lib cx kind e`: the printed text of `e` means `e` at a place of this kind. Not printable are half open ranges, slices,
projections, floats, markers, `sync`, an index that is a literal number, merges with options they lose, and names, strings and references
that are no words of the language. -/
inductive Printable (lib : PLib) (cx : PCtx) : PKind → Syn → Prop
  | up {o k e} (h : Printable lib cx (.operand o k) e) (hk : k < 8) : Printable lib cx (.operand o (k + 1)) e
  | expr {o e} (h : Printable lib cx (.operand o 8) e) : Printable lib cx .expr e
  | elem {e} (h : Printable lib cx .expr e) : Printable lib cx .elem e
  | expand {e} (h : Printable lib cx .expr e) : Printable lib cx .elem (.node .expand [e])
  | named {n e} (hn : NameText n) (h : Printable lib cx .expr e) : Printable lib cx .named (.node (.named n) [e])
  | ref {k P} (hk : FirstKey k) (hP : ∀ c ∈ P, CompText c) : Printable lib cx (.operand false 0) (.node (.ref [] (k :: P)) [])
  | absRef {k P} (hk : KeyChars k) (hP : ∀ c ∈ P, CompText c) : Printable lib cx (.operand false 0) (.node (.ref [] ([] :: k :: P)) [])
  | group {e} (h : Printable lib cx .expr e) : Printable lib cx (.operand false 0) (.node .group [e])
  | list {l} (h : ∀ a ∈ l, Printable lib cx .elem a) : Printable lib cx (.operand false 0) (.node .list l)
  | map {kvs} (hk : ∀ p ∈ kvs, Printable lib cx .expr p.1) (hv : ∀ p ∈ kvs, Printable lib cx .expr p.2) :
      Printable lib cx (.operand false 0) (.node .map (pairArgs kvs))
  | range {a b} (ha : Printable lib cx .expr a) (hb : Printable lib cx .expr b) (hd : (synText lib b).head? ≠ some '.') :
      Printable lib cx (.operand false 0) (.node (.range true true) [a, b])
  | dyn {a l} (ha : Printable lib cx (.operand false 0) a) (hl : ∀ b ∈ l, Printable lib cx .elem b) (hne : l ≠ [])
      (hi : ∀ i, l ≠ [.node (.int i) []]) : Printable lib cx (.operand false 0) (.node .dyn [a, .node .list l])
  | qual {a P} (ha : Printable lib cx .expr a) (hne : P ≠ []) (hP : ∀ c ∈ P, CompText c) : Printable lib cx (.operand false 0) (.node (.qual P) [a])
  | call {curry f ns ps} (hf : Printable lib cx (.operand false 0) f) (hn : ∀ a ∈ ns, Printable lib cx .named a)
      (hp : ∀ a ∈ ps, Printable lib cx .elem a) : Printable lib cx (.operand false 0) (.node (.call curry) (f :: (ns ++ ps)))
  | mapping {op o a l} (hop : MapOp op) (ha : Printable lib cx (.operand o 8) a) (hl : Printable lib cx .lam l) :
      Printable lib cx (.operand false 0) (.node op [a, l])
  | sum {o o' a i l} (ha : Printable lib cx (.operand o 8) a) (hi : Printable lib cx (.operand o' 8) i) (hl : Printable lib cx .lam l) :
      Printable lib cx (.operand false 0) (.node .sum [a, i, l])
  | nil : Printable lib cx (.operand false 1) (.node .nil [])
  | undef : Printable lib cx (.operand false 1) (.node .undef [])
  | bool (b) : Printable lib cx (.operand false 1) (.node (.bool b) [])
  | int {i} (h : -(2^63) ≤ i ∧ i < 2^63) : Printable lib cx (.operand false 1) (.node (.int i) [])
  | str {s} (h : PlainString s) : Printable lib cx (.operand false 1) (.node (.str s) [])
  | auto : Printable lib cx (.operand false 1) (.node (.auto cx.path) [])
  | not {e} (h : Printable lib cx .expr e) : Printable lib cx (.operand false 1) (.node .not [e])
  | subst {e} (h : Printable lib cx .expr e) : Printable lib cx (.operand false 1) (.node .subst [e])
  | lam {ns ds v b} (hn : ∀ n ∈ ns, NameText n) (hdn : ∀ d ∈ ds, NameText d.1) (hd : ∀ d ∈ ds, Printable lib cx .expr d.2)
      (hb : Printable lib cx .expr b) (hv : v = true → ns ≠ [] ∨ ds ≠ []) : Printable lib cx .lam (lambdaSyn ns ds v b)
  | lambda {e} (h : Printable lib cx .lam e) : Printable lib cx (.operand true 1) e
  | lambdaRef {e} (h : Printable lib cx .expr e) (hl : isLambda e = false) :
      Printable lib cx (.operand true 1) (.node (.lambdaRef cx.path cx.stubPath) [e])
  | infix {op o k l r a b} (h : Infix op k l r) (hc : ∀ c, op = .cmp c → c ∈ cmpOps) (ha : Printable lib cx (.operand false l) a)
      (hb : Printable lib cx (.operand o r) b) : Printable lib cx (.operand o k) (.node op [a, b])
  | cond {c t f} (hc : Printable lib cx (.operand false 6) c) (ht : Printable lib cx .expr t) (hf : Printable lib cx .expr f) :
      Printable lib cx (.operand true 7) (.node .cond [c, t, f])
  | scope {kvs e} (hk : ∀ p ∈ kvs, Printable lib cx .expr p.1) (hv : ∀ p ∈ kvs, Printable lib cx .expr p.2) (he : Printable lib cx .expr e) :
      Printable lib cx .expr (.node .scope (pairArgs kvs ++ [e]))
  | merge {n} (hp : cx.path = cx.stubPath) (hn : n = [] ∨ NameText n) :
      Printable lib cx (.operand false 7) (.node (.merge cx.stubPath false false false false n) [])
  | mergeRef {k P replace n} (hk : FirstKey k) (hP : ∀ c ∈ P, CompText c) (hno : k :: P ≠ ["none".toList])
      (ho : (n = [] ∧ (replace = true ∨ MergeKey k)) ∨ (replace = false ∧ NameText n)) :
      Printable lib cx (.operand false 7) (.node (.merge (k :: P) true replace true false n) [])

/-! ### parentheses -/

/-- removing a pair of parentheses -/
def dropGroup : SynOp → List Syn → Syn
  | .group, [e] => e
  | op, args => .node op args

mutual
/-- the expression without parentheses -/
def ungroup : Syn → Syn
  | .node op args => dropGroup op (ungroupAll args)
termination_by structural x => x
def ungroupAll : List Syn → List Syn
  | [] => []
  | e :: r => ungroup e :: ungroupAll r
termination_by structural x => x
end

/-- the operators whose text contains parentheses -/
def SynOp.addsGroup : SynOp → Bool
  | .not => true
  | .subst => true
  | .qual _ => true
  | _ => false

mutual
/-- the expression with parentheses around the operands of `!` and `*` and of paths -/
def regroup : Syn → Syn
  | .node op args => .node op (if op.addsGroup then (regroupAll args).map (fun e => .node .group [e]) else regroupAll args)
termination_by structural x => x
def regroupAll : List Syn → List Syn
  | [] => []
  | e :: r => regroup e :: regroupAll r
termination_by structural x => x
end

end Spiff
