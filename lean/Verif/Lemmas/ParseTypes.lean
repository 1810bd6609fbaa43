import Verif.Lemmas.Peg
import Verif.Spec.Syntax
import Mathlib.Data.List.Forall2
/-
The stack of the tree builder (dynaml/parser.go) is typed: every rule of the grammar finds the elements it pops. The types of the rules
are checked against their right hand sides by computation (`rule_checks`), the actions by the theorem `act_sound`.
-/
namespace Spiff

/-- types of stack elements -/
inductive Ty where
  | e (k : Nat) | lam | range | call | ref | map | pv | lst | expand | dflt | opt | ext | exprs | args | names0 | names1 | names
  | name | op | marker | marked | group | mexpr | prefer
deriving DecidableEq

/-- the level of the expressions of a type -/
def Ty.level : Ty → Option Nat
  | .e k => some k
  | .lam => some 1
  | .range => some 0
  | .call => some 0
  | .ref => some 0
  | .map => some 0
  | .pv => some 0
  | .lst => some 0
  | .group => some 0
  | _ => none

def Ty.le (a b : Ty) : Bool :=
  decide (a = b) || match b with
    | .e k => match a.level with
      | some j => decide (j ≤ k)
      | none => false
    | .opt => match a with
      | .dflt => true
      | _ => match a.level with
        | some j => decide (j ≤ 9)
        | none => false
    | .args => decide (a = .exprs)
    | .names => decide (a = .names0) || decide (a = .names1)
    | _ => false

def Ty.join (a b : Ty) : Ty :=
  if a.le b then b else if b.le a then a else match a.level, b.level with
    | some i, some j => .e (max i j)
    | _, _ => a

def HasTy (t : Ty) (i : StackItem) : Prop :=
  match t with
  | .e k => ∃ x, i = .expr x ∧ Shape k x
  | .lam => ∃ ps v args, i = .expr (.node (.lambda ps v) args) ∧ (∀ a ∈ args, Shape 9 a) ∧ args.length = defaultCount ps + 1
  | .range => ∃ l r args, i = .expr (.node (.range l r) args) ∧ Shape 0 (.node (.range l r) args)
  | .call => ∃ c f args, i = .expr (.node (.call c) (f :: args)) ∧ Shape 0 f ∧ ∀ a ∈ args, Argument a
  | .ref => ∃ tag path, i = .expr (.node (.ref tag path) [])
  | .map => ∃ l, i = .expr (.node .map l) ∧ (∀ a ∈ l, Shape 9 a) ∧ l.length % 2 = 0
  | .pv => i = .expr (.node .projValue [])
  | .lst => ∃ l, i = .expr (.node .list l) ∧ ∀ a ∈ l, Element a
  | .expand => ∃ x, i = .expr (.node .expand [x]) ∧ Shape 9 x
  | .dflt => i = .expr (.node .default [])
  | .opt => ∃ x, i = .expr x ∧ Optional x
  | .ext => ∃ x, i = .ext x ∧ Shape 9 x
  | .exprs => ∃ l, i = .exprs l ∧ ∀ a ∈ l, Element a
  | .args => ∃ l, i = .exprs l ∧ ∀ a ∈ l, Argument a
  | .names0 => ∃ v, i = .names [] v
  | .names1 => ∃ p l v, i = .names (p :: l) v ∧ ∀ q ∈ p :: l, ∀ d, q.2 = some d → Shape 9 d
  | .names => ∃ l v, i = .names l v ∧ ∀ q ∈ l, ∀ d, q.2 = some d → Shape 9 d
  | .name => ∃ n, i = .name n
  | .op => ∃ o, i = .op o
  | .marker => ∃ l, i = .expr (.node (.marker l) [])
  | .marked => ∃ l t x, i = .expr (.node (.marker l) [.node (.markerExpr t) [.node .group [x]]]) ∧ Shape 9 x
  | .group => ∃ x, i = .expr (.node .group [x]) ∧ Shape 9 x
  | .mexpr => ∃ t x, i = .expr (.node (.markerExpr t) [.node .group [x]]) ∧ Shape 9 x
  | .prefer => ∃ x, i = .expr (.node .prefer [x]) ∧ Shape 9 x

theorem hasTy_level {a : Ty} {j k : Nat} (h : a.level = some j) (hk : j ≤ k) {i : StackItem} (hi : HasTy a i) : HasTy (.e k) i := by
  cases a <;> simp only [Ty.level, Option.some.injEq, reduceCtorEq] at h
  case e =>
    obtain ⟨x, rfl, hx⟩ := hi
    exact ⟨x, rfl, .up hx (by omega)⟩
  case lam =>
    obtain ⟨ps, v, args, rfl, hx, hl⟩ := hi
    exact ⟨_, rfl, .up (.lambda hx hl) (by omega)⟩
  case range =>
    obtain ⟨l, r, args, rfl, hx⟩ := hi
    exact ⟨_, rfl, .up hx (by omega)⟩
  case call =>
    obtain ⟨c, f, args, rfl, hf, hx⟩ := hi
    exact ⟨_, rfl, .up (.call hf hx) (by omega)⟩
  case ref =>
    obtain ⟨c, f, rfl⟩ := hi
    exact ⟨_, rfl, .up (.ref _ _) (by omega)⟩
  case map =>
    obtain ⟨l, rfl, hx, hl⟩ := hi
    exact ⟨_, rfl, .up (.map hx hl) (by omega)⟩
  case pv =>
    cases hi
    exact ⟨_, rfl, .up .projValue (by omega)⟩
  case lst =>
    obtain ⟨l, rfl, hx⟩ := hi
    exact ⟨_, rfl, .up (.list hx) (by omega)⟩
  case group =>
    obtain ⟨l, rfl, hx⟩ := hi
    exact ⟨_, rfl, .up (.group hx) (by omega)⟩

theorem hasTy_le {a b : Ty} (h : a.le b = true) {i : StackItem} (hi : HasTy a i) : HasTy b i := by
  unfold Ty.le at h
  rw [Bool.or_eq_true] at h
  rcases h with h | h
  · rw [of_decide_eq_true h] at hi; exact hi
  · cases b <;> simp only [reduceCtorEq, Bool.false_eq_true] at h
    case e k =>
      split at h
      · rename_i j hj
        exact hasTy_level hj (of_decide_eq_true h) hi
      · cases h
    case opt =>
      split at h
      · cases hi; exact ⟨_, rfl, .default⟩
      · split at h
        · rename_i j hj
          obtain ⟨x, rfl, hx⟩ := hasTy_level hj (of_decide_eq_true h) hi
          exact ⟨x, rfl, .expr hx⟩
        · cases h
    case args =>
      rw [of_decide_eq_true h] at hi
      obtain ⟨l, rfl, hl⟩ := hi
      exact ⟨l, rfl, fun a ha => .elem (hl a ha)⟩
    case names =>
      rw [Bool.or_eq_true] at h
      rcases h with h | h
      · rw [of_decide_eq_true h] at hi
        obtain ⟨v, rfl⟩ := hi
        exact ⟨[], v, rfl, by simp⟩
      · rw [of_decide_eq_true h] at hi
        obtain ⟨p, l, v, rfl, hl⟩ := hi
        exact ⟨_, v, rfl, hl⟩

/-- a typed part of the stack -/
abbrev Typed (st : List Ty) (S : List StackItem) : Prop := List.Forall₂ HasTy st S

def stLe : List Ty → List Ty → Bool
  | [], [] => true
  | a :: r, b :: q => a.le b && stLe r q
  | _, _ => false

theorem typed_le {st st' : List Ty} (h : stLe st st' = true) {S : List StackItem} (hs : Typed st S) : Typed st' S := by
  induction hs generalizing st' with
  | nil => cases st' with
    | nil => exact .nil
    | cons => simp [stLe] at h
  | cons h1 _ ih => cases st' with
    | nil => simp [stLe] at h
    | cons b q =>
      simp only [stLe, Bool.and_eq_true] at h
      exact .cons (hasTy_le h.1 h1) (ih h.2)

/-- the remaining stack if the uppermost elements have the given types -/
def popTys : List Ty → List Ty → Option (List Ty)
  | [], st => some st
  | b :: r, a :: st => if a.le b then popTys r st else none
  | _ :: _, [] => none

theorem popTys_typed {ps st st' : List Ty} (h : popTys ps st = some st') {S : List StackItem} (hs : Typed st S) :
    ∃ S1 S2, S = S1 ++ S2 ∧ Typed ps S1 ∧ Typed st' S2 := by
  induction ps generalizing st S with
  | nil =>
    simp only [popTys, Option.some.injEq] at h
    subst h
    exact ⟨[], S, rfl, .nil, hs⟩
  | cons b r ih =>
    cases hs with
    | nil => simp [popTys] at h
    | cons h1 h2 =>
      simp only [popTys] at h
      split at h
      · rename_i hle
        obtain ⟨S1, S2, rfl, t1, t2⟩ := ih h h2
        exact ⟨_ :: S1, S2, rfl, .cons (hasTy_le hle h1) t1, t2⟩
      · cases h

/-- What the token of a rule does: popped types, pushed types; several alternatives. -/
def actTable : Rule → List (List Ty × List Ty)
  | .Marker => [([], [.marker])]
  | .SubsequentMarker => [([.marker, .marker], [.marker])]
  | .MarkerExpression => [([.group], [.mexpr])]
  | .MarkedExpression => [([.marker], [.marker]), ([.mexpr, .marker], [.marked])]
  | .Prefer => [([.e 9], [.prefer])]
  | .Grouped => [([.e 9], [.group])]
  | .Auto => [([], [.e 1])]
  | .SimpleMerge => [([], [.e 1])]
  | .RefMerge => [([.ref], [.e 1])]
  | .On => [([.name], [])]
  | .Reference => [([], [.ref])]
  | .ChainedRef => [([.e 0], [.e 0])]
  | .ChainedDynRef => [([.lst, .e 0], [.e 0])]
  | .TopIndex => [([.lst], [.e 0])]
  | .Slice => [([.range, .e 0], [.e 0])]
  | .Currying => [([.call], [.call])]
  | .ChainedCall => [([.args, .e 0], [.call])]
  | .ProjectionValue => [([], [.pv, .pv])]
  | .Projection => [([.e 0, .pv, .e 0], [.e 0])]
  | .Number => [([], [.e 1])]
  | .Nil => [([], [.e 1])]
  | .Undefined => [([], [.e 1])]
  | .Scoped => [([.e 9, .map], [.e 9])]
  | .CreateMap => [([], [.map])]
  | .CreateScope => [([], [.map])]
  | .Assignment => [([.e 9, .e 9, .map], [.map])]
  | .Boolean => [([], [.e 1])]
  | .String => [([], [.e 1])]
  | .IP => [([], [.e 1])]
  | .Substitution => [([.e 1], [.e 1])]
  | .Conditional => [([.e 9, .e 9, .e 6], [.e 7])]
  | .LogOr => [([.e 4, .e 5], [.e 5])]
  | .LogAnd => [([.e 4, .e 5], [.e 5])]
  | .Or => [([.e 7, .op, .e 8], [.e 8])]
  | .OrOp => [([], [.op])]
  | .Not => [([.e 1], [.e 1])]
  | .CompareOp => [([], [.op])]
  | .Comparison => [([.e 3, .op, .e 4], [.e 4])]
  | .Concatenation => [([.e 5, .e 6], [.e 6])]
  | .Addition => [([.e 2, .e 3], [.e 3])]
  | .Subtraction => [([.e 2, .e 3], [.e 3])]
  | .Multiplication => [([.e 1, .e 2], [.e 2])]
  | .Division => [([.e 1, .e 2], [.e 2])]
  | .Modulo => [([.e 1, .e 2], [.e 2])]
  | .Symbol => [([.name], [.e 1])]
  | .StartParams => [([], [.names0])]
  | .Name => [([], [.name])]
  | .NextName => [([.name, .names], [.names1])]
  | .DefaultValue => [([.e 9, .names1], [.names1])]
  | .VarParams => [([.names1], [.names1])]
  | .Default => [([], [.dflt])]
  | .LambdaExt => [([.e 9], [.ext])]
  | .Sync => [([.opt, .opt, .e 9, .e 8], [.e 0]), ([.opt, .ext, .lam, .e 8], [.e 0])]
  | .Catch => [([.e 9, .e 8], [.e 0])]
  | .Mapping => [([.e 9, .e 8], [.e 0])]
  | .FilterList => [([.e 9, .e 8], [.e 0])]
  | .FilterMap => [([.e 9, .e 8], [.e 0])]
  | .Selection => [([.e 9, .e 8], [.e 0])]
  | .MapMapping => [([.e 9, .e 8], [.e 0])]
  | .MapSelection => [([.e 9, .e 8], [.e 0])]
  | .Sum => [([.e 9, .e 8, .e 8], [.e 0])]
  | .LambdaExpr => [([.e 9, .names], [.lam])]
  | .LambdaRef => [([.e 9], [.e 1])]
  | .StartRange => [([], [.op])]
  | .RangeOp => [([], [.op])]
  | .Range => [([.op, .op], [.range]), ([.op, .e 9, .op], [.range]), ([.e 9, .op, .op], [.range]), ([.e 9, .op, .e 9, .op], [.range])]
  | .List => [([.exprs], [.lst])]
  | .Indices => [([.exprs], [.lst])]
  | .NextNameArgument => [([.e 9, .name, .args], [.args])]
  | .NextExpression => [([.e 9, .exprs], [.exprs]), ([.expand, .exprs], [.exprs]), ([.e 9, .args], [.args]), ([.expand, .args], [.args])]
  | .ListExpansion => [([.e 9], [.expand])]
  | .StartList => [([], [.exprs])]
  | .StartArguments => [([], [.exprs])]
  | _ => [([], [])]

/-- A literal that cannot be converted: the reasons for an error or a crash. -/
def BadNumber (lib : PLib) (t : Tok Rule) : Prop := t.rule = .Number ∧ buildNumber lib t.text = none
def BadString (t : Tok Rule) : Prop := t.rule = .String ∧ jsonString t.text = none

/-- outcome of running tokens on a stack whose upper part was `S` and whose lower part is `F` -/
def BuildOutcome (lib : PLib) (toks : List (Tok Rule)) (outs : List (List Ty)) (F : List StackItem) : Built PState → Prop
  | .ok s => ∃ o ∈ outs, ∃ S, Typed o S ∧ s.stack = S ++ F
  | .err => ∃ t ∈ toks, BadString t
  | .crash => ∃ t ∈ toks, BadNumber lib t

theorem typed0 {S : List StackItem} (h : Typed [] S) : S = [] := by cases h; rfl
theorem typed1 {a : Ty} {S : List StackItem} (h : Typed [a] S) : ∃ i, S = [i] ∧ HasTy a i := by
  cases h with | cons h t => cases t; exact ⟨_, rfl, h⟩
theorem typed2 {a b : Ty} {S : List StackItem} (h : Typed [a, b] S) : ∃ i j, S = [i, j] ∧ HasTy a i ∧ HasTy b j := by
  cases h with | cons h t => obtain ⟨j, rfl, hj⟩ := typed1 t; exact ⟨_, j, rfl, h, hj⟩
theorem typed3 {a b c : Ty} {S : List StackItem} (h : Typed [a, b, c] S) :
    ∃ i j k, S = [i, j, k] ∧ HasTy a i ∧ HasTy b j ∧ HasTy c k := by
  cases h with | cons h t => obtain ⟨j, k, rfl, hj, hk⟩ := typed2 t; exact ⟨_, j, k, rfl, h, hj, hk⟩
theorem typed4 {a b c d : Ty} {S : List StackItem} (h : Typed [a, b, c, d] S) :
    ∃ i j k l, S = [i, j, k, l] ∧ HasTy a i ∧ HasTy b j ∧ HasTy c k ∧ HasTy d l := by
  cases h with | cons h t => obtain ⟨j, k, l, rfl, hj, hk, hl⟩ := typed3 t; exact ⟨_, j, k, l, rfl, h, hj, hk, hl⟩

section act
variable {lib : PLib} {cx : PCtx} {s : PState} {t : Tok Rule} {F : List StackItem}

/-- the result is one element -/
theorem out1 {b : Ty} {s' : PState} {i : StackItem} {toks : List (Tok Rule)} (hs : s'.stack = i :: F) (hi : HasTy b i) :
    BuildOutcome lib toks [[b]] F (.ok s') := ⟨[b], by simp, [i], .cons hi .nil, hs⟩

theorem outPush {b : Ty} {x : Syn} {toks : List (Tok Rule)} (hi : HasTy b (.expr x)) :
    BuildOutcome lib toks [[b]] F (s.push F x) := out1 rfl hi

theorem leaf_out {x : Syn} (hs : s.stack = F) (hx : Shape 1 x) : BuildOutcome lib [t] [[.e 1]] F (s.push s.stack x) := by
  rw [hs]; exact outPush ⟨_, rfl, hx⟩

theorem unary_out {a b : Ty} {S : List StackItem} (hS : Typed [a] S) (hs : s.stack = S ++ F) {f : Syn → Syn}
    (hf : ∀ i, HasTy a i → ∃ x, i = .expr x ∧ HasTy b (.expr (f x))) : BuildOutcome lib [t] [[b]] F (unaryStep s f) := by
  obtain ⟨i, rfl, hi⟩ := typed1 hS
  obtain ⟨x, rfl, hx⟩ := hf i hi
  unfold unaryStep
  rw [hs]
  exact outPush hx

theorem binary_out {a b c : Ty} {S : List StackItem} (hS : Typed [b, a] S) (hs : s.stack = S ++ F) {f : Syn → Syn → Syn}
    (hf : ∀ i j, HasTy a i → HasTy b j → ∃ x y, i = .expr x ∧ j = .expr y ∧ HasTy c (.expr (f x y))) :
    BuildOutcome lib [t] [[c]] F (binaryStep s f) := by
  obtain ⟨j, i, rfl, hj, hi⟩ := typed2 hS
  obtain ⟨x, y, rfl, rfl, hx⟩ := hf i j hi hj
  unfold binaryStep
  rw [hs]
  exact outPush hx

theorem infix_out {op : SynOp} {k l r : Nat} (h : Infix op k l r) {S : List StackItem} (hS : Typed [.e r, .e l] S)
    (hs : s.stack = S ++ F) : BuildOutcome lib [t] [[.e k]] F (binaryStep s (fun a b => .node op [a, b])) :=
  binary_out hS hs (by
    rintro i j ⟨x, rfl, hx⟩ ⟨y, rfl, hy⟩
    exact ⟨x, y, rfl, rfl, _, rfl, .infix h hx hy⟩)

theorem op_out {k l r : Nat} {S : List StackItem} (hS : Typed [.e r, .op, .e l] S) (hs : s.stack = S ++ F) {f : Txt → Syn → Syn → Syn}
    (hf : ∀ o x y, Shape l x → Shape r y → Shape k (f o x y)) : BuildOutcome lib [t] [[.e k]] F (opStep s f) := by
  obtain ⟨i, j, m, rfl, ⟨y, rfl, hy⟩, ⟨o, rfl⟩, ⟨x, rfl, hx⟩⟩ := typed3 hS
  unfold opStep
  rw [hs]
  exact outPush ⟨_, rfl, hf o x y hx hy⟩

theorem mapping_out {kind : Txt} {curly : Bool} {S : List StackItem} (hS : Typed [.e 9, .e 8] S) (hs : s.stack = S ++ F) :
    BuildOutcome lib [t] [[.e 0]] F (binaryStep s (fun a l => .node (.mapping kind curly) [a, l])) :=
  binary_out hS hs (by
    rintro i j ⟨x, rfl, hx⟩ ⟨y, rfl, hy⟩
    exact ⟨x, y, rfl, rfl, _, rfl, .mapping hx hy⟩)

theorem list_out {S : List StackItem} (hS : Typed [.exprs] S) (hs : s.stack = S ++ F) : BuildOutcome lib [t] [[.lst]] F (listStep s) := by
  obtain ⟨i, rfl, l, rfl, hl⟩ := typed1 hS
  unfold listStep
  rw [hs]
  exact outPush ⟨l, rfl, hl⟩

theorem callArgs_mem {args : List Syn} {a : Syn} (h : a ∈ callArgs args) : a ∈ args := by
  unfold callArgs at h
  rw [List.mem_append] at h
  rcases h with h | h <;> exact (List.mem_filter.mp h).1

theorem setLast_shape {p : Txt × Option Syn} {l : List (Txt × Option Syn)} {d : Syn}
    (h : ∀ q ∈ p :: l, ∀ x, q.2 = some x → Shape 9 x) (hd : Shape 9 d) :
    ∃ p' l', setLastDefault (p :: l) d = p' :: l' ∧ ∀ q ∈ p' :: l', ∀ x, q.2 = some x → Shape 9 x := by
  have e : setLastDefault (p :: l) d = (p :: l).dropLast ++ [(((p :: l).getLast (by simp)).1, some d)] := by
    unfold setLastDefault
    rw [List.getLast?_eq_some_getLast (by simp)]
  have hall : ∀ q ∈ (p :: l).dropLast ++ [(((p :: l).getLast (by simp)).1, some d)], ∀ x, q.2 = some x → Shape 9 x := by
    intro q hq x hx
    rw [List.mem_append] at hq
    rcases hq with hq | hq
    · exact h q (List.dropLast_subset _ hq) x hx
    · simp only [List.mem_singleton] at hq
      subst hq
      simp only [Option.some.injEq] at hx
      subst hx; exact hd
  rw [e]
  cases hc : (p :: l).dropLast ++ [(((p :: l).getLast (by simp)).1, some d)] with
  | nil => simp at hc
  | cons p' l' => exact ⟨p', l', rfl, by rw [← hc]; exact hall⟩

theorem mkLambda_lam {l : List (Txt × Option Syn)} (v : Bool) {x : Syn} (hl : ∀ q ∈ l, ∀ d, q.2 = some d → Shape 9 d)
    (hx : Shape 9 x) : HasTy .lam (.expr (mkLambda l v x)) := by
  refine ⟨_, _, _, rfl, ?_, ?_⟩
  · intro a ha
    rw [List.mem_append, List.mem_filterMap] at ha
    rcases ha with ⟨q, hq, hqa⟩ | ha
    · exact hl q hq a hqa
    · simp only [List.mem_singleton] at ha
      subst ha; exact hx
  · simp only [List.length_append, List.length_cons, List.length_nil, Nat.add_right_cancel_iff, defaultCount]
    clear hl
    induction l with
    | nil => rfl
    | cons q r ih =>
      cases h : q.2 <;> simp [h, ih]

theorem buildNumber_shape {txt : Txt} {e : Syn} (h : buildNumber lib txt = some e) : Shape 1 e := by
  unfold buildNumber at h
  simp only at h
  split at h
  · split at h
    · simp only [Option.some.injEq] at h; subst h; exact .literal (.float _)
    · cases h
  · split at h
    · simp only [Option.some.injEq] at h; subst h; exact .literal (.int _)
    · cases h

theorem elements_snoc {l : List Syn} {x : Syn} {P : Syn → Prop} (h : ∀ a ∈ l, P a) (hx : P x) : ∀ a ∈ l ++ [x], P a := by
  intro a ha
  rw [List.mem_append, List.mem_singleton] at ha
  rcases ha with ha | rfl
  · exact h a ha
  · exact hx

theorem lambda_level {k : Nat} {x : Syn} (h : Shape k x) (hl : isLambda x = true) : Shape 1 x := by
  refine Shape.rec (motive_1 := fun _ x _ => isLambda x = true → Shape 1 x) (motive_2 := fun _ _ => True) (motive_3 := fun _ _ => True)
    (motive_4 := fun _ _ => True) ?_ ?_ ?_ ?_ ?_ ?_ ?_ ?_ ?_ ?_ ?_ ?_ ?_ ?_ ?_ ?_ ?_ ?_ ?_ ?_ ?_ ?_ ?_ ?_ ?_ ?_ ?_ ?_ ?_ ?_ h hl
  all_goals first
    | (intros; trivial)
    | (intros; rename_i h; simp [isLambda] at h; done)
    | skip
  · intro k j e _ _ ih hl; exact ih hl
  · intro op h hl; cases h <;> simp [isLambda] at hl
  · intro ps v args h hl _ _; exact .lambda h hl
  · intro op k l r a b h _ _ _ _ hl; cases h <;> simp [isLambda] at hl

/-- Every token does what the table says. -/
theorem act_sound {pops pushes : List Ty} (h : (pops, pushes) ∈ actTable t.rule) {S : List StackItem} (hS : Typed pops S)
    (hs : s.stack = S ++ F) : BuildOutcome lib [t] [pushes] F (buildStep lib cx s t) := by
  obtain ⟨rule, text⟩ := t
  cases rule
  all_goals first
    | (simp only [actTable, List.mem_cons, Prod.mk.injEq, List.not_mem_nil, or_false] at h
       obtain ⟨rfl, rfl⟩ := h
       have := typed0 hS; subst this
       exact ⟨[], by simp, [], .nil, hs⟩)
    | skip
  case Marker =>
    simp only [actTable, List.mem_cons, Prod.mk.injEq, List.not_mem_nil, or_false] at h
    obtain ⟨rfl, rfl⟩ := h
    have := typed0 hS; subst this
    simp only [List.nil_append] at hs
    rw [← hs]; exact outPush ⟨_, rfl⟩
  case SubsequentMarker =>
    simp only [actTable, List.mem_cons, Prod.mk.injEq, List.not_mem_nil, or_false] at h
    obtain ⟨rfl, rfl⟩ := h
    obtain ⟨i, j, rfl, ⟨l1, rfl⟩, ⟨l2, rfl⟩⟩ := typed2 hS
    simp only [buildStep, hs, List.cons_append]
    exact outPush ⟨_, rfl⟩
  case MarkerExpression =>
    simp only [actTable, List.mem_cons, Prod.mk.injEq, List.not_mem_nil, or_false] at h
    obtain ⟨rfl, rfl⟩ := h
    exact unary_out hS hs (by rintro i ⟨x, rfl, hx⟩; exact ⟨_, rfl, text, x, rfl, hx⟩)
  case MarkedExpression =>
    simp only [actTable, List.mem_cons, Prod.mk.injEq, List.not_mem_nil, or_false] at h
    obtain ⟨rfl, rfl⟩ | ⟨rfl, rfl⟩ := h
    · obtain ⟨i, rfl, ⟨l1, rfl⟩⟩ := typed1 hS
      simp only [buildStep, hs, List.cons_append]
      exact out1 hs ⟨_, rfl⟩
    · obtain ⟨i, j, rfl, ⟨u, x, rfl, hx⟩, ⟨l2, rfl⟩⟩ := typed2 hS
      simp only [buildStep, hs, List.cons_append]
      exact outPush ⟨_, _, _, rfl, hx⟩
  case Prefer =>
    simp only [actTable, List.mem_cons, Prod.mk.injEq, List.not_mem_nil, or_false] at h
    obtain ⟨rfl, rfl⟩ := h
    exact unary_out hS hs (by rintro i ⟨x, rfl, hx⟩; exact ⟨x, rfl, x, rfl, hx⟩)
  case Grouped =>
    simp only [actTable, List.mem_cons, Prod.mk.injEq, List.not_mem_nil, or_false] at h
    obtain ⟨rfl, rfl⟩ := h
    exact unary_out hS hs (by rintro i ⟨x, rfl, hx⟩; exact ⟨x, rfl, x, rfl, hx⟩)
  case Auto =>
    simp only [actTable, List.mem_cons, Prod.mk.injEq, List.not_mem_nil, or_false] at h
    obtain ⟨rfl, rfl⟩ := h
    have := typed0 hS; subst this
    simp only [List.nil_append] at hs
    exact leaf_out hs (.literal (.auto _))
  case SimpleMerge =>
    simp only [actTable, List.mem_cons, Prod.mk.injEq, List.not_mem_nil, or_false] at h
    obtain ⟨rfl, rfl⟩ := h
    have := typed0 hS; subst this
    simp only [List.nil_append] at hs
    exact leaf_out hs (.literal (.merge _ _ _ _ _ _))
  case Nil =>
    simp only [actTable, List.mem_cons, Prod.mk.injEq, List.not_mem_nil, or_false] at h
    obtain ⟨rfl, rfl⟩ := h
    have := typed0 hS; subst this
    simp only [List.nil_append] at hs
    exact leaf_out hs (.literal .nil)
  case Undefined =>
    simp only [actTable, List.mem_cons, Prod.mk.injEq, List.not_mem_nil, or_false] at h
    obtain ⟨rfl, rfl⟩ := h
    have := typed0 hS; subst this
    simp only [List.nil_append] at hs
    exact leaf_out hs (.literal .undef)
  case Boolean =>
    simp only [actTable, List.mem_cons, Prod.mk.injEq, List.not_mem_nil, or_false] at h
    obtain ⟨rfl, rfl⟩ := h
    have := typed0 hS; subst this
    simp only [List.nil_append] at hs
    exact leaf_out hs (.literal (.bool _))
  case IP =>
    simp only [actTable, List.mem_cons, Prod.mk.injEq, List.not_mem_nil, or_false] at h
    obtain ⟨rfl, rfl⟩ := h
    have := typed0 hS; subst this
    simp only [List.nil_append] at hs
    exact leaf_out hs (.literal (.str _))
  case RefMerge =>
    simp only [actTable, List.mem_cons, Prod.mk.injEq, List.not_mem_nil, or_false] at h
    obtain ⟨rfl, rfl⟩ := h
    obtain ⟨i, rfl, ⟨tag, path, rfl⟩⟩ := typed1 hS
    simp only [buildStep, hs, List.cons_append]
    refine outPush ⟨_, rfl, ?_⟩
    unfold refMerge
    split <;> exact .literal (.merge _ _ _ _ _ _)
  case On =>
    simp only [actTable, List.mem_cons, Prod.mk.injEq, List.not_mem_nil, or_false] at h
    obtain ⟨rfl, rfl⟩ := h
    obtain ⟨i, rfl, ⟨n, rfl⟩⟩ := typed1 hS
    simp only [buildStep, hs, List.cons_append]
    exact ⟨[], by simp, [], .nil, rfl⟩
  case Reference =>
    simp only [actTable, List.mem_cons, Prod.mk.injEq, List.not_mem_nil, or_false] at h
    obtain ⟨rfl, rfl⟩ := h
    have := typed0 hS; subst this
    simp only [List.nil_append] at hs
    rw [← hs]
    refine outPush ?_
    unfold buildRef
    split
    · split <;> exact ⟨_, _, rfl⟩
    · exact ⟨_, _, rfl⟩
  case ChainedRef =>
    simp only [actTable, List.mem_cons, Prod.mk.injEq, List.not_mem_nil, or_false] at h
    obtain ⟨rfl, rfl⟩ := h
    exact unary_out hS hs (by rintro i ⟨x, rfl, hx⟩; exact ⟨x, rfl, _, rfl, .qual hx⟩)
  case ChainedDynRef =>
    simp only [actTable, List.mem_cons, Prod.mk.injEq, List.not_mem_nil, or_false] at h
    obtain ⟨rfl, rfl⟩ := h
    exact binary_out hS hs (by rintro i j ⟨x, rfl, hx⟩ ⟨l, rfl, hl⟩; exact ⟨_, _, rfl, rfl, _, rfl, .dyn hx hl⟩)
  case TopIndex =>
    simp only [actTable, List.mem_cons, Prod.mk.injEq, List.not_mem_nil, or_false] at h
    obtain ⟨rfl, rfl⟩ := h
    exact unary_out hS hs (by rintro i ⟨x, rfl, hx⟩; exact ⟨_, rfl, _, rfl, .dyn (.ref _ _) hx⟩)
  case Slice =>
    simp only [actTable, List.mem_cons, Prod.mk.injEq, List.not_mem_nil, or_false] at h
    obtain ⟨rfl, rfl⟩ := h
    obtain ⟨i, j, rfl, ⟨l, r, args, rfl, hr⟩, ⟨x, rfl, hx⟩⟩ := typed2 hS
    simp only [buildStep, hs, List.cons_append]
    exact outPush ⟨_, rfl, .slice hx hr⟩
  case Currying =>
    simp only [actTable, List.mem_cons, Prod.mk.injEq, List.not_mem_nil, or_false] at h
    obtain ⟨rfl, rfl⟩ := h
    obtain ⟨i, rfl, ⟨c, f, args, rfl, hf, ha⟩⟩ := typed1 hS
    simp only [buildStep, hs, List.cons_append]
    exact outPush ⟨_, f, args, rfl, hf, ha⟩
  case ChainedCall =>
    simp only [actTable, List.mem_cons, Prod.mk.injEq, List.not_mem_nil, or_false] at h
    obtain ⟨rfl, rfl⟩ := h
    obtain ⟨i, j, rfl, ⟨l, rfl, hl⟩, ⟨x, rfl, hx⟩⟩ := typed2 hS
    simp only [buildStep, hs, List.cons_append]
    exact outPush ⟨_, x, _, rfl, hx, fun a ha => hl a (callArgs_mem ha)⟩
  case ProjectionValue =>
    simp only [actTable, List.mem_cons, Prod.mk.injEq, List.not_mem_nil, or_false] at h
    obtain ⟨rfl, rfl⟩ := h
    have := typed0 hS; subst this
    simp only [List.nil_append] at hs
    exact ⟨[.pv, .pv], by simp, [.expr (.node .projValue []), .expr (.node .projValue [])], .cons rfl (.cons rfl .nil), by rw [← hs]; rfl⟩
  case Projection =>
    simp only [actTable, List.mem_cons, Prod.mk.injEq, List.not_mem_nil, or_false] at h
    obtain ⟨rfl, rfl⟩ := h
    obtain ⟨i, j, k, rfl, ⟨q, rfl, hq⟩, rfl, ⟨x, rfl, hx⟩⟩ := typed3 hS
    simp only [buildStep, hs, List.cons_append]
    exact outPush ⟨_, rfl, .projection hx hq⟩
  case Number =>
    simp only [actTable, List.mem_cons, Prod.mk.injEq, List.not_mem_nil, or_false] at h
    obtain ⟨rfl, rfl⟩ := h
    have := typed0 hS; subst this
    simp only [List.nil_append] at hs
    simp only [buildStep]
    cases hn : buildNumber lib text with
    | none => exact ⟨_, List.mem_singleton.mpr rfl, rfl, hn⟩
    | some e => exact leaf_out hs (buildNumber_shape hn)
  case String =>
    simp only [actTable, List.mem_cons, Prod.mk.injEq, List.not_mem_nil, or_false] at h
    obtain ⟨rfl, rfl⟩ := h
    have := typed0 hS; subst this
    simp only [List.nil_append] at hs
    simp only [buildStep]
    cases hn : jsonString text with
    | none => exact ⟨_, List.mem_singleton.mpr rfl, rfl, hn⟩
    | some e => exact leaf_out hs (.literal (.str _))
  case Scoped =>
    simp only [actTable, List.mem_cons, Prod.mk.injEq, List.not_mem_nil, or_false] at h
    obtain ⟨rfl, rfl⟩ := h
    obtain ⟨i, j, rfl, ⟨x, rfl, hx⟩, ⟨l, rfl, hl, hlen⟩⟩ := typed2 hS
    simp only [buildStep, hs, List.cons_append]
    exact outPush ⟨_, rfl, .scope (elements_snoc hl hx) (by simp; omega)⟩
  case CreateMap =>
    simp only [actTable, List.mem_cons, Prod.mk.injEq, List.not_mem_nil, or_false] at h
    obtain ⟨rfl, rfl⟩ := h
    have := typed0 hS; subst this
    simp only [List.nil_append] at hs
    rw [← hs]; exact outPush ⟨_, rfl, by simp, rfl⟩
  case CreateScope =>
    simp only [actTable, List.mem_cons, Prod.mk.injEq, List.not_mem_nil, or_false] at h
    obtain ⟨rfl, rfl⟩ := h
    have := typed0 hS; subst this
    simp only [List.nil_append] at hs
    rw [← hs]; exact outPush ⟨_, rfl, by simp, rfl⟩
  case Assignment =>
    simp only [actTable, List.mem_cons, Prod.mk.injEq, List.not_mem_nil, or_false] at h
    obtain ⟨rfl, rfl⟩ := h
    obtain ⟨i, j, k, rfl, ⟨y, rfl, hy⟩, ⟨x, rfl, hx⟩, ⟨l, rfl, hl, hlen⟩⟩ := typed3 hS
    simp only [buildStep, hs, List.cons_append]
    refine outPush ⟨_, rfl, ?_, by simp; omega⟩
    have := elements_snoc (elements_snoc hl hx) hy
    simpa using this
  case Substitution =>
    simp only [actTable, List.mem_cons, Prod.mk.injEq, List.not_mem_nil, or_false] at h
    obtain ⟨rfl, rfl⟩ := h
    exact unary_out hS hs (by rintro i ⟨x, rfl, hx⟩; exact ⟨x, rfl, _, rfl, .subst hx⟩)
  case Not =>
    simp only [actTable, List.mem_cons, Prod.mk.injEq, List.not_mem_nil, or_false] at h
    obtain ⟨rfl, rfl⟩ := h
    exact unary_out hS hs (by rintro i ⟨x, rfl, hx⟩; exact ⟨x, rfl, _, rfl, .not hx⟩)
  case Conditional =>
    simp only [actTable, List.mem_cons, Prod.mk.injEq, List.not_mem_nil, or_false] at h
    obtain ⟨rfl, rfl⟩ := h
    obtain ⟨i, j, k, rfl, ⟨z, rfl, hz⟩, ⟨y, rfl, hy⟩, ⟨x, rfl, hx⟩⟩ := typed3 hS
    simp only [buildStep, hs, List.cons_append]
    exact outPush ⟨_, rfl, .cond hx hy hz⟩
  case LogOr =>
    simp only [actTable, List.mem_cons, Prod.mk.injEq, List.not_mem_nil, or_false] at h
    obtain ⟨rfl, rfl⟩ := h
    exact infix_out .logOr hS hs
  case LogAnd =>
    simp only [actTable, List.mem_cons, Prod.mk.injEq, List.not_mem_nil, or_false] at h
    obtain ⟨rfl, rfl⟩ := h
    exact infix_out .logAnd hS hs
  case Concatenation =>
    simp only [actTable, List.mem_cons, Prod.mk.injEq, List.not_mem_nil, or_false] at h
    obtain ⟨rfl, rfl⟩ := h
    exact infix_out .concat hS hs
  case Addition =>
    simp only [actTable, List.mem_cons, Prod.mk.injEq, List.not_mem_nil, or_false] at h
    obtain ⟨rfl, rfl⟩ := h
    exact infix_out .add hS hs
  case Subtraction =>
    simp only [actTable, List.mem_cons, Prod.mk.injEq, List.not_mem_nil, or_false] at h
    obtain ⟨rfl, rfl⟩ := h
    exact infix_out .sub hS hs
  case Multiplication =>
    simp only [actTable, List.mem_cons, Prod.mk.injEq, List.not_mem_nil, or_false] at h
    obtain ⟨rfl, rfl⟩ := h
    exact infix_out .mul hS hs
  case Division =>
    simp only [actTable, List.mem_cons, Prod.mk.injEq, List.not_mem_nil, or_false] at h
    obtain ⟨rfl, rfl⟩ := h
    exact infix_out .div hS hs
  case Modulo =>
    simp only [actTable, List.mem_cons, Prod.mk.injEq, List.not_mem_nil, or_false] at h
    obtain ⟨rfl, rfl⟩ := h
    exact infix_out .mod hS hs
  case Or =>
    simp only [actTable, List.mem_cons, Prod.mk.injEq, List.not_mem_nil, or_false] at h
    obtain ⟨rfl, rfl⟩ := h
    refine op_out hS hs (fun o x y hx hy => ?_)
    split
    · exact .infix .or hx hy
    · exact .infix .validOr hx hy
  case Comparison =>
    simp only [actTable, List.mem_cons, Prod.mk.injEq, List.not_mem_nil, or_false] at h
    obtain ⟨rfl, rfl⟩ := h
    exact op_out hS hs (fun o x y hx hy => .infix (.cmp o) hx hy)
  case OrOp =>
    simp only [actTable, List.mem_cons, Prod.mk.injEq, List.not_mem_nil, or_false] at h
    obtain ⟨rfl, rfl⟩ := h
    have := typed0 hS; subst this
    simp only [List.nil_append] at hs
    exact out1 (i := .op _) (by rw [← hs]) ⟨_, rfl⟩
  case CompareOp =>
    simp only [actTable, List.mem_cons, Prod.mk.injEq, List.not_mem_nil, or_false] at h
    obtain ⟨rfl, rfl⟩ := h
    have := typed0 hS; subst this
    simp only [List.nil_append] at hs
    exact out1 (i := .op _) (by rw [← hs]) ⟨_, rfl⟩
  case StartRange =>
    simp only [actTable, List.mem_cons, Prod.mk.injEq, List.not_mem_nil, or_false] at h
    obtain ⟨rfl, rfl⟩ := h
    have := typed0 hS; subst this
    simp only [List.nil_append] at hs
    exact out1 (i := .op _) (by rw [← hs]) ⟨_, rfl⟩
  case RangeOp =>
    simp only [actTable, List.mem_cons, Prod.mk.injEq, List.not_mem_nil, or_false] at h
    obtain ⟨rfl, rfl⟩ := h
    have := typed0 hS; subst this
    simp only [List.nil_append] at hs
    exact out1 (i := .op _) (by rw [← hs]) ⟨_, rfl⟩
  case Symbol =>
    simp only [actTable, List.mem_cons, Prod.mk.injEq, List.not_mem_nil, or_false] at h
    obtain ⟨rfl, rfl⟩ := h
    obtain ⟨i, rfl, ⟨n, rfl⟩⟩ := typed1 hS
    simp only [buildStep, hs, List.cons_append]
    exact outPush ⟨_, rfl, .literal (.str _)⟩
  case StartParams =>
    simp only [actTable, List.mem_cons, Prod.mk.injEq, List.not_mem_nil, or_false] at h
    obtain ⟨rfl, rfl⟩ := h
    have := typed0 hS; subst this
    simp only [List.nil_append] at hs
    exact out1 (i := .names _ _) (by rw [← hs]) ⟨_, rfl⟩
  case Name =>
    simp only [actTable, List.mem_cons, Prod.mk.injEq, List.not_mem_nil, or_false] at h
    obtain ⟨rfl, rfl⟩ := h
    have := typed0 hS; subst this
    simp only [List.nil_append] at hs
    exact out1 (i := .name _) (by rw [← hs]) ⟨_, rfl⟩
  case NextName =>
    simp only [actTable, List.mem_cons, Prod.mk.injEq, List.not_mem_nil, or_false] at h
    obtain ⟨rfl, rfl⟩ := h
    obtain ⟨i, j, rfl, ⟨n, rfl⟩, ⟨l, v, rfl, hl⟩⟩ := typed2 hS
    simp only [buildStep, hs, List.cons_append]
    refine out1 (i := .names (l ++ [(n, none)]) v) rfl ?_
    have hall : ∀ q ∈ l ++ [(n, none)], ∀ d, q.2 = some d → Shape 9 d := by
      intro q hq d hd
      rw [List.mem_append, List.mem_singleton] at hq
      rcases hq with hq | rfl
      · exact hl q hq d hd
      · cases hd
    cases hc : l ++ [(n, none)] with
    | nil => simp at hc
    | cons p r => exact ⟨p, r, v, rfl, by rw [← hc]; exact hall⟩
  case DefaultValue =>
    simp only [actTable, List.mem_cons, Prod.mk.injEq, List.not_mem_nil, or_false] at h
    obtain ⟨rfl, rfl⟩ := h
    obtain ⟨i, j, rfl, ⟨d, rfl, hd⟩, ⟨p, l, v, rfl, hl⟩⟩ := typed2 hS
    simp only [buildStep, hs, List.cons_append]
    refine out1 (i := .names (setLastDefault (p :: l) d) v) rfl ?_
    obtain ⟨p', l', he, hall⟩ := setLast_shape hl hd
    rw [he]
    exact ⟨p', l', v, rfl, hall⟩
  case VarParams =>
    simp only [actTable, List.mem_cons, Prod.mk.injEq, List.not_mem_nil, or_false] at h
    obtain ⟨rfl, rfl⟩ := h
    obtain ⟨i, rfl, ⟨p, l, v, rfl, hl⟩⟩ := typed1 hS
    simp only [buildStep, hs, List.cons_append]
    exact out1 (i := .names (p :: l) true) rfl ⟨p, l, true, rfl, hl⟩
  case Default =>
    simp only [actTable, List.mem_cons, Prod.mk.injEq, List.not_mem_nil, or_false] at h
    obtain ⟨rfl, rfl⟩ := h
    have := typed0 hS; subst this
    simp only [List.nil_append] at hs
    rw [← hs]; exact outPush rfl
  case LambdaExt =>
    simp only [actTable, List.mem_cons, Prod.mk.injEq, List.not_mem_nil, or_false] at h
    obtain ⟨rfl, rfl⟩ := h
    obtain ⟨i, rfl, ⟨x, rfl, hx⟩⟩ := typed1 hS
    simp only [buildStep, hs, List.cons_append]
    exact out1 (i := .ext x) rfl ⟨x, rfl, hx⟩
  case Sync =>
    simp only [actTable, List.mem_cons, Prod.mk.injEq, List.not_mem_nil, or_false] at h
    obtain ⟨rfl, rfl⟩ | ⟨rfl, rfl⟩ := h
    · obtain ⟨i, j, k, l, rfl, ⟨y, rfl, hy⟩, ⟨v, rfl, hv⟩, ⟨c, rfl, hc⟩, ⟨x, rfl, hx⟩⟩ := typed4 hS
      simp only [buildStep, syncStep', hs, List.cons_append]
      exact outPush ⟨_, rfl, .sync hx hc hv hy⟩
    · obtain ⟨i, j, k, l, rfl, ⟨y, rfl, hy⟩, ⟨v, rfl, hv⟩, ⟨ps, va, args, rfl, ha, hl⟩, ⟨x, rfl, hx⟩⟩ := typed4 hS
      simp only [buildStep, syncStep', hs, List.cons_append, lambdaLike]
      refine outPush ⟨_, rfl, .sync hx (.up (.lambda ha hl) (by omega)) (.expr (.up (.lambda ?_ ?_) (by omega : 1 ≤ 9))) hy⟩
      · exact elements_snoc (fun a h => ha a (List.dropLast_subset _ h)) hv
      · simp; omega
  case Catch =>
    simp only [actTable, List.mem_cons, Prod.mk.injEq, List.not_mem_nil, or_false] at h
    obtain ⟨rfl, rfl⟩ := h
    exact binary_out hS hs (by
      rintro i j ⟨x, rfl, hx⟩ ⟨y, rfl, hy⟩
      exact ⟨x, y, rfl, rfl, _, rfl, .catch hx hy⟩)
  case Mapping =>
    simp only [actTable, List.mem_cons, Prod.mk.injEq, List.not_mem_nil, or_false] at h
    obtain ⟨rfl, rfl⟩ := h
    exact mapping_out hS hs
  case FilterList =>
    simp only [actTable, List.mem_cons, Prod.mk.injEq, List.not_mem_nil, or_false] at h
    obtain ⟨rfl, rfl⟩ := h
    exact mapping_out hS hs
  case FilterMap =>
    simp only [actTable, List.mem_cons, Prod.mk.injEq, List.not_mem_nil, or_false] at h
    obtain ⟨rfl, rfl⟩ := h
    exact mapping_out hS hs
  case Selection =>
    simp only [actTable, List.mem_cons, Prod.mk.injEq, List.not_mem_nil, or_false] at h
    obtain ⟨rfl, rfl⟩ := h
    exact mapping_out hS hs
  case MapMapping =>
    simp only [actTable, List.mem_cons, Prod.mk.injEq, List.not_mem_nil, or_false] at h
    obtain ⟨rfl, rfl⟩ := h
    exact mapping_out hS hs
  case MapSelection =>
    simp only [actTable, List.mem_cons, Prod.mk.injEq, List.not_mem_nil, or_false] at h
    obtain ⟨rfl, rfl⟩ := h
    exact mapping_out hS hs
  case Sum =>
    simp only [actTable, List.mem_cons, Prod.mk.injEq, List.not_mem_nil, or_false] at h
    obtain ⟨rfl, rfl⟩ := h
    obtain ⟨i, j, k, rfl, ⟨z, rfl, hz⟩, ⟨y, rfl, hy⟩, ⟨x, rfl, hx⟩⟩ := typed3 hS
    simp only [buildStep, hs, List.cons_append]
    exact outPush ⟨_, rfl, .sum hx hy hz⟩
  case LambdaExpr =>
    simp only [actTable, List.mem_cons, Prod.mk.injEq, List.not_mem_nil, or_false] at h
    obtain ⟨rfl, rfl⟩ := h
    obtain ⟨i, j, rfl, ⟨x, rfl, hx⟩, ⟨l, v, rfl, hl⟩⟩ := typed2 hS
    simp only [buildStep, hs, List.cons_append]
    exact outPush (mkLambda_lam v hl hx)
  case LambdaRef =>
    simp only [actTable, List.mem_cons, Prod.mk.injEq, List.not_mem_nil, or_false] at h
    obtain ⟨rfl, rfl⟩ := h
    refine unary_out hS hs ?_
    rintro i ⟨x, rfl, hx⟩
    refine ⟨x, rfl, _, rfl, ?_⟩
    split
    · rename_i hl
      exact lambda_level hx hl
    · exact .lambdaRef hx
  case Range =>
    simp only [actTable, List.mem_cons, Prod.mk.injEq, List.not_mem_nil, or_false] at h
    obtain ⟨rfl, rfl⟩ | ⟨rfl, rfl⟩ | ⟨rfl, rfl⟩ | ⟨rfl, rfl⟩ := h
    · obtain ⟨i, j, rfl, ⟨x, rfl⟩, ⟨y, rfl⟩⟩ := typed2 hS
      simp only [buildStep, rangeStep, hs, List.cons_append]
      exact outPush ⟨_, _, _, rfl, .range (by simp) rfl⟩
    · obtain ⟨i, j, k, rfl, ⟨x, rfl⟩, ⟨y, rfl, hy⟩, ⟨z, rfl⟩⟩ := typed3 hS
      simp only [buildStep, rangeStep, hs, List.cons_append]
      exact outPush ⟨_, _, _, rfl, .range (by simpa using hy) rfl⟩
    · obtain ⟨i, j, k, rfl, ⟨x, rfl, hx⟩, ⟨y, rfl⟩, ⟨z, rfl⟩⟩ := typed3 hS
      simp only [buildStep, rangeStep, hs, List.cons_append]
      exact outPush ⟨_, _, _, rfl, .range (by simpa using hx) rfl⟩
    · obtain ⟨i, j, k, l, rfl, ⟨x, rfl, hx⟩, ⟨y, rfl⟩, ⟨z, rfl, hz⟩, ⟨w, rfl⟩⟩ := typed4 hS
      simp only [buildStep, rangeStep, hs, List.cons_append]
      exact outPush ⟨_, _, _, rfl, .range (by simp [hx, hz]) rfl⟩
  case List =>
    simp only [actTable, List.mem_cons, Prod.mk.injEq, List.not_mem_nil, or_false] at h
    obtain ⟨rfl, rfl⟩ := h
    exact list_out hS hs
  case Indices =>
    simp only [actTable, List.mem_cons, Prod.mk.injEq, List.not_mem_nil, or_false] at h
    obtain ⟨rfl, rfl⟩ := h
    exact list_out hS hs
  case NextNameArgument =>
    simp only [actTable, List.mem_cons, Prod.mk.injEq, List.not_mem_nil, or_false] at h
    obtain ⟨rfl, rfl⟩ := h
    obtain ⟨i, j, k, rfl, ⟨x, rfl, hx⟩, ⟨n, rfl⟩, ⟨l, rfl, hl⟩⟩ := typed3 hS
    simp only [buildStep, hs, List.cons_append]
    exact out1 (i := .exprs _) rfl ⟨_, rfl, elements_snoc hl (.named hx)⟩
  case NextExpression =>
    simp only [actTable, List.mem_cons, Prod.mk.injEq, List.not_mem_nil, or_false] at h
    obtain ⟨rfl, rfl⟩ | ⟨rfl, rfl⟩ | ⟨rfl, rfl⟩ | ⟨rfl, rfl⟩ := h
    · obtain ⟨i, j, rfl, ⟨x, rfl, hx⟩, ⟨l, rfl, hl⟩⟩ := typed2 hS
      simp only [buildStep, hs, List.cons_append]
      exact out1 (i := .exprs _) rfl ⟨_, rfl, elements_snoc hl (.expr hx)⟩
    · obtain ⟨i, j, rfl, ⟨x, rfl, hx⟩, ⟨l, rfl, hl⟩⟩ := typed2 hS
      simp only [buildStep, hs, List.cons_append]
      exact out1 (i := .exprs _) rfl ⟨_, rfl, elements_snoc hl (.expand hx)⟩
    · obtain ⟨i, j, rfl, ⟨x, rfl, hx⟩, ⟨l, rfl, hl⟩⟩ := typed2 hS
      simp only [buildStep, hs, List.cons_append]
      exact out1 (i := .exprs _) rfl ⟨_, rfl, elements_snoc hl (.elem (.expr hx))⟩
    · obtain ⟨i, j, rfl, ⟨x, rfl, hx⟩, ⟨l, rfl, hl⟩⟩ := typed2 hS
      simp only [buildStep, hs, List.cons_append]
      exact out1 (i := .exprs _) rfl ⟨_, rfl, elements_snoc hl (.elem (.expand hx))⟩
  case ListExpansion =>
    simp only [actTable, List.mem_cons, Prod.mk.injEq, List.not_mem_nil, or_false] at h
    obtain ⟨rfl, rfl⟩ := h
    exact unary_out hS hs (by rintro i ⟨x, rfl, hx⟩; exact ⟨x, rfl, _, rfl, hx⟩)
  case StartList =>
    simp only [actTable, List.mem_cons, Prod.mk.injEq, List.not_mem_nil, or_false] at h
    obtain ⟨rfl, rfl⟩ := h
    have := typed0 hS; subst this
    simp only [List.nil_append] at hs
    exact out1 (i := .exprs []) (by rw [← hs]) ⟨_, rfl, by simp⟩
  case StartArguments =>
    simp only [actTable, List.mem_cons, Prod.mk.injEq, List.not_mem_nil, or_false] at h
    obtain ⟨rfl, rfl⟩ := h
    have := typed0 hS; subst this
    simp only [List.nil_append] at hs
    exact out1 (i := .exprs []) (by rw [← hs]) ⟨_, rfl, by simp⟩
end act

/-! ### the types of the rules -/

/-- types of the rules: the elements consumed from the stack and the possible results -/
def sigTable : Rule → List (List Ty × List (List Ty))
  | .Dynaml => [([], [[.prefer], [.marker], [.marked], [.e 9]])]
  | .Prefer => [([], [[.prefer]])]
  | .MarkedExpression => [([], [[.marker], [.marked]])]
  | .SubsequentMarker => [([.marker], [[.marker]])]
  | .Marker => [([], [[.marker]])]
  | .MarkerExpression => [([], [[.mexpr]])]
  | .Expression => [([], [[.e 9]])]
  | .Scoped => [([], [[.e 9]])]
  | .Scope => [([], [[.map]])]
  | .CreateScope => [([], [[.map]])]
  | .Level7 => [([], [[.e 8]])]
  | .Or => [([.e 8], [[.e 8]])]
  | .OrOp => [([], [[.op]])]
  | .Level6 => [([], [[.e 7]])]
  | .Conditional => [([], [[.e 7]])]
  | .Level5 => [([], [[.e 6]])]
  | .Concatenation => [([.e 6], [[.e 6]])]
  | .Level4 => [([], [[.e 5]])]
  | .LogOr => [([.e 5], [[.e 5]])]
  | .LogAnd => [([.e 5], [[.e 5]])]
  | .Level3 => [([], [[.e 4]])]
  | .Comparison => [([.e 4], [[.e 4]])]
  | .CompareOp => [([], [[.op]])]
  | .Level2 => [([], [[.e 3]])]
  | .Addition => [([.e 3], [[.e 3]])]
  | .Subtraction => [([.e 3], [[.e 3]])]
  | .Level1 => [([], [[.e 2]])]
  | .Multiplication => [([.e 2], [[.e 2]])]
  | .Division => [([.e 2], [[.e 2]])]
  | .Modulo => [([.e 2], [[.e 2]])]
  | .Level0 => [([], [[.e 1]])]
  | .Chained => [([], [[.e 0]])]
  | .ChainedQualifiedExpression => [([.e 0], [[.e 0]])]
  | .ChainedRef => [([.e 0], [[.e 0]])]
  | .ChainedDynRef => [([.e 0], [[.e 0]])]
  | .TopIndex => [([], [[.e 0]])]
  | .Indices => [([], [[.lst]])]
  | .Slice => [([.e 0], [[.e 0]])]
  | .Currying => [([.e 0], [[.call]])]
  | .ChainedCall => [([.e 0], [[.call]])]
  | .StartArguments => [([], [[.exprs]])]
  | .NameArgumentList => [([.exprs], [[.args]])]
  | .NextNameArgument => [([.args], [[.args]])]
  | .ExpressionList => [([.exprs], [[.exprs]])]
  | .NextExpression => [([.exprs], [[.exprs]]), ([.args], [[.args]])]
  | .ListExpansion => [([.e 9], [[.expand]])]
  | .Projection => [([.e 0], [[.e 0]])]
  | .ProjectionValue => [([], [[.pv, .pv]])]
  | .Substitution => [([], [[.e 1]])]
  | .Not => [([], [[.e 1]])]
  | .Grouped => [([], [[.group]])]
  | .Range => [([], [[.range]])]
  | .StartRange => [([], [[.op]])]
  | .RangeOp => [([], [[.op]])]
  | .Number => [([], [[.e 1]])]
  | .String => [([], [[.e 1]])]
  | .Boolean => [([], [[.e 1]])]
  | .Nil => [([], [[.e 1]])]
  | .Undefined => [([], [[.e 1]])]
  | .Symbol => [([], [[.e 1]])]
  | .List => [([], [[.lst]])]
  | .StartList => [([], [[.exprs]])]
  | .Map => [([], [[.map]])]
  | .CreateMap => [([], [[.map]])]
  | .Assignments => [([.map], [[.map]])]
  | .Assignment => [([.map], [[.map]])]
  | .Merge => [([], [[.e 1]])]
  | .RefMerge => [([], [[.e 1]])]
  | .SimpleMerge => [([], [[.e 1]])]
  | .Auto => [([], [[.e 1]])]
  | .Default => [([], [[.dflt]])]
  | .Sync => [([], [[.e 0]])]
  | .LambdaExt => [([], [[.ext]])]
  | .LambdaOrExpr => [([], [[.e 9]])]
  | .Catch => [([], [[.e 0]])]
  | .FilterList => [([], [[.e 0]])]
  | .FilterMap => [([], [[.e 0]])]
  | .MapMapping => [([], [[.e 0]])]
  | .Mapping => [([], [[.e 0]])]
  | .MapSelection => [([], [[.e 0]])]
  | .Selection => [([], [[.e 0]])]
  | .Sum => [([], [[.e 0]])]
  | .Lambda => [([], [[.e 1]])]
  | .LambdaRef => [([], [[.e 1]])]
  | .LambdaExpr => [([], [[.lam]])]
  | .Params => [([], [[.names]])]
  | .StartParams => [([], [[.names0]])]
  | .Names => [([.names0], [[.names1]])]
  | .NextName => [([.names], [[.names1]])]
  | .Name => [([], [[.name]])]
  | .DefaultValue => [([.names1], [[.names1]])]
  | .VarParams => [([.names1], [[.names1]])]
  | .Reference => [([], [[.ref]])]
  | .IP => [([], [[.e 1]])]
  | _ => [([], [[]])]

/-- the first alternative whose types are found on the stack -/
def applySig : List (List Ty × List (List Ty)) → List Ty → Option (List (List Ty))
  | [], _ => none
  | (ps, os) :: r, st => match popTys ps st with
    | some st' => some (os.map (· ++ st'))
    | none => applySig r st

/-- all stacks of `l` continued by `f` -/
def bindAll {α β : Type} (f : α → Option (List β)) : List α → Option (List β)
  | [] => some []
  | a :: r => match f a, bindAll f r with
    | some x, some y => some (x ++ y)
    | _, _ => none

def joinSt : List Ty → List Ty → List Ty
  | a :: r, b :: q => a.join b :: joinSt r q
  | st, _ => st

/-- an invariant of a loop: the stack `st` or a stack with more general types -/
def loopInv (f : List Ty → Option (List (List Ty))) : Nat → List Ty → Option (List Ty)
  | 0, _ => none
  | n + 1, st => match f st with
    | none => none
    | some outs => if outs.all (fun o => stLe o st) then some st
      else if stLe st (outs.foldl joinSt st) then loopInv f n (outs.foldl joinSt st) else none

/-- the possible stacks behind a match of `p` -/
def absRun : Peg Rule → List Ty → Option (List (List Ty))
  | .eps, st => some [st]
  | .any, st => some [st]
  | .chr _, st => some [st]
  | .rng _ _, st => some [st]
  | .seq a b, st => match absRun a st with
    | some l => bindAll (absRun b) l
    | none => none
  | .alt a b, st => match absRun a st, absRun b st with
    | some x, some y => some (x ++ y)
    | _, _ => none
  | .star a, st => match loopInv (absRun a) 3 st with
    | some st' => some [st']
    | none => none
  | .neg _, st => some [st]
  | .nt r, st => applySig (sigTable r) st

/-- first action that can be applied -/
def applyAct : List (List Ty × List Ty) → List Ty → Option (List Ty)
  | [], _ => none
  | (ps, o) :: r, st => match popTys ps st with
    | some st' => some (o ++ st')
    | none => applyAct r st

/-- the type of a rule agrees with its right hand side and its action -/
def checkRule (r : Rule) : Bool :=
  (sigTable r).all (fun (ps, os) => match absRun (dynamlRules r) ps with
    | none => false
    | some outs => outs.all (fun o => match applyAct (actTable r) o with
      | none => false
      | some st => os.any (fun d => stLe st d)))

theorem rule_checks (r : Rule) : checkRule r = true := by
  cases r <;> decide +kernel


/-! ### soundness -/

theorem buildTokens_append (lib : PLib) (cx : PCtx) (s : PState) (l1 l2 : List (Tok Rule)) :
    buildTokens lib cx s (l1 ++ l2) = (buildTokens lib cx s l1).bind (fun s => buildTokens lib cx s l2) := by
  induction l1 generalizing s with
  | nil => rfl
  | cons t r ih =>
    simp only [List.cons_append, buildTokens]
    cases buildStep lib cx s t <;> simp [Built.bind, ih]

/-- running the tokens on a stack typed by `st` gives a stack typed by one of `outs` -/
def GoodTy (lib : PLib) (cx : PCtx) (toks : List (Tok Rule)) (st : List Ty) (outs : List (List Ty)) : Prop :=
  ∀ (s : PState) (S F : List StackItem), Typed st S → s.stack = S ++ F → BuildOutcome lib toks outs F (buildTokens lib cx s toks)

section sound
variable {lib : PLib} {cx : PCtx}

theorem outcome_mono {toks toks' : List (Tok Rule)} {outs outs' : List (List Ty)} {F : List StackItem} {b : Built PState}
    (h : BuildOutcome lib toks outs F b) (ht : ∀ t ∈ toks, t ∈ toks')
    (ho : ∀ o ∈ outs, ∃ o' ∈ outs', stLe o o' = true) : BuildOutcome lib toks' outs' F b := by
  cases b with
  | ok s =>
    obtain ⟨o, hm, S, hS, e⟩ := h
    obtain ⟨o', hm', hle⟩ := ho o hm
    exact ⟨o', hm', S, typed_le hle hS, e⟩
  | err => obtain ⟨t, hm, hb⟩ := h; exact ⟨t, ht t hm, hb⟩
  | crash => obtain ⟨t, hm, hb⟩ := h; exact ⟨t, ht t hm, hb⟩

theorem stLe_refl (st : List Ty) : stLe st st = true := by
  induction st with
  | nil => rfl
  | cons a r ih => simp [stLe, ih, Ty.le]

theorem good_nil (st : List Ty) : GoodTy lib cx [] st [st] := fun s S F hS hs => ⟨st, by simp, S, hS, hs⟩

theorem good_seq {t1 t2 : List (Tok Rule)} {st : List Ty} {o1 o2 : List (List Ty)} (h1 : GoodTy lib cx t1 st o1)
    (h2 : ∀ o ∈ o1, GoodTy lib cx t2 o o2) : GoodTy lib cx (t1 ++ t2) st o2 := by
  intro s S F hS hs
  rw [buildTokens_append]
  have := h1 s S F hS hs
  cases hb : buildTokens lib cx s t1 with
  | ok s' =>
    rw [hb] at this
    obtain ⟨o, hm, S', hS', e⟩ := this
    exact outcome_mono (h2 o hm s' S' F hS' e) (by simp +contextual) (fun o ho => ⟨o, ho, stLe_refl o⟩)
  | err => rw [hb] at this; obtain ⟨t, hm, hbad⟩ := this; exact ⟨t, by simp [hm], hbad⟩
  | crash => rw [hb] at this; obtain ⟨t, hm, hbad⟩ := this; exact ⟨t, by simp [hm], hbad⟩

theorem good_mono {t : List (Tok Rule)} {st : List Ty} {o1 o2 : List (List Ty)} (h1 : GoodTy lib cx t st o1)
    (h : ∀ o ∈ o1, ∃ o' ∈ o2, stLe o o' = true) : GoodTy lib cx t st o2 :=
  fun s S F hS hs => outcome_mono (h1 s S F hS hs) (fun _ h => h) h

theorem bindAll_mem {α β : Type} {f : α → Option (List β)} {l : List α} {r : List β} (h : bindAll f l = some r) :
    ∀ a ∈ l, ∃ x, f a = some x ∧ ∀ b ∈ x, b ∈ r := by
  induction l generalizing r with
  | nil => simp
  | cons a l ih =>
    simp only [bindAll] at h
    cases h1 : f a with
    | none => simp [h1] at h
    | some x =>
      cases h2 : bindAll f l with
      | none => simp [h1, h2] at h
      | some y =>
        simp only [h1, h2, Option.some.injEq] at h
        subst h
        intro b hb
        rcases List.mem_cons.mp hb with rfl | hb
        · exact ⟨x, h1, by simp +contextual⟩
        · obtain ⟨z, hz, hall⟩ := ih h2 b hb
          exact ⟨z, hz, fun c hc => by simp [hall c hc]⟩

/-- the stack `st` is an invariant of the loop -/
def LoopInv (a : Peg Rule) (st : List Ty) : Prop := ∃ outs, absRun a st = some outs ∧ ∀ o ∈ outs, stLe o st = true

theorem stLe_trans_typed {st st' : List Ty} : stLe st st' = true → ∀ {S}, Typed st S → Typed st' S := fun h _ hs => typed_le h hs

theorem loopInv_sound {a : Peg Rule} {n : Nat} {st st' : List Ty} (h : loopInv (absRun a) n st = some st') :
    LoopInv a st' ∧ ∀ S, Typed st S → Typed st' S := by
  induction n generalizing st with
  | zero => cases h
  | succ n ih =>
    simp only [loopInv] at h
    cases ha : absRun a st with
    | none => simp [ha] at h
    | some outs =>
      simp only [ha] at h
      split at h
      · rename_i hall
        simp only [Option.some.injEq] at h
        subst h
        exact ⟨⟨outs, ha, fun o ho => List.all_eq_true.mp hall o ho⟩, fun S hS => hS⟩
      · split at h
        · rename_i hle
          obtain ⟨h1, h2⟩ := ih h
          exact ⟨h1, fun S hS => h2 S (typed_le hle hS)⟩
        · cases h

theorem applySig_sound {l : List (List Ty × List (List Ty))} {st : List Ty} {outs : List (List Ty)} (h : applySig l st = some outs) :
    ∃ ps os st', (ps, os) ∈ l ∧ popTys ps st = some st' ∧ outs = os.map (· ++ st') := by
  induction l with
  | nil => cases h
  | cons x r ih =>
    obtain ⟨ps, os⟩ := x
    simp only [applySig] at h
    cases hp : popTys ps st with
    | none =>
      rw [hp] at h
      obtain ⟨ps', os', st', hm, h1, h2⟩ := ih h
      exact ⟨ps', os', st', List.mem_cons_of_mem _ hm, h1, h2⟩
    | some st' =>
      rw [hp] at h
      simp only [Option.some.injEq] at h
      exact ⟨ps, os, st', List.mem_cons_self, hp, h.symm⟩

theorem applyAct_sound {l : List (List Ty × List Ty)} {st st' : List Ty} (h : applyAct l st = some st') :
    ∃ ps o q, (ps, o) ∈ l ∧ popTys ps st = some q ∧ st' = o ++ q := by
  induction l with
  | nil => cases h
  | cons x r ih =>
    obtain ⟨ps, os⟩ := x
    simp only [applyAct] at h
    cases hp : popTys ps st with
    | none =>
      rw [hp] at h
      obtain ⟨ps', os', st', hm, h1, h2⟩ := ih h
      exact ⟨ps', os', st', List.mem_cons_of_mem _ hm, h1, h2⟩
    | some q =>
      rw [hp] at h
      simp only [Option.some.injEq] at h
      exact ⟨ps, os, q, List.mem_cons_self, hp, h.symm⟩

theorem good_act {r : Rule} {text : Txt} {st st' : List Ty} (h : applyAct (actTable r) st = some st') :
    GoodTy lib cx [⟨r, text⟩] st [st'] := by
  obtain ⟨ps, o, q, hm, hp, rfl⟩ := applyAct_sound h
  intro s S F hS hs
  obtain ⟨S1, S2, rfl, h1, h2⟩ := popTys_typed hp hS
  have := act_sound (lib := lib) (cx := cx) (t := ⟨r, text⟩) (F := S2 ++ F) hm h1 (by rw [hs, List.append_assoc])
  simp only [buildTokens]
  cases hb : buildStep lib cx s ⟨r, text⟩ with
  | ok s' =>
    rw [hb] at this
    obtain ⟨o', hm', S', hS', e⟩ := this
    simp only [List.mem_singleton] at hm'
    subst hm'
    exact ⟨o' ++ q, by simp, S' ++ S2, List.rel_append hS' h2, by simp [e]⟩
  | err => rw [hb] at this; exact this
  | crash => rw [hb] at this; exact this

theorem good_nt {r : Rule} {toks : List (Tok Rule)} {text : Txt} {st : List Ty} {outs : List (List Ty)}
    (h : absRun (.nt r) st = some outs)
    (hb : ∀ st outs, absRun (dynamlRules r) st = some outs → GoodTy lib cx toks st outs) : GoodTy lib cx (toks ++ [⟨r, text⟩]) st outs := by
  obtain ⟨ps, os, st', hm, hp, rfl⟩ := applySig_sound h
  have hc := List.all_eq_true.mp (rule_checks r) (ps, os) hm
  simp only at hc
  cases ha : absRun (dynamlRules r) ps with
  | none => simp [ha] at hc
  | some o1 =>
    simp only [ha] at hc
    have g1 := hb ps o1 ha
    have g2 : GoodTy lib cx (toks ++ [⟨r, text⟩]) ps os := by
      refine good_seq g1 (fun o ho => ?_)
      have hc' := List.all_eq_true.mp hc o ho
      cases hact : applyAct (actTable r) o with
      | none => simp [hact] at hc'
      | some q =>
        simp only [hact] at hc'
        obtain ⟨d, hd, hle⟩ := List.any_eq_true.mp hc'
        refine good_mono (good_act hact) (fun x hx => ?_)
        simp only [List.mem_singleton] at hx
        subst hx
        exact ⟨d, hd, hle⟩
    intro s S F hS hs
    obtain ⟨S1, S2, rfl, h1, h2⟩ := popTys_typed hp hS
    have := g2 s S1 (S2 ++ F) h1 (by rw [hs, List.append_assoc])
    cases hbt : buildTokens lib cx s (toks ++ [⟨r, text⟩]) with
    | ok s' =>
      rw [hbt] at this
      obtain ⟨o', hm', S', hS', e⟩ := this
      exact ⟨o' ++ st', List.mem_map.mpr ⟨o', hm', rfl⟩, S' ++ S2, List.rel_append hS' h2, by simp [e]⟩
    | err => rw [hbt] at this; exact this
    | crash => rw [hbt] at this; exact this

/-- The tokens of a match run as predicted. -/
theorem abs_sound_aux {p : Peg Rule} {src : Txt} {res : PRes Rule} (h : Parses dynamlRules p src res) :
    ∀ {t c rest}, res = some (t, c, rest) →
      (∀ st outs, absRun p st = some outs → GoodTy lib cx t st outs) ∧
      (∀ a, p = .star a → ∀ st, LoopInv a st → GoodTy lib cx t st [st]) := by
  induction h with
  | eps | any_ok | chr_ok | rng_ok | neg_ok =>
    intro t c rest e
    simp only [Option.some.injEq, Prod.mk.injEq] at e
    obtain ⟨rfl, -, -⟩ := e
    refine ⟨fun st outs ho => ?_, fun a ha => by cases ha⟩
    simp only [absRun, Option.some.injEq] at ho
    subst ho
    exact good_nil st
  | any_end | chr_no | chr_end | rng_no | rng_end | seq_no1 | seq_no2 | neg_no | nt_no => intro t c rest e; cases e
  | seq_ok _ _ ih1 ih2 =>
    intro t c rest e
    simp only [Option.some.injEq, Prod.mk.injEq] at e
    obtain ⟨rfl, -, -⟩ := e
    refine ⟨fun st outs ho => ?_, fun a ha => by cases ha⟩
    simp only [absRun] at ho
    split at ho
    · rename_i l hl
      refine good_seq ((ih1 rfl).1 st l hl) (fun o hm => ?_)
      obtain ⟨x, hx, hall⟩ := bindAll_mem ho o hm
      exact good_mono ((ih2 rfl).1 o x hx) (fun y hy => ⟨y, hall y hy, stLe_refl y⟩)
    · cases ho
  | alt1 _ ih =>
    intro t c rest e
    refine ⟨fun st outs ho => ?_, fun a ha => by cases ha⟩
    simp only [absRun] at ho
    split at ho
    · rename_i x y hx hy
      simp only [Option.some.injEq] at ho
      subst ho
      exact good_mono ((ih e).1 st x hx) (fun o hm => ⟨o, by simp [hm], stLe_refl o⟩)
    · cases ho
  | alt2 _ _ _ ih =>
    intro t c rest e
    refine ⟨fun st outs ho => ?_, fun a ha => by cases ha⟩
    simp only [absRun] at ho
    split at ho
    · rename_i x y hx hy
      simp only [Option.some.injEq] at ho
      subst ho
      exact good_mono ((ih e).1 st y hy) (fun o hm => ⟨o, by simp [hm], stLe_refl o⟩)
    · cases ho
  | @star_end a s _ _ =>
    intro t c rest e
    simp only [Option.some.injEq, Prod.mk.injEq] at e
    obtain ⟨rfl, -, -⟩ := e
    have key : ∀ st, GoodTy lib cx [] st [st] := good_nil
    refine ⟨fun st outs ho => ?_, fun _ _ st _ => key st⟩
    simp only [absRun] at ho
    split at ho
    · rename_i st' hinv
      simp only [Option.some.injEq] at ho
      subst ho
      intro s S F hS hs
      exact key st' s S F ((loopInv_sound hinv).2 S hS) hs
    · cases ho
  | @star_more a s t1 c1 s1 t2 c2 s2 _ _ ih1 ih2 =>
    intro t c rest e
    simp only [Option.some.injEq, Prod.mk.injEq] at e
    obtain ⟨rfl, -, -⟩ := e
    have key : ∀ st, LoopInv a st → GoodTy lib cx (t1 ++ t2) st [st] := by
      intro st hinv
      obtain ⟨outs, ho, hall⟩ := hinv
      refine good_seq (o1 := [st]) (good_mono ((ih1 rfl).1 st outs ho) (fun o hm => ⟨st, by simp, hall o hm⟩)) (fun o hm => ?_)
      simp only [List.mem_singleton] at hm
      subst hm
      exact (ih2 rfl).2 a rfl _ ⟨outs, ho, hall⟩
    refine ⟨fun st outs ho => ?_, fun b hb st hinv => ?_⟩
    · simp only [absRun] at ho
      split at ho
      · rename_i st' hinv
        simp only [Option.some.injEq] at ho
        subst ho
        intro s S F hS hs
        exact key st' (loopInv_sound hinv).1 s S F ((loopInv_sound hinv).2 S hS) hs
      · cases ho
    · cases hb; exact key st hinv
  | nt_ok _ ih =>
    intro t c rest e
    simp only [Option.some.injEq, Prod.mk.injEq] at e
    obtain ⟨rfl, -, -⟩ := e
    exact ⟨fun st outs ho => good_nt ho (ih rfl).1, fun a ha => by cases ha⟩

theorem abs_sound {p : Peg Rule} {src : Txt} {t : List (Tok Rule)} {c rest : Txt}
    (h : Parses dynamlRules p src (some (t, c, rest))) {st : List Ty} {outs : List (List Ty)} (ho : absRun p st = some outs) :
    GoodTy lib cx t st outs := (abs_sound_aux h rfl).1 st outs ho
end sound

end Spiff
