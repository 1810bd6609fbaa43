import Verif.Props.ParseNumber
/-
C62: precedence and associativity, anywhere inside a parsed expression.
-/
namespace Spiff

/-- `x` is `e` or an argument of an expression inside `e`. -/
inductive Occurs (x : Syn) : Syn → Prop
  | here : Occurs x x
  | arg {op args a} (h : Occurs x a) (ha : a ∈ args) : Occurs x (.node op args)

/-- parts of parsed expressions -/
inductive SynPart : Syn → Prop
  | shape {k e} (h : Shape k e) : SynPart e
  | element {e} (h : Element e) : SynPart e
  | argument {e} (h : Argument e) : SynPart e
  | optional {e} (h : Optional e) : SynPart e
  | marker {t e} (h : Shape 9 e) : SynPart (.node (.markerExpr t) [.node .group [e]])

def synArgs : Syn → List Syn
  | .node _ as => as

theorem shape_args {k : Nat} {e : Syn} (h : Shape k e) : ∀ a ∈ synArgs e, SynPart a := by
  refine Shape.rec (motive_1 := fun _ x _ => ∀ a ∈ synArgs x, SynPart a) (motive_2 := fun _ _ => True) (motive_3 := fun _ _ => True)
    (motive_4 := fun _ _ => True) ?_ ?_ ?_ ?_ ?_ ?_ ?_ ?_ ?_ ?_ ?_ ?_ ?_ ?_ ?_ ?_ ?_ ?_ ?_ ?_ ?_ ?_ ?_ ?_ ?_ ?_ ?_ ?_ ?_ ?_ h
  · intro k j e _ _ ih; exact ih
  · intro _ _ a ha; cases ha
  · intro a ha; cases ha
  · intro e h _ a ha; simp only [synArgs, List.mem_singleton] at ha; subst ha; exact .shape h
  · intro l h _ a ha; exact .element (h a ha)
  · intro l h _ _ a ha; exact .shape (h a ha)
  · intro l r args h _ _ a ha; exact .shape (h a ha)
  · intro b l r args hb h _ _ a ha
    simp only [synArgs, List.mem_cons, List.not_mem_nil, or_false] at ha
    rcases ha with rfl | rfl
    · exact .shape hb
    · exact .shape h
  · intro b l hb h _ _ a ha
    simp only [synArgs, List.mem_cons, List.not_mem_nil, or_false] at ha
    rcases ha with rfl | rfl
    · exact .shape hb
    · exact .shape (.list h)
  · intro p b hb _ a ha; simp only [synArgs, List.mem_singleton] at ha; subst ha; exact .shape hb
  · intro c f args hf h _ _ a ha
    simp only [synArgs, List.mem_cons] at ha
    rcases ha with rfl | ha
    · exact .shape hf
    · exact .argument (h a ha)
  · intro b q hb hq _ _ a ha
    simp only [synArgs, List.mem_cons, List.not_mem_nil, or_false] at ha
    rcases ha with rfl | rfl
    · exact .shape hb
    · exact .shape hq
  · intro kind curly b l hb hl _ _ a ha
    simp only [synArgs, List.mem_cons, List.not_mem_nil, or_false] at ha
    rcases ha with rfl | rfl
    · exact .shape hb
    · exact .shape hl
  · intro b l hb hl _ _ a ha
    simp only [synArgs, List.mem_cons, List.not_mem_nil, or_false] at ha
    rcases ha with rfl | rfl
    · exact .shape hb
    · exact .shape hl
  · intro b i l hb hi hl _ _ _ a ha
    simp only [synArgs, List.mem_cons, List.not_mem_nil, or_false] at ha
    rcases ha with rfl | rfl | rfl
    · exact .shape hb
    · exact .shape hi
    · exact .shape hl
  · intro b c v t hb hc hv ht _ _ _ _ a ha
    simp only [synArgs, List.mem_cons, List.not_mem_nil, or_false] at ha
    rcases ha with rfl | rfl | rfl | rfl
    · exact .shape hb
    · exact .shape hc
    · exact .optional hv
    · exact .optional ht
  · intro op _ a ha; cases ha
  · intro e h _ a ha; simp only [synArgs, List.mem_singleton] at ha; subst ha; exact .shape h
  · intro e h _ a ha; simp only [synArgs, List.mem_singleton] at ha; subst ha; exact .shape h
  · intro ps v args h _ _ a ha; exact .shape (h a ha)
  · intro p q e h _ a ha; simp only [synArgs, List.mem_singleton] at ha; subst ha; exact .shape h
  · intro op k l r b c _ hb hc _ _ a ha
    simp only [synArgs, List.mem_cons, List.not_mem_nil, or_false] at ha
    rcases ha with rfl | rfl
    · exact .shape hb
    · exact .shape hc
  · intro c t f hc ht hf _ _ _ a ha
    simp only [synArgs, List.mem_cons, List.not_mem_nil, or_false] at ha
    rcases ha with rfl | rfl | rfl
    · exact .shape hc
    · exact .shape ht
    · exact .shape hf
  · intro args h _ _ a ha; exact .shape (h a ha)
  all_goals (intros; trivial)

theorem element_args {e : Syn} (h : Element e) : ∀ a ∈ synArgs e, SynPart a := by
  cases h with
  | expr h => exact shape_args h
  | expand h => intro a ha; simp only [synArgs, List.mem_singleton] at ha; subst ha; exact .shape h

theorem part_args {e : Syn} (h : SynPart e) : ∀ a ∈ synArgs e, SynPart a := by
  cases h with
  | shape h => exact shape_args h
  | element h => exact element_args h
  | argument h =>
    cases h with
    | elem h => exact element_args h
    | named h => intro a ha; simp only [synArgs, List.mem_singleton] at ha; subst ha; exact .shape h
  | optional h =>
    cases h with
    | expr h => exact shape_args h
    | default => intro a ha; cases ha
  | marker h => intro a ha; simp only [synArgs, List.mem_singleton] at ha; subst ha; exact .shape (.group h)

theorem occurs_part {x e : Syn} (h : Occurs x e) (he : SynPart e) : SynPart x := by
  induction h with
  | here => exact he
  | arg _ ha ih => exact ih (part_args he _ ha)

theorem top_args {e : Syn} (h : TopShape e) : SynPart e ∨ ∀ a ∈ synArgs e, SynPart a := by
  cases h with
  | expr h => exact .inl (.shape h)
  | prefer h => refine .inr fun a ha => ?_; simp only [synArgs, List.mem_singleton] at ha; subst ha; exact .shape h
  | marker => exact .inr fun a ha => by cases ha
  | marked h => refine .inr fun a ha => ?_; simp only [synArgs, List.mem_singleton] at ha; subst ha; exact .marker h

theorem infix_fun {op : SynOp} {k l r k' l' r' : Nat} (h : Infix op k l r) (h' : Infix op k' l' r') : k = k' ∧ l = l' ∧ r = r' := by
  cases h <;> cases h' <;> exact ⟨rfl, rfl, rfl⟩

theorem infix_levels {op : SynOp} {k l r : Nat} (h : Infix op k l r) : l = k ∧ r + 1 = k := by
  cases h <;> exact ⟨rfl, rfl⟩

/-- operators with two operands do not have another form -/
theorem infix_shape {j k l r : Nat} {op : SynOp} {a b : Syn} (hi : Infix op k l r) (h : Shape j (.node op [a, b])) :
    k ≤ j ∧ Shape l a ∧ Shape r b := by
  generalize he : Syn.node op [a, b] = e at h
  revert he
  refine Shape.rec (motive_1 := fun j x _ => Syn.node op [a, b] = x → k ≤ j ∧ Shape l a ∧ Shape r b) (motive_2 := fun _ _ => True)
    (motive_3 := fun _ _ => True) (motive_4 := fun _ _ => True) ?_ ?_ ?_ ?_ ?_ ?_ ?_ ?_ ?_ ?_ ?_ ?_ ?_ ?_ ?_ ?_ ?_ ?_ ?_ ?_ ?_ ?_ ?_ ?_ ?_ ?_ ?_ ?_ ?_ ?_ h
  · intro k' j' e _ hk ih he
    obtain ⟨h1, h2⟩ := ih he
    exact ⟨Nat.le_trans h1 hk, h2⟩
  case refine_22 =>
    intro op' k' l' r' a' b' h' ha hb _ _ he
    simp only [Syn.node.injEq, List.cons.injEq, and_true] at he
    obtain ⟨rfl, rfl, rfl⟩ := he
    obtain ⟨rfl, rfl, rfl⟩ := infix_fun hi h'
    exact ⟨Nat.le_refl _, ha, hb⟩
  case refine_17 =>
    intro op' h' he
    simp at he
  case refine_25 => intros; trivial
  case refine_26 => intros; trivial
  case refine_27 => intros; trivial
  case refine_28 => intros; trivial
  case refine_29 => intros; trivial
  case refine_30 => intros; trivial
  all_goals (intros; rename_i he; simp only [Syn.node.injEq] at he; obtain ⟨rfl, -⟩ := he; exact nomatch hi)

theorem top_infix {k l r : Nat} {op : SynOp} {a b : Syn} (_hi : Infix op k l r) (h : TopShape (.node op [a, b])) : SynPart (.node op [a, b]) := by
  generalize he : Syn.node op [a, b] = e at h
  cases h with
  | expr h => exact .shape h
  | prefer h => simp at he
  | marker => simp at he
  | marked h => simp at he

theorem part_infix {k l r : Nat} {op : SynOp} {a b : Syn} (hi : Infix op k l r) (h : SynPart (.node op [a, b])) : Shape l a ∧ Shape r b := by
  generalize he : Syn.node op [a, b] = e at h
  have elem : Element e → Shape l a ∧ Shape r b := by
    intro h
    cases h with
    | expr h => subst he; exact (infix_shape hi h).2
    | expand h => simp at he
  cases h with
  | shape h => subst he; exact (infix_shape hi h).2
  | element h => exact elem h
  | argument h =>
    cases h with
    | elem h => exact elem h
    | named h => simp at he
  | optional h =>
    cases h with
    | expr h => subst he; exact (infix_shape hi h).2
    | default => simp at he
  | marker h => simp at he

/-- C62: precedence and associativity: wherever an operator with two operands occurs in a parsed expression, an operator directly below it
(not enclosed in parentheses) does not bind weaker than allowed: in the left operand it has the same or a higher precedence, in the
right operand a higher one. -/
theorem parse_precedence {lib : PLib} {cx : PCtx} {src : Txt} {e a b : Syn} {op : SynOp} {k l r : Nat} (h : ParseTo lib cx src (.ok e))
    (hx : Occurs (.node op [a, b]) e) (hi : Infix op k l r) :
    (∀ op' c d k' l' r', a = .node op' [c, d] → Infix op' k' l' r' → k' ≤ k) ∧
    (∀ op' c d k' l' r', b = .node op' [c, d] → Infix op' k' l' r' → k' < k) := by
  have ht := parse_shape h
  have hp : SynPart (.node op [a, b]) := by
    generalize hn : Syn.node op [a, b] = n at hx
    cases hx with
    | here => subst hn; exact top_infix hi ht
    | arg hx ha =>
      subst hn
      rcases top_args ht with h | h
      · exact occurs_part hx (part_args h _ ha)
      · exact occurs_part hx (h _ ha)
  obtain ⟨ha, hb⟩ := part_infix hi hp
  obtain ⟨rfl, hr⟩ := infix_levels hi
  refine ⟨?_, ?_⟩
  · rintro op' c d k' l' r' rfl h'
    exact (infix_shape h' ha).1
  · rintro op' c d k' l' r' rfl h'
    have := (infix_shape h' hb).1
    omega

/-- the expression of a concrete text -/
def parseText (t : Txt) : Option Syn :=
  match runText 200 t with
  | some toks => match buildExpression plainPLib emptyPCtx toks with
    | .ok e => some e
    | _ => none
  | none => none

mutual
/-- comparison of expression trees by their operators -/
def synBeq : Syn → Syn → Bool
  | .node op as, .node op' bs => decide (op = op') && synsBeq as bs
termination_by structural x => x
def synsBeq : List Syn → List Syn → Bool
  | [], [] => true
  | a :: as, b :: bs => synBeq a b && synsBeq as bs
  | _, _ => false
termination_by structural x => x
end

def refOf (s : String) : Syn := .node (.ref [] [s.toList]) []

def parsesAs (t : String) (e : Syn) : Bool :=
  match parseText t.toList with
  | some x => synBeq x e
  | none => false

/-- Examples: precedence, associativity, parentheses. -/
example : parsesAs "a + b * c" (.node .add [refOf "a", .node .mul [refOf "b", refOf "c"]]) = true := by decide +kernel
example : parsesAs "a - b - c" (.node .sub [.node .sub [refOf "a", refOf "b"], refOf "c"]) = true := by decide +kernel
example : parsesAs "a - (b - c)" (.node .sub [refOf "a", .node .group [.node .sub [refOf "b", refOf "c"]]]) = true := by decide +kernel
example : parsesAs "a || b c -or d < e" (.node .or [refOf "a", .node .concat [refOf "b", .node .logOr [refOf "c", .node (.cmp ['<']) [refOf "d", refOf "e"]]]]) = true := by
  decide +kernel

end Spiff
