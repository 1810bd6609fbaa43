import Verif.Props.Meaning
import Verif.Props.PrintLoss
/-
C66: the output of a partial evaluation means the same, if it can be printed; an expression losing its parentheses does not.
-/
namespace Spiff

/-! ### blanks around the text -/

section
variable {lib : PLib} {cx : PCtx}

def notRoot : Table := [(.nt .Prefer, .fail need0), (.nt .MarkedExpression, .fail [])]
theorem notRoot_form : checkTable (tablesOf [exprTable]) [.ch ' ', .hole 0] [.hole 0] notRoot = true := by decide +kernel

/-- what does not follow the text -/
def endNeeds : List (Peg Rule) :=
  .any :: needBlank ++ [.nt .Required, .nt .Replace, .nt .On, .nt .Reference, .nt .Or, .nt .LogOr, .nt .LogAnd, .nt .Comparison, .nt .Addition,
    .nt .Subtraction, .nt .Multiplication, .nt .Division, .nt .Modulo, .nt .Level3, .nt .Level4, .nt .Concatenation, .chr '?', .chr '|', .chr '/',
    .chr '-', .chr '=', .chr '+', .chr '<', .chr '>', .chr '!', .chr '*', .chr '%']
def endTable : Table := [(.nt .Dynaml, .cont endNeeds .eps)]
theorem rootBlank_form : checkTable (tablesOf [notRoot ++ blankTable]) [.hole 0, .ch ' '] [.hole 0] endTable = true := by decide +kernel

theorem endNeeds_fail : ∀ n ∈ endNeeds, Parses dynamlRules n [] none := by
  have h : endNeeds.all (fun n => (sexec noFacts 60 n []).isFail) = true := by decide +kernel
  intro n hn
  have h1 := all_mem h hn
  have h2 := sexec_sound noFacts_hold 60 n []
  cases hx : sexec noFacts 60 n [] with
  | fail => rw [hx] at h2; exact h2
  | ok _ _ _ => rw [hx] at h1; cases h1
  | stuck => rw [hx] at h1; cases h1

theorem end_parse {t : Txt} {T : List (Tok Rule)} {e : Syn} (h : Facts t T endTable) (hp : Pushes lib cx T e) : ParseTo lib cx t (.ok e) := by
  obtain ⟨u, h1, h2⟩ := facts_head h [] endNeeds_fail [] [] [] (.eps _)
  rw [List.append_nil] at h1
  refine .inr ⟨u, _, _, h1, ?_⟩
  unfold buildExpression
  rw [← buildTokens_ess, h2]
  have : buildTokens lib cx {} (T ++ ess []) = .ok { stack := [.expr e] } := by
    have h3 := hp []
    unfold Runs at h3
    simpa [ess] using h3
  rw [this]
  rfl

theorem print_parse_blank {e : Syn} (h : Printable lib cx .expr e) : ParseTo lib cx (' ' :: synText lib e ++ [' ']) (.ok (regroup e)) := by
  obtain ⟨T, hf, hb, hp, -⟩ := print_ok h
  have h1 : Facts (' ' :: synText lib e) T notRoot := form_facts [⟨_, _, _, hf⟩] notRoot_form (et := by txt_eq)
  have h2 : Facts (' ' :: synText lib e) T (notRoot ++ blankTable) := by
    intro x hx
    rcases List.mem_append.mp hx with hx | hx
    · exact h1 x hx
    · exact hb x hx
  exact end_parse (form_facts [⟨_, _, _, h2⟩] rootBlank_form (et := by txt_eq)) hp

theorem body_left (t : Txt) : embeddedDynaml (fun x => x) false ("(( ".toList ++ t ++ " ))".toList) = some (' ' :: t ++ [' ']) := by
  have h : dynamlBody ("(( ".toList ++ t ++ " ))".toList) = some (' ' :: t ++ [' ']) := by
    have e : "(( ".toList ++ t ++ " ))".toList = '(' :: '(' :: ((' ' :: t ++ [' ']) ++ [')', ')']) := by simp
    rw [e]
    unfold dynamlBody
    have h1 : "((".toList.isPrefixOf ('(' :: '(' :: ((' ' :: t ++ [' ']) ++ [')', ')'])) = true := by simp
    have h2 : isSuffix "))".toList ('(' :: '(' :: ((' ' :: t ++ [' ']) ++ [')', ')'])) = true := by simp [isSuffix]
    rw [h1, h2]
    simp only [Bool.and_self, if_true, List.drop_succ_cons, List.drop_zero, Option.some.injEq]
    rw [List.take_append_of_le_length (by simp)]
    exact List.take_of_length_le (by simp)
  unfold embeddedDynaml
  rw [h]
  rfl

/-- C66: what is written for a remaining expression is read as this expression with parentheses around the operands of `!` and `*` and of paths. -/
theorem written_read {s : Syn} (h : Printable lib cx .expr s) : ReadAs lib cx (leftText lib s) (regroup s) :=
  ⟨_, body_left _, print_parse_blank h⟩

/-- C66: the expression read evaluates like the one written, in every document. -/
theorem written_meaning {s : Syn} (h : Printable lib cx .expr s) {e : Ex} (he : toEx s = some e) (hv : hasValidOr e = false) :
    ∃ s' e', ReadAs lib cx (leftText lib s) s' ∧ toEx s' = some e' ∧ ∀ X b loc, Ev.Alike (eval X e b loc) (eval X e' b loc) := by
  refine ⟨regroup s, regroupEx e, written_read h, by rw [toEx_regroup, he]; rfl, fun X b loc => ?_⟩
  exact (eval_regroup X e hv b loc).alike

theorem hasValidOrL_false {l : List Ex} (h : ∀ a ∈ l, hasValidOr a = false) : hasValidOrL l = false := by
  induction l with
  | nil => rfl
  | cons a r ih => rw [hasValidOrL, h a List.mem_cons_self, ih (fun x hx => h x (List.mem_cons_of_mem _ hx))]; rfl

theorem ordinary_noValidOr {e : Ex} (h : Ordinary e) : hasValidOr e = false := by
  induction h with
  | list _ ih => rw [hasValidOr, hasValidOrL_false ih]; rfl
  | map _ ih => rw [hasValidOr, hasValidOrL_false ih]; rfl
  | call _ ih => rw [hasValidOr, hasValidOrL_false ih]; rfl
  | scope _ _ iha ih => rw [hasValidOr, hasValidOrL, iha, hasValidOrL_false ih]; rfl
  | _ => simp_all [hasValidOr, hasValidOrL, validOrOp]

/-- C66: a partial evaluation leaves an expression; it is written to the output and read again later. In the later state of the document it
has the outcome of the original expression. -/
theorem partial_output_equivalent {X : EvLib} (hX : X.Plain) {e r : Ex} {i : Info} (he : Ordinary e) {b b' : Bind} (hb : b.Clean)
    (hl : Bind.Le X b b') (h : eval X e b false = .val (.expr r) i) {s : Syn} (hs : toEx s = some r) (hp : Printable lib cx .expr s) :
    ∃ s' r', ReadAs lib cx (leftText lib s) s' ∧ toEx s' = some r' ∧
      (eval X e b' false = .crash ∨ Ev.Agree (eval X r' b' false) (eval X e b' false)) := by
  have ho := ((ordinary_eval hX he b hb).left _ _ h).1
  refine ⟨regroup s, regroupEx r, written_read hp, by rw [toEx_regroup, hs]; rfl, ?_⟩
  have h1 := residual_equivalent hX he hb hl h
  refine h1.imp id (fun h1 => ?_)
  have h2 := (eval_regroup X r (ordinary_noValidOr ho) b' false)
  generalize eval X (regroupEx r) b' false = o2 at h2 ⊢
  generalize eval X r b' false = o1 at h1 h2
  cases h2 with
  | value _ => exact h1
  | fail => exact h1
  | crash => exact h1
  | later _ =>
    generalize eval X e b' false = o at h1 ⊢
    cases h1 with
    | value hv _ => exact absurd rfl (hv _)
    | later hu => exact .later hu

end

/-! ### an example -/

/-- the remaining expression -/
def Ev.left? : Ev → Option Ex
  | .val (.expr e) _ => some e
  | _ => none

theorem Ev.left?_some {o : Ev} {e : Ex} (h : o.left? = some e) : ∃ i, o = .val (.expr e) i := by
  cases o with
  | val v i => cases v with
    | expr e' => simp only [Ev.left?, Option.some.injEq] at h; exact ⟨i, by rw [h]⟩
    | _ => simp [Ev.left?] at h
  | fail i => simp [Ev.left?] at h
  | crash => simp [Ev.left?] at h

/-- the parsed expression as an expression to be evaluated -/
def readEx (t : String) : Option Ex := (parseText t.toList).bind toEx

def refSyn (n : String) : Syn := .node (.ref [] [n.toList]) []

/-- `y == 2 ? !(x > y) : n`: with unknown `x` the text `!( x > y )` is left; read and evaluated for `x = 5` it is `false`, as the original -/
theorem partial_output_example :
    ∃ e r s, readEx "y == 2 ? !(x > y) :n" = some e ∧ Ordinary e ∧
      (eval plainEvLib e (twoRefs (.expr (Ex.ref ["z"]))) false).left? = some r ∧ toEx s = some r ∧ Printable plainPLib emptyPCtx .expr s ∧
      leftText plainPLib s = "(( !(x > y) ))".toList ∧
      (∃ v, (eval plainEvLib e (twoRefs (.int 5)) false).Is v ∧ v = .bool false) := by
  refine ⟨Ex.cond (Ex.bin (.cmp .eq) (Ex.ref ["y"]) (Ex.lit (.int 2))) (.node .not [.node .group [Ex.bin (.cmp .gt) (Ex.ref ["x"]) (Ex.ref ["y"])]]) (Ex.ref ["n"]),
    .node .not [Ex.bin (.cmp .gt) (Ex.ref ["x"]) (Ex.ref ["y"])], .node .not [.node (.cmp ">".toList) [refSyn "x", refSyn "y"]],
    by decide +kernel, ?_, by decide +kernel, by decide +kernel, ?_, by decide +kernel, ?_⟩
  · exact .cond (.bin (by simp) (.ref _) (.lit _)) (.not (.group (.bin (by simp) (.ref _) (.ref _)))) (.ref _)
  · have hx : Printable plainPLib emptyPCtx (.operand false 0) (refSyn "x") := printable_ref (by decide +kernel)
    have hy : Printable plainPLib emptyPCtx (.operand false 0) (refSyn "y") := printable_ref (by decide +kernel)
    have h : Printable plainPLib emptyPCtx (.operand false 4) (.node (.cmp ">".toList) [refSyn "x", refSyn "y"]) :=
      .infix (.cmp _) (by intro c hc; cases hc; decide +kernel) (printable_up hx 4 (by omega)) (printable_up hy 3 (by omega))
    exact .expr (printable_up (.not (.expr (printable_up h 4 (by omega)))) 7 (by omega))
  · exact ⟨_, ⟨_, rfl, rfl, by simp⟩, rfl⟩

/-! ### parentheses are lost -/

theorem synBeq_sound (a : Syn) : ∀ b, synBeq a b = true → a = b := by
  refine Syn.rec (motive_1 := fun a => ∀ b, synBeq a b = true → a = b) (motive_2 := fun l => ∀ l', synsBeq l l' = true → l = l') ?_ ?_ ?_ a
  · rintro op args ih ⟨op', args'⟩ h
    simp only [synBeq, Bool.and_eq_true, decide_eq_true_eq] at h
    rw [h.1, ih _ h.2]
  · intro l' h
    cases l' with
    | nil => rfl
    | cons _ _ => cases h
  · intro a r iha ihr l' h
    cases l' with
    | nil => cases h
    | cons a' r' =>
      simp only [synsBeq, Bool.and_eq_true] at h
      rw [iha _ h.1, ihr _ h.2]

theorem readAs_left {lib : PLib} {cx : PCtx} {s s' : Syn} (h : ParseTo lib cx (' ' :: synText lib s ++ [' ']) (.ok s')) : ReadAs lib cx (leftText lib s) s' :=
  ⟨_, body_left _, h⟩

/-- C66 (defect): the evaluation drops parentheses (grouped.go:18). With unknown `x` the expression `y - (x - 1)` leaves `y - x - 1`, which is read as
`(y - x) - 1`: for `y = 2`, `x = 5` the value is -4 instead of -2. -/
theorem partial_output_differs :
    ∃ e r r' s s', readEx "y - (x - 1)" = some e ∧ Ordinary e ∧ Bind.Le plainEvLib (twoRefs (.expr (Ex.ref ["z"]))) (twoRefs (.int 5)) ∧
      (∃ i, eval plainEvLib e (twoRefs (.expr (Ex.ref ["z"]))) false = .val (.expr r) i) ∧ toEx s = some r ∧
      leftText plainPLib s = "(( y - x - 1 ))".toList ∧ ReadAs plainPLib emptyPCtx (leftText plainPLib s) s' ∧ toEx s' = some r' ∧
      (eval plainEvLib e (twoRefs (.int 5)) false).Is (.int (-2)) ∧ (eval plainEvLib r (twoRefs (.int 5)) false).Is (.int (-2)) ∧
      (eval plainEvLib r' (twoRefs (.int 5)) false).Is (.int (-4)) := by
  refine ⟨Ex.bin .sub (Ex.ref ["y"]) (.node .group [Ex.bin .sub (Ex.ref ["x"]) (Ex.lit (.int 1))]),
    Ex.bin .sub (Ex.ref ["y"]) (Ex.bin .sub (Ex.ref ["x"]) (Ex.lit (.int 1))),
    Ex.bin .sub (Ex.bin .sub (Ex.ref ["y"]) (Ex.ref ["x"])) (Ex.lit (.int 1)),
    .node .sub [refSyn "y", .node .sub [refSyn "x", .node (.int 1) []]],
    .node .sub [.node .sub [refSyn "y", refSyn "x"], .node (.int 1) []],
    by decide +kernel, ?_, twoRefs_le _ _, Ev.left?_some (by decide +kernel), by decide +kernel, by decide +kernel, readAs_left ?_, by decide +kernel, ?_, ?_, ?_⟩
  · exact .bin (by simp) (.ref _) (.group (.bin (by simp) (.ref _) (.lit _)))
  · have h : (match parseText (' ' :: synText plainPLib (.node .sub [refSyn "y", .node .sub [refSyn "x", .node (.int 1) []]]) ++ [' ']) with
        | some e => synBeq e (.node .sub [.node .sub [refSyn "y", refSyn "x"], .node (.int 1) []])
        | none => false) = true := by decide +kernel
    split at h
    · rename_i e he
      rw [← synBeq_sound _ _ h]
      exact parseText_sound he
    · cases h
  · exact ⟨_, rfl, rfl, by simp⟩
  · exact ⟨_, rfl, rfl, by simp⟩
  · exact ⟨_, rfl, rfl, by simp⟩

end Spiff
