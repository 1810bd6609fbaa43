import Verif.Props.Print
import Verif.Props.Precedence
/-
C63: expressions whose printed text means something else, or is no expression at all; examples for the round trip.
-/
namespace Spiff

theorem synBeq_refl (e : Syn) : synBeq e e = true := by
  refine Syn.rec (motive_1 := fun e => synBeq e e = true) (motive_2 := fun l => synsBeq l l = true) ?_ ?_ ?_ e
  · intro op args ih
    simp [synBeq, ih]
  · rfl
  · intro a l h1 h2
    simp [synsBeq, h1, h2]

theorem parseText_sound {t : Txt} {e : Syn} (h : parseText t = some e) : ParseTo plainPLib emptyPCtx t (.ok e) := by
  unfold parseText at h
  cases hr : runText 200 t with
  | none => rw [hr] at h; cases h
  | some toks =>
    rw [hr] at h
    have := parse_run plainPLib emptyPCtx hr
    cases hb : buildExpression plainPLib emptyPCtx toks with
    | ok x =>
      simp only [hb] at h
      rw [hb] at this
      cases h
      exact this
    | err => simp only [hb] at h; cases h
    | crash => simp only [hb] at h; cases h

/-- is the text rejected by the grammar, or does it contain an invalid string? -/
def rejectText (t : Txt) : Bool :=
  match sexec noFacts 200 (.nt .Dynaml) (symOf t) with
  | .fail => true
  | .ok items _ _ => match buildExpression plainPLib emptyPCtx (noEnv.items items) with
    | .err => true
    | _ => false
  | .stuck => false

theorem rejectText_sound {t : Txt} (h : rejectText t = true) : ParseTo plainPLib emptyPCtx t .err := by
  unfold rejectText at h
  cases hx : sexec noFacts 200 (.nt .Dynaml) (symOf t) with
  | stuck => rw [hx] at h; cases h
  | fail =>
    have hs := sexec_sound noFacts_hold 200 (.nt .Dynaml) (symOf t)
    rw [hx] at hs
    refine .inl ⟨?_, rfl⟩
    rw [← text_symOf t]
    exact hs
  | ok items c s =>
    have hr : runText 200 t = some (noEnv.items items) := by
      unfold runText; rw [hx]
    have := parse_run plainPLib emptyPCtx hr
    rw [hx] at h
    cases hb : buildExpression plainPLib emptyPCtx (noEnv.items items) with
    | ok x => simp only [hb] at h; cases h
    | err => rw [hb] at this; exact this
    | crash => simp only [hb] at h; cases h

/-- the text of the expression means something else -/
def printChanges (src : String) : Bool :=
  match parseText src.toList with
  | some e => match parseText (synText plainPLib e) with
    | some e' => !synBeq (ungroup e') (ungroup e)
    | none => false
  | none => false

/-- the text of the expression is rejected -/
def printRejected (src : String) : Bool :=
  match parseText src.toList with
  | some e => rejectText (synText plainPLib e)
  | none => false

/-- The text of the parsed expression means something else. -/
def MeaningLost (src : String) : Prop :=
  ∃ e e', ParseTo plainPLib emptyPCtx src.toList (.ok e) ∧ ParseTo plainPLib emptyPCtx (synText plainPLib e) (.ok e') ∧ ungroup e' ≠ ungroup e

/-- The text of the parsed expression is no expression. -/
def TextRejected (src : String) : Prop :=
  ∃ e, ParseTo plainPLib emptyPCtx src.toList (.ok e) ∧ ParseTo plainPLib emptyPCtx (synText plainPLib e) .err

theorem printChanges_sound {src : String} (h : printChanges src = true) : MeaningLost src := by
  unfold printChanges at h
  cases h1 : parseText src.toList with
  | none => rw [h1] at h; cases h
  | some e =>
    rw [h1] at h
    cases h2 : parseText (synText plainPLib e) with
    | none => simp only [h2] at h; cases h
    | some e' =>
      simp only [h2] at h
      refine ⟨e, e', parseText_sound h1, parseText_sound h2, ?_⟩
      intro heq
      rw [heq, synBeq_refl] at h
      cases h

theorem printRejected_sound {src : String} (h : printRejected src = true) : TextRejected src := by
  unfold printRejected at h
  cases h1 : parseText src.toList with
  | none => rw [h1] at h; cases h
  | some e =>
    rw [h1] at h
    exact ⟨e, parseText_sound h1, rejectText_sound h⟩

/-- C63: the option `replace` of a merge is printed as `required`. -/
theorem print_merge_replace : MeaningLost "merge replace" := printChanges_sound (by decide +kernel)
/-- C63: the option `required` is not printed. -/
theorem print_merge_required : MeaningLost "merge required" := printChanges_sound (by decide +kernel)
/-- C63: `merge none` is printed as plain merge. -/
theorem print_merge_none : MeaningLost "merge none" := printChanges_sound (by decide +kernel)
/-- C63: the text of a slice is a dynamic index. -/
theorem print_slice : MeaningLost "a.[1..2]" := printChanges_sound (by decide +kernel)
/-- C63: half open ranges have no text. -/
theorem print_half_range : TextRejected "[1..]" := printRejected_sound (by decide +kernel)
/-- C63: control characters are printed with escapes the parser does not know. -/
theorem print_control : TextRejected "\"\\u0007\"" := printRejected_sound (by decide +kernel)
/-- C63: a string ending with a backslash is printed as a string without end. -/
theorem print_backslash : TextRejected "\"\\u005c\"" := printRejected_sound (by decide +kernel)

/-- C63: the further arguments of `sync` are not printed. -/
theorem print_sync : MeaningLost "sync[a|x|->b|10]" := printChanges_sound (by decide +kernel)
/-- C63: the text of a projection is no expression. -/
theorem print_projection : TextRejected "a.[*].b" := printRejected_sound (by decide +kernel)
/-- C63: an index with blanks is printed as a constant index, a part of the path. -/
theorem print_const_index : MeaningLost "a.[ 1 ]" := printChanges_sound (by decide +kernel)

/-! ### examples for the round trip -/

/-- a check for the first component of references -/
def firstKeyB (k : Txt) : Bool :=
  (match k with
   | c :: _ => isLetterChar c
   | [] => false) && k.all isKeyChar && ["true", "false", "nil", "auto", "merge", "lambda"].all (fun l => !(l.toList.isPrefixOf k)) &&
    decide (k ≠ "prefer".toList) && decide (k ≠ "doc".toList)

theorem firstKey_of {k : Txt} (h : firstKeyB k = true) : FirstKey k := by
  simp only [firstKeyB, Bool.and_eq_true, List.all_eq_true, decide_eq_true_eq] at h
  obtain ⟨⟨⟨⟨h1, h2⟩, h3⟩, h4⟩, h5⟩ := h
  refine ⟨?_, h2, ?_, h4, h5⟩
  · cases k with
    | nil => cases h1
    | cons c w => exact ⟨c, w, rfl, h1⟩
  · intro l hl hp
    have := h3 l hl
    rw [List.isPrefixOf_iff_prefix.mpr hp] at this
    cases this

theorem printable_ref {lib : PLib} {cx : PCtx} {k : Txt} (h : firstKeyB k = true) : Printable lib cx (.operand false 0) (.node (.ref [] [k]) []) :=
  .ref (firstKey_of h) (by simp)

theorem printable_up {lib : PLib} {cx : PCtx} {o : Bool} {k : Nat} {e : Syn} (h : Printable lib cx (.operand o k) e) (j : Nat) (hj : k + j ≤ 8) :
    Printable lib cx (.operand o (k + j)) e := by
  induction j with
  | zero => exact h
  | succ j ih => exact .up (ih (Nat.le_of_succ_le hj)) (Nat.lt_of_succ_le hj)

/-- Example: the hypothesis of the round trip is met by `map[a|x|->x * 2] || ! b`. -/
def roundExample : Syn :=
  .node .or [.node (.mapping "map".toList false) [refOf "a", lambdaSyn ["x".toList] [] false (.node .mul [refOf "x", .node (.int 2) []])],
    .node .not [refOf "b"]]

theorem roundExample_printable (lib : PLib) (cx : PCtx) : Printable lib cx .expr roundExample := by
  have ha : Printable lib cx (.operand false 0) (refOf "a") := printable_ref (by decide +kernel)
  have hb : Printable lib cx (.operand false 0) (refOf "b") := printable_ref (by decide +kernel)
  have hx : Printable lib cx (.operand false 0) (refOf "x") := printable_ref (by decide +kernel)
  have hm : Printable lib cx .expr (.node .mul [refOf "x", .node (.int 2) []]) :=
    .expr (printable_up (.infix .mul (by simp) (printable_up hx 2 (by omega)) (.int (by omega))) 6 (by omega))
  have hl : Printable lib cx .lam (lambdaSyn ["x".toList] [] false (.node .mul [refOf "x", .node (.int 2) []])) :=
    .lam (by simp [NameText]; decide) (by simp) (by simp) hm (by simp)
  exact .expr (.infix .or (by simp) (printable_up (.mapping (.map false) (printable_up ha 8 (by omega)) hl) 8 (by omega))
    (printable_up (.not (.expr (printable_up hb 8 (by omega)))) 6 (by omega)))

example : synText plainPLib roundExample = "map[a|x|->x * 2] || !(b)".toList := by decide +kernel
example : ParseTo plainPLib emptyPCtx "map[a|x|->x * 2] || !(b)".toList (.ok (regroup roundExample)) := by
  have := print_parse (roundExample_printable plainPLib emptyPCtx)
  rwa [show synText plainPLib roundExample = "map[a|x|->x * 2] || !(b)".toList by decide +kernel] at this

end Spiff
