import Verif.Spec.Eval
/-
C41: the alternatives `a || b` and `a // b`.
-/
namespace Spiff

theorem Val.isExpr_false {v : Val Ex} (h : ∀ e, v ≠ .expr e) : v.isExpr = false := by
  cases v <;> first | rfl | exact (h _ rfl).elim

theorem Val.isExpr_true {v : Val Ex} (h : v.isExpr = true) : ∃ e, v = .expr e := by
  cases v <;> first | (cases h; done) | exact ⟨_, rfl⟩

theorem Val.not_expr {v : Val Ex} (h : v.isExpr = false) : ∀ e, v ≠ .expr e := by
  intro e he; rw [he] at h; cases h

theorem eval_or (X : EvLib) (a b : Ex) (bd : Bind) (loc : Bool) :
    eval X (Ex.or a b) bd loc = orEv (Ex.or a b) (eval X a bd false) (eval X b bd false) := by
  simp [Ex.or, eval, evalL, sem]

theorem eval_validOr (X : EvLib) (a b : Ex) (bd : Bind) (loc : Bool) :
    eval X (Ex.validOr a b) bd loc = validOrEv (Ex.validOr a b) a (eval X a bd false) (eval X b bd false) := by
  simp [Ex.validOr, eval, evalL, sem]

theorem orAlt_same (i : Info) (o : Ev) : Ev.SameVal (orAlt i o) o := by
  cases o
  · exact .value rfl
  · exact .fail
  · exact .crash

/-- Every outcome is of exactly one of the kinds used by the following theorems. -/
theorem ev_cases (o : Ev) : (∃ v, o.Is v) ∨ o.Later ∨ o.Undef ∨ o = .crash := by
  cases o with
  | crash => simp
  | fail i => exact .inr (.inr (.inl (.inl ⟨i, rfl⟩)))
  | val v i =>
    cases hu : i.undefined with
    | true => exact .inr (.inr (.inl (.inr ⟨v, i, rfl, hu⟩)))
    | false =>
      cases hv : v.isExpr with
      | true => obtain ⟨e, rfl⟩ := Val.isExpr_true hv; exact .inr (.inl ⟨e, i, rfl, hu⟩)
      | false => exact .inl ⟨v, i, rfl, hu, Val.not_expr hv⟩

/-- C41: `a || b` is `a` if `a` has a value; `b` is not evaluated then: nothing depends on it, even if
it fails or crashes. -/
theorem or_first (X : EvLib) (a b : Ex) (bd : Bind) (loc : Bool) (v : Val Ex) (h : (eval X a bd false).Is v) :
    eval X (Ex.or a b) bd loc = eval X a bd false ∧ (eval X (Ex.or a b) bd loc).Is v := by
  have : eval X (Ex.or a b) bd loc = eval X a bd false := by
    obtain ⟨i, h1, h2, h3⟩ := h
    rw [eval_or, h1]; simp [orEv, h2, Val.isExpr_false h3]
  exact ⟨this, this ▸ h⟩

/-- C41: without a value for `a`, `a || b` is `b`: the same value, residual expression or failure. -/
theorem or_second (X : EvLib) (a b : Ex) (bd : Bind) (loc : Bool) (h : (eval X a bd false).Undef) :
    Ev.SameVal (eval X (Ex.or a b) bd loc) (eval X b bd false) := by
  rw [eval_or]
  obtain ⟨i, h⟩ | ⟨v, i, h, hu⟩ := h
  · rw [h]; exact orAlt_same _ _
  · rw [h]; simp only [orEv, hu, Bool.not_true, Bool.false_eq_true, if_false]; exact orAlt_same _ _

/-- C41: as long as `a` cannot be decided, the complete expression is kept. -/
theorem or_later (X : EvLib) (a b : Ex) (bd : Bind) (loc : Bool) (h : (eval X a bd false).Later) :
    ∃ i, eval X (Ex.or a b) bd loc = .val (.expr (Ex.or a b)) i ∧ i.undefined = false := by
  obtain ⟨e, i, h, hu⟩ := h
  exact ⟨i, by rw [eval_or, h]; simp [orEv, hu, Val.isExpr], hu⟩

/-- C41: the value of `a || b`, completely. -/
theorem or_is_iff (X : EvLib) (a b : Ex) (bd : Bind) (loc : Bool) (v : Val Ex) :
    (eval X (Ex.or a b) bd loc).Is v ↔
      (eval X a bd false).Is v ∨ ((eval X a bd false).Undef ∧ (eval X b bd false).Is v) := by
  constructor
  · intro h
    rcases ev_cases (eval X a bd false) with ⟨w, hw⟩ | hl | hu | hc
    · rw [(or_first X a b bd loc w hw).1] at h; exact .inl h
    · obtain ⟨i, h1, h2⟩ := or_later X a b bd loc hl
      obtain ⟨j, h3, _, h4⟩ := h
      rw [h1] at h3; cases h3; exact (h4 _ rfl).elim
    · refine .inr ⟨hu, ?_⟩
      have hs := or_second X a b bd loc hu
      obtain ⟨j, h3, h5, h4⟩ := h
      rw [h3] at hs
      generalize eval X b bd false = o at hs
      cases hs with
      | value hh => exact ⟨_, rfl, hh ▸ h5, h4⟩
    · rw [eval_or, hc] at h; obtain ⟨j, h3, _⟩ := h; cases h3
  · rintro (h | ⟨h, hb⟩)
    · exact (or_first X a b bd loc v h).2
    · have hs := or_second X a b bd loc h
      obtain ⟨j, h3, h5, h4⟩ := hb
      rw [h3] at hs
      generalize eval X (Ex.or a b) bd loc = o at hs
      cases hs with
      | value hh => exact ⟨_, rfl, hh.trans h5, h4⟩

theorem Agree_refl (o : Ev) : Ev.Agree o o := by
  cases o with
  | crash => exact .crash
  | fail i => exact .fail
  | val v i =>
    cases hv : v.isExpr with
    | true => obtain ⟨e, rfl⟩ := Val.isExpr_true hv; exact .later rfl
    | false => exact .value (Val.not_expr hv) rfl

theorem orAlt_agree (i j : Info) (o : Ev) : Ev.Agree (orAlt i o) (orAlt j o) := by
  cases o with
  | crash => exact .crash
  | fail i => exact .fail
  | val v i =>
    cases hv : v.isExpr with
    | true => obtain ⟨e, rfl⟩ := Val.isExpr_true hv; exact .later rfl
    | false => exact .value (Val.not_expr hv) rfl

/-- C41: `||` is associative. -/
theorem or_assoc (X : EvLib) (a b c : Ex) (bd : Bind) (loc : Bool) :
    Ev.Agree (eval X (Ex.or (Ex.or a b) c) bd loc) (eval X (Ex.or a (Ex.or b c)) bd loc) := by
  simp only [eval_or]
  generalize eval X a bd false = oa
  generalize eval X b bd false = ob
  generalize eval X c bd false = oc
  have hb : ∀ i : Info, Ev.Agree (orEv (Ex.or (Ex.or a b) c) (orAlt i ob) oc) (orAlt i (orEv (Ex.or b c) ob oc)) := by
    intro i
    cases ob with
    | crash => exact .crash
    | fail j => simp only [orAlt, orEv]; cases oc <;> simp only [orAlt] <;> first | exact .fail | exact .crash | skip
                rename_i v k
                cases hv : v.isExpr with
                | true => obtain ⟨e, rfl⟩ := Val.isExpr_true hv; exact .later rfl
                | false => exact .value (Val.not_expr hv) rfl
    | val v j =>
      cases hu : j.undefined with
      | true =>
        simp only [orAlt, orEv, hu, Bool.not_true, Bool.false_eq_true, if_false]
        cases oc with
        | crash => exact .crash
        | fail j => exact .fail
        | val w k =>
          cases hv : w.isExpr with
          | true => obtain ⟨e, rfl⟩ := Val.isExpr_true hv; exact .later rfl
          | false => exact .value (Val.not_expr hv) rfl
      | false =>
        simp only [orAlt, orEv, hu, Bool.not_false, if_true]
        cases hv : v.isExpr with
        | true => simp only [if_true]; exact .later (by simp [orAlt, hu])
        | false => simp only [Bool.false_eq_true, if_false]; exact .value (Val.not_expr hv) (by simp [orAlt, hu])
  cases oa with
  | crash => exact .crash
  | fail i => exact hb _
  | val v i =>
    cases hu : i.undefined with
    | true => simp only [orEv, hu, Bool.not_true, Bool.false_eq_true, if_false]; exact hb _
    | false =>
      cases hv : v.isExpr with
      | true =>
        obtain ⟨e, rfl⟩ := Val.isExpr_true hv
        simp only [orEv, hu, Bool.not_false, if_true, Val.isExpr]; exact .later rfl
      | false =>
        simp only [orEv, hu, Bool.not_false, if_true, hv, Bool.false_eq_true, if_false]
        exact .value (Val.not_expr hv) rfl

/-- C41: `a // b` is `a` if `a` has a value other than nil. -/
theorem validOr_first (X : EvLib) (a b : Ex) (bd : Bind) (loc : Bool) (v : Val Ex) (i : Info)
    (h : eval X a bd false = .val v i) (he : ∀ e, v ≠ .expr e) (hn : v ≠ .nil) :
    eval X (Ex.validOr a b) bd loc = .val v i := by
  rw [eval_validOr, h]
  cases v <;> simp_all [validOrEv]

/-- C41: `a // b` is `b` if `a` fails or is nil (this includes `~` and `~~`). -/
theorem validOr_second (X : EvLib) (a b : Ex) (bd : Bind) (loc : Bool)
    (h : (∃ i, eval X a bd false = .fail i) ∨ ∃ i, eval X a bd false = .val .nil i) :
    Ev.SameVal (eval X (Ex.validOr a b) bd loc) (eval X b bd false) := by
  rw [eval_validOr]
  rcases h with ⟨i, h⟩ | ⟨i, h⟩ <;> rw [h] <;> exact orAlt_same _ _

/-- C41: as long as `a` cannot be decided, `a // b` is kept, or fails (to be tried again) if nothing of `a` could be evaluated. -/
theorem validOr_later (X : EvLib) (a b : Ex) (bd : Bind) (loc : Bool) (e : Ex) (i : Info)
    (h : eval X a bd false = .val (.expr e) i) :
    (e ≠ a → eval X (Ex.validOr a b) bd loc = .val (.expr (Ex.validOr a b)) i) ∧
    (e = a → eval X (Ex.validOr a b) bd loc = .fail i) := by
  rw [eval_validOr, h]
  constructor <;> intro he <;> simp [validOrEv, he]

/-- the residual of an undecided reference is the reference itself -/
theorem ref_later_self (X : EvLib) (p : List String) (bd : Bind) (loc : Bool) (e : Ex) (i : Info)
    (h : eval X (Ex.ref p) bd loc = .val (.expr e) i) :
    e = Ex.ref p := by
  have key : ∀ (look : Nat → Look (Node Ex)) (n k : Nat) (last : Node Ex) (ee : Ex) (o : Ev),
      findSteps X.ctl ee look k n last = .inr o → ∀ f j, o = .val (.expr f) j → f = ee := by
    intro look n
    induction n with
    | zero => intro k last ee o h; simp [findSteps] at h
    | succ n ih =>
      intro k last ee o h f j ho
      simp only [findSteps] at h
      cases hl : look k with
      | panic => rw [hl] at h; simp only [Sum.inr.injEq] at h; subst h; cases ho
      | missing => rw [hl] at h; simp only [Sum.inr.injEq] at h; subst h; cases ho
      | found step =>
        rw [hl] at h; simp only at h
        split at h
        · exact ih _ _ _ _ h f j ho
        · simp only [Sum.inr.injEq] at h; subst h; cases ho; rfl
  have key2 : ∀ (look : Nat → Look (Node Ex)) (n k : Nat) (last : Node Ex) (ee : Ex) (s : Node Ex),
      findSteps X.ctl ee look k n last = .inl s → n ≠ 0 → localReady X.ctl s.val := by
    intro look n
    induction n with
    | zero => intro k last ee o h hn; exact (hn rfl).elim
    | succ n ih =>
      intro k last ee o h _
      simp only [findSteps] at h
      cases hl : look k with
      | panic => rw [hl] at h; simp at h
      | missing => rw [hl] at h; simp at h
      | found step =>
        rw [hl] at h; simp only at h
        split at h
        · cases n with
          | zero => simp only [findSteps, Sum.inl.injEq] at h; subst h; assumption
          | succ n => exact ih _ _ _ _ h (by simp)
        · simp at h
  simp only [Ex.ref, eval, evalL, sem, refFind] at h
  split at h
  · cases h
  · rename_i hp
    split at h
    · rename_i o ho; exact key _ _ _ _ _ _ ho e i h
    · rename_i s hs
      have hr := key2 _ _ _ _ _ _ hs hp
      unfold refResult at h
      split at h
      · cases h; rfl
      · rw [Ev.val.injEq] at h
        exfalso
        have h1 := h.1
        rw [h1] at hr
        simp [localReady] at hr

/-- C41, defect: if `a` is a reference not yet decided, `a // b` fails instead of being kept, so an enclosing `|| c` selects `c`
although `a` may get a value later. -/
theorem validOr_unresolved_defect (X : EvLib) (p : List String) (b c : Ex) (bd : Bind) (loc : Bool)
    (h : (eval X (Ex.ref p) bd false).Later) :
    Ev.SameVal (eval X (Ex.or (Ex.validOr (Ex.ref p) b) c) bd loc) (eval X c bd false) := by
  obtain ⟨e, i, h, _⟩ := h
  have he := ref_later_self X p bd false e i h
  apply or_second
  exact .inl ⟨i, (validOr_later X (Ex.ref p) b bd false e i h).2 he⟩

/-! ### examples -/

/-- a library without functions -/
def plainEvLib : EvLib where
  ctl := false
  lib := { parseIP := fun _ => none, parseCIDR := fun _ => none, showIP := fun _ => "", showNet := fun _ _ => "", fadd := fun a _ => a,
           fsub := fun a _ => a, fmul := fun a _ => a, fdiv := fun a _ => a, ofInt := fun _ => 0 }
  fn := fun _ => none
  pathComponents := fun s => [s]

/-- a document with the field `x` (resolved or not) and `y` -/
def exampleBind (x : Val Ex) : Bind where
  ref := fun p => findR false true (Node.new (.map [("x", Node.new x ""), ("y", Node.new (.int 2) "")]) "") p
  root := fun p => findR false true (Node.new (.map [("x", Node.new x ""), ("y", Node.new (.int 2) "")]) "") p
  stub := fun _ => none
  path := []
  source := "example"

def Ev.int? : Ev → Option Int
  | .val (.int i) _ => some i
  | _ => none

def Ev.isLater : Ev → Bool
  | .val (.expr _) i => !i.undefined
  | _ => false

/-- `(x // 0) || y`: 2 while `x` is unresolved, 1 after `x` has been resolved to 1. With `x || y` there is no
result as long as `x` is unresolved. -/
example :
    (eval plainEvLib (Ex.or (Ex.validOr (Ex.ref ["x"]) (Ex.lit (.int 0))) (Ex.ref ["y"]))
      (exampleBind (.expr (Ex.ref ["z"]))) false).int? = some 2 ∧
    (eval plainEvLib (Ex.or (Ex.validOr (Ex.ref ["x"]) (Ex.lit (.int 0))) (Ex.ref ["y"])) (exampleBind (.int 1)) false).int? = some 1 ∧
    (eval plainEvLib (Ex.or (Ex.ref ["x"]) (Ex.ref ["y"])) (exampleBind (.expr (Ex.ref ["z"]))) false).isLater = true ∧
    (eval plainEvLib (Ex.or (Ex.ref ["x"]) (Ex.ref ["y"])) (exampleBind (.int 1)) false).int? = some 1 ∧
    (eval plainEvLib (Ex.or (Ex.ref ["n"]) (Ex.ref ["y"])) (exampleBind (.int 1)) false).int? = some 2 ∧
    (eval plainEvLib (Ex.validOr (Ex.ref ["x"]) (Ex.ref ["y"])) (exampleBind .nil) false).int? = some 2 := by
  decide +kernel

end Spiff
