import Verif.Props.Delay
/-
C56, continued: invariants of outcomes, and what is left of an expression.
-/
namespace Spiff

/-! ### operations yield no expressions -/

def NoExprOut (o : Out (Val Ex)) : Prop := ∀ v, o = .ok v → v.isExpr = false

theorem moveAddr_noexpr (lib : Lib) (ip : List Nat) (c : Option (List Nat × List Nat)) (k : Int) :
    NoExprOut (moveAddr lib ip c k) := by
  intro v h
  unfold moveAddr at h
  repeat' split at h
  all_goals first | (cases h; rfl) | cases h

theorem addVals_noexpr (lib : Lib) (a b : Val Ex) : NoExprOut (addVals lib a b) := by
  intro v h
  unfold addVals at h
  repeat' split at h
  all_goals first | (cases h; rfl) | (cases h; done) | exact moveAddr_noexpr _ _ _ _ v h

theorem subVals_noexpr (lib : Lib) (a b : Val Ex) : NoExprOut (subVals lib a b) := by
  intro v h
  unfold subVals at h
  repeat' split at h
  all_goals first | (cases h; rfl) | (cases h; done) | exact moveAddr_noexpr _ _ _ _ v h

theorem mulVals_noexpr (lib : Lib) (a b : Val Ex) : NoExprOut (mulVals lib a b) := by
  intro v h
  unfold mulVals at h
  repeat' split at h
  all_goals first | (cases h; rfl) | (cases h; done)

theorem divVals_noexpr (lib : Lib) (a b : Val Ex) : NoExprOut (divVals lib a b) := by
  intro v h
  unfold divVals at h
  repeat' split at h
  all_goals first | (cases h; rfl) | (cases h; done)

theorem modVals_noexpr (a b : Val Ex) : NoExprOut (modVals a b) := by
  intro v h
  unfold modVals at h
  repeat' split at h
  all_goals first | (cases h; rfl) | (cases h; done)

theorem concatVals_noexpr (s : String) (a b : Val Ex) : NoExprOut (concatVals s a b) := by
  intro v h
  unfold concatVals at h
  repeat' split at h
  all_goals first | (cases h; rfl) | (cases h; done)

theorem compareVals_noexpr (c : CmpOp) (a b : Val Ex) : NoExprOut (compareVals c a b) := by
  intro v h
  unfold compareVals ordVals at h
  repeat' split at h
  all_goals first | (cases h; rfl) | (cases h; done)

theorem logAnd_noexpr (a : Val Ex) (b : Option (Val Ex)) : NoExprOut (logAnd a b) := by
  intro v h
  unfold logAnd at h
  repeat' split at h
  all_goals first | (cases h; rfl) | (cases h; done)

theorem logOr_noexpr (a : Val Ex) (b : Option (Val Ex)) : NoExprOut (logOr a b) := by
  intro v h
  unfold logOr at h
  repeat' split at h
  all_goals first | (cases h; rfl) | (cases h; done)

theorem sliceVals_noexpr (a : Val Ex) (s t : Option Int) : NoExprOut (sliceVals a s t) := by
  intro v h
  unfold sliceVals at h
  repeat' split at h
  all_goals first | (cases h; rfl) | (cases h; done)

theorem outEv_noexpr {i : Info} {o : Out (Val Ex)} (h : NoExprOut o) : ∀ e j, outEv i o ≠ .val (.expr e) j := by
  intro e j he
  cases o with
  | ok v =>
    have := h v rfl
    simp only [outEv, Ev.val.injEq] at he
    rw [he.1] at this; cases this
  | err => cases he
  | undet => cases he
  | panic => cases he

theorem binVals_noexpr (X : EvLib) (op : BinOp) (a b : Val Ex) (i : Info) : ∀ e j, binVals X op a b i ≠ .val (.expr e) j := by
  cases op with
  | add => exact outEv_noexpr (addVals_noexpr _ _ _)
  | sub => exact outEv_noexpr (subVals_noexpr _ _ _)
  | mul => exact outEv_noexpr (mulVals_noexpr _ _ _)
  | div => exact outEv_noexpr (divVals_noexpr _ _ _)
  | mod => exact outEv_noexpr (modVals_noexpr _ _)
  | concat => exact outEv_noexpr (concatVals_noexpr _ _ _)
  | cmp c =>
    intro e j h
    simp only [binVals] at h
    have := compareVals_noexpr c a b
    generalize compareVals c a b = o at h this
    cases o with
    | ok v => have := this v rfl; simp only [Ev.val.injEq] at h; rw [h.1] at this; cases this
    | err => cases h
    | undet => cases h
    | panic => cases h

/-! ### invariants of the additional information -/

/-- the info of a value: defined, not raw, and without source if `s` -/
def Info.Inv (s : Bool) (i : Info) : Prop := i.undefined = false ∧ i.raw = false ∧ (s = true → i.source = "")

def EvInv (s : Bool) : Ev → Prop
  | .val _ i => i.Inv s
  | .fail i => i.Inv s
  | .crash => True

theorem EvInv.good {s : Bool} {o : Ev} (h : EvInv s o) : Good o := by
  cases o with
  | val v i => exact ⟨h.1, h.2.1⟩
  | fail => trivial
  | crash => trivial

theorem Info.Inv.join {s : Bool} {i j : Info} (hi : i.Inv s) (hj : j.Inv s) : (i.join j).Inv s := by
  refine ⟨?_, hi.2.1, hi.2.2⟩
  simp [Info.join, hi.1, hj.1]

theorem Info.inv_default (s : Bool) : ({} : Info).Inv s := ⟨rfl, rfl, fun _ => rfl⟩

theorem joinInfo_inv {s : Bool} {q : Option Info} {i : Info} (hq : ∀ j, q = some j → j.Inv s) (hi : i.Inv s) : (joinInfo q i).Inv s := by
  cases q with
  | none => exact hi
  | some j => exact (hq j rfl).join hi

/-- invariant of a resolved operand -/
def EvInvR (s : Bool) : Res → Prop
  | .done _ i => i.Inv s
  | .pend _ i => i.Inv s
  | .fail i => i.Inv s
  | .crash => True

theorem resolve_inv {s : Bool} (e : Ex) {q : Option Info} {o : Ev} (hq : ∀ j, q = some j → j.Inv s) (ho : EvInv s o) :
    EvInvR s (resolve e q o) := by
  cases o with
  | crash => trivial
  | fail k => exact joinInfo_inv hq ho
  | val w k =>
    cases hv : w.isExpr with
    | true => obtain ⟨f, rfl⟩ := Val.isExpr_true hv; exact joinInfo_inv hq ho
    | false => rw [resolve_val _ _ _ _ hv]; exact joinInfo_inv hq ho

theorem outEv_inv {s : Bool} {i : Info} (h : i.Inv s) (o : Out (Val Ex)) : EvInv s (outEv i o) := by
  cases o with
  | ok v => exact h
  | err => exact h
  | undet => exact h
  | panic => trivial

theorem binVals_inv {s : Bool} (X : EvLib) (op : BinOp) (a b : Val Ex) {i : Info} (h : i.Inv s) : EvInv s (binVals X op a b i) := by
  cases op with
  | cmp c =>
    simp only [binVals]
    split
    · exact h.join (Info.inv_default s)
    · exact ⟨rfl, rfl, fun _ => rfl⟩
    · exact h.join (Info.inv_default s)
    · trivial
  | _ => exact outEv_inv h _

theorem binEv_inv {s : Bool} (X : EvLib) (op : BinOp) (ea eb : Ex) {oa ob : Ev} (ha : EvInv s oa) (hb : EvInv s ob) :
    EvInv s (binEv X op ea eb oa ob) := by
  unfold binEv
  have h1 := resolve_inv (s := s) ea (q := none) (by simp) ha
  cases hr : resolve ea none oa with
  | crash => trivial
  | fail i => rw [hr] at h1; exact h1
  | done va i =>
    rw [hr] at h1
    have h2 := resolve_inv (s := s) eb (q := some i) (fun j hj => by cases hj; exact h1) hb
    simp only
    split
    · exact ⟨h1.1, h1.2.1, h1.2.2⟩
    · cases hr2 : resolve eb (some i) ob with
      | crash => trivial
      | fail i => rw [hr2] at h2; exact h2
      | pend e j => rw [hr2] at h2; exact h2
      | done vb j =>
        rw [hr2] at h2
        simp only
        split
        · exact ⟨h2.1, h2.2.1, h2.2.2⟩
        · exact binVals_inv _ _ _ _ h2
  | pend ea' i =>
    rw [hr] at h1
    have h2 := resolve_inv (s := s) eb (q := some i) (fun j hj => by cases hj; exact h1) hb
    simp only
    cases hr2 : resolve eb (some i) ob with
    | crash => trivial
    | fail i => rw [hr2] at h2; exact h2
    | pend e j => rw [hr2] at h2; exact h2
    | done vb j =>
      rw [hr2] at h2
      simp only
      split
      · exact ⟨h2.1, h2.2.1, h2.2.2⟩
      · exact h2

theorem notEv_inv {s : Bool} (e : Ex) {o : Ev} (h : EvInv s o) : EvInv s (notEv e o) := by
  unfold notEv
  have h1 := resolve_inv (s := s) e (q := none) (by simp) h
  cases hr : resolve e none o with
  | crash => trivial
  | fail i => rw [hr] at h1; exact h1
  | done va i => rw [hr] at h1; exact h1
  | pend ea' i => rw [hr] at h1; exact h1

theorem logEv_inv {s : Bool} (e : Ex) (f : Val Ex → Option (Val Ex) → Out (Val Ex)) {oa ob : Ev} (ha : EvInv s oa) (hb : EvInv s ob)
    : EvInv s (logEv e f oa ob) := by
  unfold logEv
  cases oa with
  | crash => trivial
  | fail => exact ⟨rfl, rfl, fun _ => rfl⟩
  | val va i =>
    simp only
    split
    · exact ha
    · cases ob with
      | crash => trivial
      | fail j => exact outEv_inv (Info.Inv.join ha hb) _
      | val vb j =>
        simp only
        split
        · exact Info.Inv.join ha hb
        · exact outEv_inv (Info.Inv.join ha hb) _

theorem orAlt_inv {s : Bool} {i : Info} {o : Ev} (hi : i.raw = false ∧ (s = true → i.source = "")) (ho : EvInv s o) : EvInv s (orAlt i o) := by
  cases o with
  | crash => trivial
  | fail j => exact ⟨ho.1, hi.1, hi.2⟩
  | val v j => exact ⟨ho.1, hi.1, hi.2⟩

theorem orEv_inv {s : Bool} (e : Ex) {oa ob : Ev} (ha : EvInv s oa) (hb : EvInv s ob) : EvInv s (orEv e oa ob) := by
  unfold orEv
  cases oa with
  | crash => trivial
  | fail i => exact orAlt_inv ⟨ha.2.1, ha.2.2⟩ hb
  | val v i =>
    simp only
    split
    · split <;> exact ha
    · exact orAlt_inv ⟨ha.2.1, ha.2.2⟩ hb

theorem condEv_inv {s : Bool} (ec et ef : Ex) {c t f : Ev} (hc : EvInv s c) (ht : EvInv s t) (hf : EvInv s f) : EvInv s (condEv ec et ef c t f) := by
  unfold condEv
  have h1 := resolve_inv (s := s) ec (q := none) (by simp) hc
  cases hr : resolve ec none c with
  | crash => trivial
  | fail i => rw [hr] at h1; exact (Info.inv_default s).join h1
  | pend e i => rw [hr] at h1; exact (Info.inv_default s).join h1
  | done v i =>
    rw [hr] at h1
    have h2 : EvInv s (if toBool v = true then t else f) := by split <;> assumption
    simp only
    generalize (if toBool v = true then t else f) = o at h2
    cases o with
    | crash => trivial
    | fail j => exact Info.Inv.join h2 ((Info.inv_default s).join h1)
    | val v j => exact Info.Inv.join h2 ((Info.inv_default s).join h1)

def EvInvL (s : Bool) : ResL → Prop
  | .ok _ _ _ i => i.Inv s
  | .fail i => i.Inv s
  | .crash => True

theorem EvInvL.cons {s : Bool} {r : ResL} (v : Val Ex) (e : Ex) (x : Bool) (h : EvInvL s r) : EvInvL s (r.cons v e x) := by
  cases r <;> exact h

theorem resolveArgs_inv {s : Bool} : ∀ {A : List (Ex × Ev)} (q : Option Info), (∀ j, q = some j → j.Inv s) → (∀ x ∈ A, EvInv s x.2) →
    EvInvL s (resolveArgs q A) := by
  intro A
  induction A with
  | nil =>
    intro q hq _
    cases q with
    | none => exact Info.inv_default s
    | some j => exact hq j rfl
  | cons x t ih =>
    intro q hq h
    obtain ⟨e, o⟩ := x
    have hg := resolve_inv e hq (h (e, o) (by simp))
    simp only [resolveArgs]
    cases hr : resolve e q o with
    | crash => trivial
    | fail => rw [hr] at hg; exact hg
    | done v i =>
      rw [hr] at hg
      exact (ih (some i) (fun j hj => by cases hj; exact hg) (fun y hy => h y (by simp [hy]))).cons _ _ _
    | pend v i =>
      rw [hr] at hg
      exact (ih (some i) (fun j hj => by cases hj; exact hg) (fun y hy => h y (by simp [hy]))).cons _ _ _

theorem listEv_inv {s : Bool} (b : Bind) {A : List (Ex × Ev)} (hn : NoExp A) (h : ∀ x ∈ A, EvInv s x.2) : EvInv s (listEv b A) := by
  unfold listEv
  rw [resolveList_eq hn]
  have := resolveArgs_inv (s := s) (A := A) none (by simp) h
  cases hr : resolveArgs none A with
  | crash => trivial
  | fail => rw [hr] at this; exact this
  | ok vs es r i => rw [hr] at this; simp only; split <;> exact this

theorem callEv_inv {s : Bool} (X : EvLib) (hX : X.Plain) (b : Bind) (fn : String) {A : List (Ex × Ev)} (hn : NoExp A)
    (h : ∀ x ∈ A, EvInv s x.2) : EvInv s (callEv X b fn A) := by
  unfold callEv
  rw [resolveList_eq hn]
  have := resolveArgs_inv (s := s) (A := A) none (by simp) h
  cases hr : resolveArgs none A with
  | crash => trivial
  | fail => rw [hr] at this; exact this
  | ok vs es r i =>
    rw [hr] at this
    simp only
    cases r with
    | false => exact this
    | true =>
      simp only [if_true]
      cases hf : X.fn fn with
      | none => exact this
      | some f =>
        simp only [this.1, Bool.and_false, Bool.false_eq_true, if_false]
        cases hv : f vs b.source with
        | ok x =>
          obtain ⟨v, sub⟩ := x
          obtain ⟨h1, h2, h3⟩ := hX fn f vs b.source v sub hf hv
          have : (sub.join i).Inv s := Info.Inv.join ⟨h1, h2, fun _ => h3⟩ this
          simp only
          split <;> exact this
        | err => exact Info.Inv.join (i := ({ localError := true, issue := "error" } : Info)) ⟨rfl, rfl, fun _ => rfl⟩ this
        | undet => exact Info.Inv.join (Info.inv_default s) this
        | panic => trivial

def EvInvM (s : Bool) : ResM → Prop
  | .pend i => i.Inv s
  | .fail i => i.Inv s
  | _ => True

theorem assignEv_inv {s : Bool} (b : Bind) : ∀ (n : Nat) (A : List (Ex × Ev)), A.length ≤ n → (∀ x ∈ A, EvInv s x.2) →
    ∀ acc, EvInvM s (assignEv b A acc) := by
  intro n
  induction n with
  | zero =>
    intro A hl h acc
    cases A with
    | nil => simp only [assignEv]; trivial
    | cons => simp at hl
  | succ n ih =>
    intro A hl h acc
    match A with
    | [] => simp only [assignEv]; trivial
    | [_] => simp only [assignEv]; trivial
    | (ek, k) :: (ev, v) :: r =>
      simp only [assignEv]
      have h1 := resolve_inv (s := s) ek (q := some {}) (fun j hj => by cases hj; exact Info.inv_default s) (h (ek, k) (by simp))
      cases hr : resolve ek (some {}) k with
      | crash => trivial
      | fail => rw [hr] at h1; exact h1
      | pend => rw [hr] at h1; exact h1
      | done key i =>
        rw [hr] at h1
        simp only
        split
        · have h2 := resolve_inv (s := s) ev (q := some i) (fun j hj => by cases hj; exact h1) (h (ev, v) (by simp))
          cases hr2 : resolve ev (some i) v with
          | crash => trivial
          | fail => rw [hr2] at h2; exact h2
          | pend => rw [hr2] at h2; exact h2
          | done val j =>
            exact ih _ (by simp only [List.length_cons] at hl; omega) (fun x hx => h x (by simp [hx])) _
        · exact h1

theorem mapEv_inv {s : Bool} (e : Ex) (b : Bind) {A : List (Ex × Ev)} (h : ∀ x ∈ A, EvInv s x.2) : EvInv s (mapEv e b A) := by
  unfold mapEv
  have := assignEv_inv (s := s) b A.length A (Nat.le_refl _) h []
  cases hr : assignEv b A [] with
  | crash => trivial
  | fail => rw [hr] at this; exact this
  | pend => rw [hr] at this; exact this
  | done => exact Info.inv_default s

theorem scopeEv_inv {s : Bool} (X : EvLib) (e : Ex) (b : Bind) {A : List (Ex × Ev)} (h : ∀ x ∈ A, EvInv s x.2) (body : Bind → Ev)
    (hb : ∀ m, EvInv s (body (b.withLocal X m))) : EvInv s (scopeEv X e b A body) := by
  unfold scopeEv
  have := assignEv_inv (s := s) b A.length A (Nat.le_refl _) h []
  cases hr : assignEv b A [] with
  | crash => trivial
  | fail => rw [hr] at this; exact this
  | pend => rw [hr] at this; exact this
  | done m =>
    simp only
    have := hb m
    generalize body (b.withLocal X m) = o at this
    cases o with
    | crash => trivial
    | fail => exact this
    | val v i => simp only; split <;> exact this

def EvInvI (s : Bool) : ResI → Prop
  | .fail i => i.Inv s
  | _ => True

theorem resolveInt_inv {s : Bool} (e : Ex) {o : Ev} (h : EvInv s o) : EvInvI s (resolveInt e o) := by
  unfold resolveInt
  have h1 := resolve_inv (s := s) e (q := some {}) (fun j hj => by cases hj; exact Info.inv_default s) h
  cases hr : resolve e (some {}) o with
  | crash => trivial
  | fail => rw [hr] at h1; exact h1
  | pend => trivial
  | done v i =>
    rw [hr] at h1
    simp only
    split
    · trivial
    · exact ⟨h1.1, h1.2.1, h1.2.2⟩

theorem boundsEv_inv {s : Bool} {a t : ResI} (ha : EvInvI s a) (ht : EvInvI s t) : ∀ o, boundsEv a t = .inr o → EvInv s o := by
  intro o h
  cases a <;> cases t <;> simp only [boundsEv, Sum.inr.injEq, reduceCtorEq] at h <;> subst h <;> first | trivial | assumption

theorem rangeEv_inv {s : Bool} (e es et : Ex) (b : Bind) {a t : Ev} (ha : EvInv s a) (ht : EvInv s t) : EvInv s (rangeEv e es et b a t) := by
  unfold rangeEv
  have := boundsEv_inv (resolveInt_inv es ha) (resolveInt_inv et ht)
  generalize boundsEv (resolveInt es a) (resolveInt et t) = x at this
  match x with
  | .inr o => exact this o rfl
  | .inl none => exact Info.inv_default s
  | .inl (some (x, y)) =>
    simp only
    split
    · exact Info.inv_default s
    · trivial

theorem sliceEv_inv {s : Bool} (X : EvLib) (e es et : Ex) {r : Ev} (a t : Option Ev) (hr : EvInv s r) :
    EvInv s (sliceEv X e es et r a t false) := by
  unfold sliceEv
  cases r with
  | crash => trivial
  | fail => exact hr
  | val v i =>
    simp only
    split
    · exact hr
    split
    · exact hr
    split
    · split
      · exact hr
      · split
        · trivial
        · exact hr
        · exact hr
        · exact outEv_inv hr _
    · exact hr

theorem findSteps_inv {s : Bool} (ctl : Bool) (e : Ex) (look : Nat → Look (Node Ex)) : ∀ (n k : Nat) (last : Node Ex) (o : Ev),
    findSteps ctl e look k n last = .inr o → EvInv s o := by
  intro n
  induction n with
  | zero => intro k last o h; simp [findSteps] at h
  | succ n ih =>
    intro k last o h
    simp only [findSteps] at h
    split at h
    · simp only [Sum.inr.injEq] at h; subst h; trivial
    · simp only [Sum.inr.injEq] at h; subst h; exact ⟨rfl, rfl, fun _ => rfl⟩
    · split at h
      · exact ih _ _ _ h
      · simp only [Sum.inr.injEq] at h; subst h; exact ⟨rfl, rfl, fun _ => rfl⟩

theorem refFind_inv {s : Bool} (ctl : Bool) (e : Ex) (len : Nat) (look : Nat → Look (Node Ex)) (loc : Bool) :
    EvInv s (refFind ctl e len look loc) := by
  unfold refFind
  split
  · trivial
  · split
    · rename_i o h; exact findSteps_inv _ _ _ _ _ _ _ h
    · unfold refResult
      split <;> exact ⟨rfl, rfl, fun _ => rfl⟩

theorem qualEv_inv {s : Bool} (X : EvLib) (e : Ex) (p : List String) {r : Ev} (hr : EvInv s r) : EvInv s (qualEv X e p r false) := by
  unfold qualEv
  cases r with
  | crash => trivial
  | fail => exact hr
  | val v i =>
    simp only
    split
    · split <;> exact hr
    split
    · exact hr
    · exact refFind_inv _ _ _ _ _

end Spiff
