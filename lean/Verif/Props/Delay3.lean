import Verif.Props.Delay2
import Verif.Lemmas.NodeSimp
import Verif.Lemmas.Maps
/-
C56, continued: what is left of an expression.
-/
namespace Spiff

theorem Ordinary.noExpand {e : Ex} (h : Ordinary e) : isExpand e = false := by
  cases h <;> rfl

theorem noMergeL_iff (l : List Ex) : noMergeL l = true ↔ ∀ e ∈ l, noMerge e = true := by
  induction l with
  | nil => simp [noMergeL]
  | cons a r ih => simp [noMergeL, ih]

theorem srcOk_of_noMerge {e : Ex} (h : noMerge e = true) : srcOk e = true := by
  unfold srcOk
  split
  · rfl
  · simp only [noMerge, noMergeL, Bool.and_eq_true] at h; exact h.2.2.1
  · exact h

/-! ### the remaining expressions -/

theorem binEv_left {X : EvLib} {op : BinOp} {ea eb : Ex} {oa ob : Ev} (ha : isExpand ea = false) (hb : isExpand eb = false) {e' : Ex} {i : Info}
    (h : binEv X op ea eb oa ob = .val (.expr e') i) :
    ∃ x y, e' = Ex.bin op x y ∧ (x = ea ∨ ∃ i, oa = .val (.expr x) i) ∧ (y = eb ∨ ∃ i, ob = .val (.expr y) i) := by
  unfold binEv at h
  cases hr : resolve ea none oa with
  | crash => rw [hr] at h; cases h
  | fail => rw [hr] at h; cases h
  | done va k =>
    rw [hr] at h
    simp only at h
    split at h
    · cases h
    · cases hr2 : resolve eb (some k) ob with
      | crash => rw [hr2] at h; cases h
      | fail => rw [hr2] at h; cases h
      | pend y j =>
        rw [hr2] at h
        simp only [Ev.val.injEq, Val.expr.injEq] at h
        obtain ⟨k', hk, _⟩ := resolve_pend hb hr2
        exact ⟨ea, y, h.1.symm, .inl rfl, .inr ⟨k', hk⟩⟩
      | done vb j =>
        rw [hr2] at h
        simp only at h
        split at h
        · cases h
        · exact (binVals_noexpr _ _ _ _ _ _ _ h).elim
  | pend x k =>
    obtain ⟨k1, hk1, _⟩ := resolve_pend ha hr
    rw [hr] at h
    simp only at h
    cases hr2 : resolve eb (some k) ob with
    | crash => rw [hr2] at h; cases h
    | fail => rw [hr2] at h; cases h
    | pend y j =>
      rw [hr2] at h
      simp only [Ev.val.injEq, Val.expr.injEq] at h
      obtain ⟨k', hk, _⟩ := resolve_pend hb hr2
      exact ⟨x, y, h.1.symm, .inr ⟨k1, hk1⟩, .inr ⟨k', hk⟩⟩
    | done vb j =>
      rw [hr2] at h
      simp only at h
      split at h
      · cases h
      · simp only [Ev.val.injEq, Val.expr.injEq] at h
        exact ⟨x, eb, h.1.symm, .inr ⟨k1, hk1⟩, .inl rfl⟩

theorem notEv_left {ea : Ex} {oa : Ev} (ha : isExpand ea = false) {e' : Ex} {i : Info} (h : notEv ea oa = .val (.expr e') i) :
    ∃ x, e' = .node .not [x] ∧ ∃ i, oa = .val (.expr x) i := by
  unfold notEv at h
  cases hr : resolve ea none oa with
  | crash => rw [hr] at h; cases h
  | fail => rw [hr] at h; cases h
  | done va k => rw [hr] at h; simp at h
  | pend x k =>
    obtain ⟨k1, hk1, _⟩ := resolve_pend ha hr
    rw [hr] at h
    simp only [Ev.val.injEq, Val.expr.injEq] at h
    exact ⟨x, h.1.symm, k1, hk1⟩

theorem logEv_left {e : Ex} {f : Val Ex → Option (Val Ex) → Out (Val Ex)} (hf : ∀ a b, NoExprOut (f a b)) {oa ob : Ev} {e' : Ex} {i : Info}
    (h : logEv e f oa ob = .val (.expr e') i) : e' = e := by
  unfold logEv at h
  cases oa with
  | crash => cases h
  | fail => cases h
  | val va k =>
    simp only at h
    split at h
    · simp only [Ev.val.injEq, Val.expr.injEq] at h; exact h.1.symm
    · cases ob with
      | crash => cases h
      | fail j => exact (outEv_noexpr (hf _ _) _ _ h).elim
      | val vb j =>
        simp only at h
        split at h
        · simp only [Ev.val.injEq, Val.expr.injEq] at h; exact h.1.symm
        · exact (outEv_noexpr (hf _ _) _ _ h).elim

theorem orAlt_left {i : Info} {o : Ev} {e' : Ex} {j : Info} (h : orAlt i o = .val (.expr e') j) : ∃ k, o = .val (.expr e') k := by
  cases o with
  | crash => cases h
  | fail => cases h
  | val v k => simp only [orAlt, Ev.val.injEq] at h; exact ⟨k, by rw [h.1]⟩

/-- what is left of `a || b`: the expression itself as long as `a` is undecided, or what is left of `b`, if `a` fails -/
theorem orEv_left {e : Ex} {oa ob : Ev} (hg : Good oa) {e' : Ex} {i : Info} (h : orEv e oa ob = .val (.expr e') i) :
    (e' = e ∧ ∃ x i, oa = .val (.expr x) i) ∨ ((∃ i, oa = .fail i) ∧ ∃ k, ob = .val (.expr e') k) := by
  cases oa with
  | crash => cases h
  | fail k => exact .inr ⟨⟨k, rfl⟩, orAlt_left h⟩
  | val v k =>
    simp only [orEv, hg.1, Bool.not_false, if_true] at h
    split at h
    · rename_i hv
      obtain ⟨x, rfl⟩ := Val.isExpr_true hv
      simp only [Ev.val.injEq, Val.expr.injEq] at h; exact .inl ⟨h.1.symm, x, k, rfl⟩
    · rename_i hv; simp only [Ev.val.injEq] at h; rw [h.1] at hv; exact (hv rfl).elim

/-- what is left of a conditional expression -/
theorem condEv_left {ec et ef : Ex} {c t f : Ev} (hc : isExpand ec = false) {e' : Ex} {i : Info}
    (h : condEv ec et ef c t f = .val (.expr e') i) :
    (∃ x k, e' = Ex.cond x et ef ∧ c = .val (.expr x) k) ∨
    (∃ v k, c = .val v k ∧ v.isExpr = false ∧ toBool v = true ∧ ∃ j, t = .val (.expr e') j) ∨
    (∃ v k, c = .val v k ∧ v.isExpr = false ∧ toBool v = false ∧ ∃ j, f = .val (.expr e') j) := by
  unfold condEv at h
  cases hr : resolve ec none c with
  | crash => rw [hr] at h; cases h
  | fail => rw [hr] at h; cases h
  | pend x k =>
    obtain ⟨k1, hk1, _⟩ := resolve_pend hc hr
    rw [hr] at h
    simp only [Ev.val.injEq, Val.expr.injEq] at h
    exact .inl ⟨x, k1, h.1.symm, hk1⟩
  | done v k =>
    obtain ⟨k1, hk1, _, hv⟩ := resolve_done hr
    rw [hr] at h
    simp only at h
    have aux : ∀ o : Ev, (match o with
      | .crash => Ev.crash
      | .fail j => .fail (j.join (({} : Info).join k))
      | .val r j => .val r (j.join (({} : Info).join k))) = .val (.expr e') i → ∃ j, o = .val (.expr e') j := by
      intro o ho
      cases o with
      | crash => cases ho
      | fail => cases ho
      | val w j => simp only [Ev.val.injEq] at ho; exact ⟨j, by rw [ho.1]⟩
    cases hb : toBool v with
    | true => simp only [hb, if_true] at h; exact .inr (.inl ⟨v, k1, hk1, hv, hb, aux t h⟩)
    | false => simp only [hb, Bool.false_eq_true, if_false] at h; exact .inr (.inr ⟨v, k1, hk1, hv, hb, aux f h⟩)

theorem listEv_left {b : Bind} {A : List (Ex × Ev)} (hn : NoExp A) {e' : Ex} {i : Info} (h : listEv b A = .val (.expr e') i) :
    ∃ es, e' = Ex.list es ∧ Left A es := by
  unfold listEv at h
  rw [resolveList_eq hn] at h
  cases hr : resolveArgs none A with
  | crash => rw [hr] at h; cases h
  | fail => rw [hr] at h; cases h
  | ok vs es r k =>
    rw [hr] at h
    cases r with
    | true => simp at h
    | false =>
      simp only [Bool.false_eq_true, if_false, Ev.val.injEq, Val.expr.injEq] at h
      exact ⟨es, h.1.symm, (resolveArgs_left none hn hr).1⟩

theorem callEv_left {X : EvLib} {b : Bind} {fn : String} {A : List (Ex × Ev)} (hn : NoExp A) {e' : Ex} {i : Info}
    (h : callEv X b fn A = .val (.expr e') i) : ∃ es, e' = Ex.call fn es ∧ Left A es := by
  unfold callEv at h
  rw [resolveList_eq hn] at h
  cases hr : resolveArgs none A with
  | crash => rw [hr] at h; cases h
  | fail => rw [hr] at h; cases h
  | ok vs es r k =>
    have hl := (resolveArgs_left none hn hr).1
    rw [hr] at h
    cases r with
    | false =>
      simp only [Bool.false_eq_true, if_false, Ev.val.injEq, Val.expr.injEq] at h
      exact ⟨es, h.1.symm, hl⟩
    | true =>
      simp only [if_true] at h
      cases hf : X.fn fn with
      | none => rw [hf] at h; cases h
      | some f =>
        rw [hf] at h
        simp only at h
        split at h
        · simp at h
        · cases hv : f vs b.source with
          | ok x =>
            obtain ⟨v, sub⟩ := x
            rw [hv] at h
            simp only at h
            split at h
            · simp only [Ev.val.injEq, Val.expr.injEq] at h; exact ⟨es, h.1.symm, hl⟩
            · rename_i hve; simp only [Ev.val.injEq] at h; rw [h.1] at hve; exact (hve rfl).elim
          | err => rw [hv] at h; cases h
          | undet => rw [hv] at h; cases h
          | panic => rw [hv] at h; cases h

theorem mapEv_left {e : Ex} {b : Bind} {A : List (Ex × Ev)} {e' : Ex} {i : Info} (h : mapEv e b A = .val (.expr e') i) : e' = e := by
  unfold mapEv at h
  cases hr : assignEv b A [] with
  | crash => rw [hr] at h; cases h
  | fail => rw [hr] at h; cases h
  | done => rw [hr] at h; simp at h
  | pend => rw [hr] at h; simp only [Ev.val.injEq, Val.expr.injEq] at h; exact h.1.symm

theorem scopeEv_left {X : EvLib} {e : Ex} {b : Bind} {A : List (Ex × Ev)} {body : Bind → Ev} {e' : Ex} {i : Info}
    (h : scopeEv X e b A body = .val (.expr e') i) : e' = e := by
  unfold scopeEv at h
  cases hr : assignEv b A [] with
  | crash => rw [hr] at h; cases h
  | fail => rw [hr] at h; cases h
  | pend => rw [hr] at h; simp only [Ev.val.injEq, Val.expr.injEq] at h; exact h.1.symm
  | done m =>
    rw [hr] at h
    simp only at h
    generalize body (b.withLocal X m) = o at h
    cases o with
    | crash => cases h
    | fail => cases h
    | val v k =>
      simp only at h
      split at h
      · simp only [Ev.val.injEq, Val.expr.injEq] at h; exact h.1.symm
      · rename_i hve; simp only [Ev.val.injEq] at h; rw [h.1] at hve; exact (hve rfl).elim

theorem boundsEv_noval (s t : ResI) : ∀ v i, boundsEv s t ≠ .inr (.val v i) := by
  intro v i h
  cases s <;> cases t <;> simp [boundsEv] at h

theorem rangeEv_left {e es et : Ex} {b : Bind} {s t : Ev} {e' : Ex} {i : Info} (h : rangeEv e es et b s t = .val (.expr e') i) : e' = e := by
  unfold rangeEv at h
  cases hr : boundsEv (resolveInt es s) (resolveInt et t) with
  | inr o =>
    rw [hr] at h
    simp only at h
    exact (boundsEv_noval _ _ _ _ (hr.trans (by rw [h]))).elim
  | inl x =>
    rw [hr] at h
    cases x with
    | none => simp only [Ev.val.injEq, Val.expr.injEq] at h; exact h.1.symm
    | some x =>
      obtain ⟨x, y⟩ := x
      simp only at h
      split at h
      · simp at h
      · cases h

theorem sliceEv_left {X : EvLib} {e es et : Ex} {r : Ev} {s t : Option Ev} {e' : Ex} {i : Info}
    (h : sliceEv X e es et r s t false = .val (.expr e') i) : e' = e := by
  unfold sliceEv at h
  cases r with
  | crash => cases h
  | fail => cases h
  | val v k =>
    simp only at h
    split at h
    · simp only [Ev.val.injEq, Val.expr.injEq] at h; exact h.1.symm
    split at h
    · simp only [Ev.val.injEq, Val.expr.injEq] at h; exact h.1.symm
    split at h
    · split at h
      · cases h
      · split at h
        · cases h
        · cases h
        · simp only [Ev.val.injEq, Val.expr.injEq] at h; exact h.1.symm
        · exact (outEv_noexpr (sliceVals_noexpr _ _ _) _ _ h).elim
    · cases h

/-! ### lookups in complete values -/

theorem completeL_iff (ctl : Bool) (l : List (Node Ex)) : completeL ctl l = true ↔ ∀ n ∈ l, completeV ctl n.val = true := by
  induction l with
  | nil => simp [completeL]
  | cons n r ih => cases n with | mk v s a => simp [completeL, completeN, ih]

theorem completeM_iff (ctl : Bool) (l : List (String × Node Ex)) :
    completeM ctl l = true ↔ ∀ e ∈ l, completeV ctl e.2.val = true := by
  induction l with
  | nil => simp [completeM]
  | cons n r ih => obtain ⟨k, n⟩ := n; cases n with | mk v s a => simp [completeM, completeN, ih]

theorem completeM_get {ctl : Bool} {m : List (String × Node Ex)} (h : completeM ctl m = true) {k : String} {n : Node Ex}
    (hg : mget m k = some n) : completeV ctl n.val = true :=
  (completeM_iff ctl m).1 h _ (mget_some_mem hg)

/-- complete values are usable at once -/
theorem localReady_of_complete {ctl : Bool} {v : Val Ex} (h : completeV ctl v = true) : localReady ctl v = true := by
  cases v with
  | expr => simp [completeV] at h
  | map m => simp only [completeV, Bool.and_eq_true] at h; exact h.1
  | list l =>
    simp only [completeV] at h
    simp only [localReady, isListResolved, List.all_eq_true]
    intro n hn
    have hc := (completeL_iff ctl l).1 h n hn
    unfold listEntryMerge
    cases hv : n.val with
    | map m =>
      rw [hv] at hc
      simp only [completeV, Bool.and_eq_true, isMapResolved, Option.isNone_iff_eq_none] at hc
      match m with
      | [] => rfl
      | [(k, x)] =>
        simp only [Option.isNone_iff_eq_none]
        split
        · rename_i hk; subst hk; simp [mget] at hc
        · split
          · rename_i hk; subst hk; simp [mget] at hc
          · rfl
      | _ :: _ :: _ => rfl
    | _ => rfl
  | _ => rfl

theorem findNamed_found_mem (ctl raw : Bool) (l : List (Node Ex)) (k s : String) (n : Node Ex) (h : findNamed ctl raw l k s = some n) : n ∈ l := by
  induction l with
  | nil => simp [findNamed] at h
  | cons x r ih =>
    simp only [findNamed] at h
    split at h
    · split at h
      · split at h
        · simp only [Option.some.injEq] at h; subst h; simp
        · exact List.mem_cons_of_mem _ (ih h)
      · exact List.mem_cons_of_mem _ (ih h)
    · exact List.mem_cons_of_mem _ (ih h)

theorem indexList_mem {l : List (Node Ex)} {i : Int} {n : Node Ex} (h : indexList l i = .found n) : n ∈ l := by
  unfold indexList at h
  repeat' split at h
  all_goals first | (cases h; done) | (simp only [Look.found.injEq] at h; subst h; exact List.mem_of_getElem? (by assumption))

theorem nextStep_complete {ctl raw : Bool} {step : String} {here n : Node Ex} (hc : completeV ctl here.val = true)
    (h : nextStep ctl raw step here = .found n) : completeV ctl n.val = true := by
  unfold nextStep at h
  split at h
  · rename_i m hm
    rw [hm] at hc
    simp only [completeV, Bool.and_eq_true] at hc
    split at h
    · rename_i x hx
      simp only [Look.found.injEq] at h; subst h
      unfold stepMap at hx
      split at hx
      · cases hx
      · exact completeM_get hc.2 hx
    · cases h
  · rename_i l hl
    rw [hl] at hc
    simp only [completeV] at hc
    have hc := (completeL_iff ctl l).1 hc
    split at h
    · cases h
    · unfold stepList at h
      split at h
      · exact hc _ (indexList_mem h)
      · simp only at h
        split at h
        · rename_i x hx
          simp only [Look.found.injEq] at h; subst h
          exact hc _ (findNamed_found_mem _ _ _ _ _ _ hx)
        · cases h
  · cases h

theorem findR_complete {ctl raw : Bool} : ∀ {p : List String} {here n : Node Ex}, completeV ctl here.val = true →
    findR ctl raw here p = .found n → completeV ctl n.val = true := by
  intro p
  induction p with
  | nil => intro here n hc h; simp only [findR, Look.found.injEq] at h; subst h; exact hc
  | cons s r ih =>
    intro here n hc h
    simp only [findR] at h
    split at h
    · rename_i x hx; exact ih (nextStep_complete hc hx) h
    · cases h
    · cases h

/-- a lookup in a complete value leaves nothing undecided -/
theorem refFind_complete {ctl : Bool} {e : Ex} {len : Nat} {look : Nat → Look (Node Ex)} {loc : Bool}
    (hl : ∀ k n, look k = .found n → completeV ctl n.val = true) (e' : Ex) (i : Info) :
    refFind ctl e len look loc ≠ .val (.expr e') i := by
  intro h
  have key : ∀ (n k : Nat) (last : Node Ex), (∀ o, findSteps ctl e look k n last = .inr o → ∀ v i, o ≠ .val v i) ∧
      (∀ x, findSteps ctl e look k n last = .inl x → n ≠ 0 → completeV ctl x.val = true) := by
    intro n
    induction n with
    | zero => intro k last; exact ⟨by simp [findSteps], by simp⟩
    | succ n ih =>
      intro k last
      simp only [findSteps]
      cases hk : look k with
      | panic => constructor <;> simp
      | missing => constructor <;> simp [Info.error]
      | found x =>
        have hc := hl k x hk
        simp only [localReady_of_complete hc, if_true]
        refine ⟨(ih _ _).1, ?_⟩
        intro y hy _
        cases n with
        | zero => simp only [findSteps, Sum.inl.injEq] at hy; subst hy; exact hc
        | succ n => exact (ih _ _).2 y hy (by simp)
  unfold refFind at h
  split at h
  · cases h
  · rename_i hlen
    split at h
    · rename_i o ho; exact (key _ _ _).1 o ho _ _ h
    · rename_i x hx
      have hc := (key _ _ _).2 x hx hlen
      unfold refResult at h
      simp only [hc, Bool.not_true, Bool.and_false, Bool.false_eq_true, if_false, Ev.val.injEq] at h
      rw [h.1] at hc; simp [completeV] at hc

theorem qualEv_left {X : EvLib} {e : Ex} {p : List String} {r : Ev} {e' : Ex} {i : Info} (hg : Good r)
    (h : qualEv X e p r false = .val (.expr e') i) :
    e' = e ∨ ∃ x k, e' = .node (.qual p) [x] ∧ r = .val (.expr x) k := by
  unfold qualEv at h
  cases r with
  | crash => cases h
  | fail => cases h
  | val v k =>
    simp only [hg.2, Bool.or_false, Bool.not_false, Bool.true_and] at h
    split at h
    · split at h
      · simp only [Ev.val.injEq, Val.expr.injEq] at h; exact .inr ⟨_, k, h.1.symm, rfl⟩
      · simp only [Ev.val.injEq, Val.expr.injEq] at h; exact .inl h.1.symm
    · split at h
      · simp only [Ev.val.injEq, Val.expr.injEq] at h; exact .inl h.1.symm
      · rename_i hc
        have hc : completeV X.ctl v = true := by simpa using hc
        exact (refFind_complete (fun k n hn => findR_complete (by simpa using hc) hn) _ _ h).elim

end Spiff
