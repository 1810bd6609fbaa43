import Verif.Spec.Delay
import Verif.Props.Alternatives
import Mathlib.Data.List.Forall2
/-
C56: evaluation of expressions in several passes.
-/
namespace Spiff

/-! ### relation between outcomes -/

/-- The outcome of the same operation for operands known earlier (left) and later (right). `l = true`: the left one
may be undecided (`Ev.Le`); `l = false`: both are of the same kind. -/
inductive Rel (l : Bool) : Ev → Ev → Prop
  | value {v i j} : v.isExpr = false → Rel l (.val v i) (.val v j)
  | later {e f i j} : Rel l (.val (.expr e) i) (.val (.expr f) j)
  | undecided {e i o} : l = true → Rel l (.val (.expr e) i) o
  | fail {i j} : Rel l (.fail i) (.fail j)
  | crash {o} : Rel l o .crash
  | crashed {o} : l = true → Rel l .crash o

theorem Rel.refl (l : Bool) (o : Ev) : Rel l o o := by
  cases o with
  | crash => exact .crash
  | fail i => exact .fail
  | val v i =>
    cases hv : v.isExpr with
    | true => obtain ⟨e, rfl⟩ := Val.isExpr_true hv; exact .later
    | false => exact .value hv

theorem Rel.le {o o' : Ev} (h : Rel true o o') : Ev.Le o o' := by
  cases h with
  | value h => exact .value h
  | later => exact .later
  | undecided => exact .later
  | fail => exact .fail
  | crash => exact .crash
  | crashed => exact .crashed

theorem Ev.Le.rel {o o' : Ev} (h : Ev.Le o o') : Rel true o o' := by
  cases h with
  | value h => exact .value h
  | later => exact .undecided rfl
  | fail => exact .fail
  | crash => exact .crash
  | crashed => exact .crashed rfl

@[simp] theorem resolve_crash (e : Ex) (i : Option Info) : resolve e i .crash = .crash := rfl
@[simp] theorem resolve_fail (e : Ex) (i : Option Info) (j : Info) : resolve e i (.fail j) = .fail (joinInfo i j) := rfl
@[simp] theorem resolve_expr (e : Ex) (i : Option Info) (j : Info) (f : Ex) :
    resolve e i (.val (.expr f) j) = .pend (keepWrapper f e) (joinInfo i j) := rfl
theorem resolve_val (e : Ex) (i : Option Info) (j : Info) (v : Val Ex) (h : v.isExpr = false) :
    resolve e i (.val v j) = .done v (joinInfo i j) := by
  cases v <;> first | rfl | cases h

theorem outEv_rel (l : Bool) (i j : Info) (o : Out (Val Ex)) : Rel l (outEv i o) (outEv j o) := by
  cases o with
  | ok v =>
    cases hv : v.isExpr with
    | true => obtain ⟨e, rfl⟩ := Val.isExpr_true hv; exact .later
    | false => exact .value hv
  | err => exact .fail
  | undet => exact .fail
  | panic => exact .crash

theorem binVals_rel (l : Bool) (X : EvLib) (op : BinOp) (a b : Val Ex) (i j : Info) (h : op = .concat → i.source = j.source) :
    Rel l (binVals X op a b i) (binVals X op a b j) := by
  cases op with
  | cmp c =>
    simp only [binVals]
    cases compareVals c a b with
    | ok v =>
      cases hv : v.isExpr with
      | true => obtain ⟨e, rfl⟩ := Val.isExpr_true hv; exact .later
      | false => exact .value hv
    | err => exact .fail
    | undet => exact .fail
    | panic => exact .crash
  | concat => simp only [binVals, h rfl]; exact outEv_rel _ _ _ _
  | _ => exact outEv_rel _ _ _ _

theorem Rel.fail_left {l : Bool} {i j : Info} {o : Ev} (h : Rel l (.fail i) o) : Rel l (.fail j) o := by
  cases h with
  | fail => exact .fail
  | crash => exact .crash

/-- a failing second operand: the result fails (or crashes), whatever the first operand is -/
theorem binEv_bad (X : EvLib) (op : BinOp) (ea eb : Ex) (oa ob : Ev)
    (h : ob = .crash ∨ (∃ k, ob = .fail k) ∨ (∃ v k, ob = .val v k ∧ v.isExpr = false ∧ badOperand op v = true)) :
    (∃ k, binEv X op ea eb oa ob = .fail k) ∨ binEv X op ea eb oa ob = .crash := by
  unfold binEv
  cases hr : resolve ea none oa with
  | crash => simp
  | fail i => simp
  | done va i =>
    simp only
    split
    · simp
    · rcases h with rfl | ⟨k, rfl⟩ | ⟨v, k, rfl, h1, h2⟩
      · simp
      · simp
      · simp [resolve_val _ _ _ _ h1, h2]
  | pend e i =>
    rcases h with rfl | ⟨k, rfl⟩ | ⟨v, k, rfl, h1, h2⟩
    · simp
    · simp
    · simp [resolve_val _ _ _ _ h1, h2]

theorem binEv_rel (l : Bool) (X : EvLib) (op : BinOp) (ea eb ea' eb' : Ex) {oa ob oa' ob' : Ev} (ha : Rel l oa oa') (hb : Rel l ob ob')
    (hs : op = .concat → ∀ v i j, v.isExpr = false → oa = .val v i → oa' = .val v j → i.source = j.source) :
    Rel l (binEv X op ea eb oa ob) (binEv X op ea' eb' oa' ob') := by
  unfold binEv
  cases ha with
  | crash => exact .crash
  | crashed h => exact .crashed h
  | fail => exact .fail
  | later =>
    simp only [resolve_expr]
    cases hb with
    | crash => exact .crash
    | crashed h => exact .crashed h
    | fail => exact .fail
    | later => exact .later
    | undecided h => exact .undecided h
    | value h =>
      simp only [resolve_val _ _ _ _ h]
      split
      · exact .fail
      · exact .later
  | value hv =>
    rename_i va i j
    simp only [resolve_val _ _ _ _ hv]
    split
    · exact .fail
    · cases hb with
      | crash => exact .crash
      | crashed h => exact .crashed h
      | fail => exact .fail
      | later => exact .later
      | undecided h => exact .undecided h
      | value h =>
        simp only [resolve_val _ _ _ _ h]
        split
        · exact .fail
        · exact binVals_rel _ _ _ _ _ _ _ (fun hc => by
            have := hs hc va i j hv rfl rfl
            simpa [joinInfo, Info.join] using this)
  | undecided h =>
    rename_i e i
    simp only [resolve_expr]
    have key : (∃ k, ob = .fail k) ∨ (∃ v k, ob = .val v k ∧ v.isExpr = false ∧ badOperand op v = true) →
        Rel l (.fail {}) (binEv X op ea' eb' oa' ob') := by
      intro hob
      have hob' : ob' = .crash ∨ (∃ k, ob' = .fail k) ∨ (∃ v k, ob' = .val v k ∧ v.isExpr = false ∧ badOperand op v = true) := by
        rcases hob with ⟨k, rfl⟩ | ⟨v, k, rfl, h1, h2⟩
        · cases hb with
          | fail => exact .inr (.inl ⟨_, rfl⟩)
          | crash => exact .inl rfl
        · cases hb with
          | value => exact .inr (.inr ⟨_, _, rfl, h1, h2⟩)
          | crash => exact .inl rfl
          | later => cases h1
          | undecided => cases h1
      rcases binEv_bad X op ea' eb' oa' ob' hob' with ⟨k, hk⟩ | hk <;> rw [hk]
      · exact .fail
      · exact .crash
    cases ob with
    | crash => exact .crashed h
    | fail k => exact Rel.fail_left (key (.inl ⟨k, rfl⟩))
    | val v k =>
      cases hv : v.isExpr with
      | true => obtain ⟨e, rfl⟩ := Val.isExpr_true hv; exact .undecided h
      | false =>
        simp only [resolve_val _ _ _ _ hv]
        split
        · rename_i hbad; exact Rel.fail_left (key (.inr ⟨v, k, rfl, hv, hbad⟩))
        · exact .undecided h

/-- defined, and not to be used locally only -/
def Good : Ev → Prop
  | .val _ i => i.undefined = false ∧ i.raw = false
  | _ => True

theorem orAlt_rel (l : Bool) (i j : Info) {o o' : Ev} (h : Rel l o o') : Rel l (orAlt i o) (orAlt j o') := by
  cases h with
  | value h => exact .value h
  | later => exact .later
  | undecided h => exact .undecided h
  | fail => exact .fail
  | crash => exact .crash
  | crashed h => exact .crashed h

theorem orEv_rel (l : Bool) (e e' : Ex) {oa ob oa' ob' : Ev} (ha : Rel l oa oa') (hb : Rel l ob ob') (hg : Good oa) (hg' : Good oa') :
    Rel l (orEv e oa ob) (orEv e' oa' ob') := by
  cases ha with
  | value h => simp only [orEv, hg.1, hg'.1, Bool.not_false, if_true, h, Bool.false_eq_true, if_false]; exact .value h
  | later => simp only [orEv, hg.1, hg'.1, Bool.not_false, if_true, Val.isExpr]; exact .later
  | undecided h => simp only [orEv, hg.1, Bool.not_false, if_true, Val.isExpr]; exact .undecided h
  | fail => exact orAlt_rel _ _ _ hb
  | crash => exact .crash
  | crashed h => exact .crashed h

theorem notEv_rel (l : Bool) (e e' : Ex) {oa oa' : Ev} (ha : Rel l oa oa') : Rel l (notEv e oa) (notEv e' oa') := by
  unfold notEv
  cases ha with
  | value h => simp only [resolve_val _ _ _ _ h]; exact .value rfl
  | later => exact .later
  | undecided h => exact .undecided h
  | fail => exact .fail
  | crash => exact .crash
  | crashed h => exact .crashed h

theorem logEv_rel (l : Bool) (e e' : Ex) (f : Val Ex → Option (Val Ex) → Out (Val Ex)) {oa ob oa' ob' : Ev}
    (ha : Rel l oa oa') (hb : Rel l ob ob') : Rel l (logEv e f oa ob) (logEv e' f oa' ob') := by
  cases ha with
  | later => exact .later
  | undecided h => exact .undecided h
  | fail => exact .fail
  | crash => exact .crash
  | crashed h => exact .crashed h
  | value h =>
    simp only [logEv, h, Bool.false_eq_true, if_false]
    cases hb with
    | later => exact .later
    | undecided h => exact .undecided h
    | fail => exact outEv_rel _ _ _ _
    | crash => exact .crash
    | crashed h => exact .crashed h
    | value h' => simp only [h', Bool.false_eq_true, if_false]; exact outEv_rel _ _ _ _

theorem condEv_rel (l : Bool) (ec et ef ec' et' ef' : Ex) {c t f c' t' f' : Ev} (hc : Rel l c c') (ht : Rel l t t') (hf : Rel l f f') :
    Rel l (condEv ec et ef c t f) (condEv ec' et' ef' c' t' f') := by
  unfold condEv
  cases hc with
  | later => exact .later
  | undecided h => exact .undecided h
  | fail => exact .fail
  | crash => exact .crash
  | crashed h => exact .crashed h
  | value h =>
    rename_i v i j
    simp only [resolve_val _ _ _ _ h]
    have : Rel l (if toBool v = true then t else f) (if toBool v = true then t' else f') := by split <;> assumption
    generalize (if toBool v = true then t else f) = o at this
    generalize (if toBool v = true then t' else f') = o' at this
    cases this with
    | later => exact .later
    | undecided h => exact .undecided h
    | fail => exact .fail
    | crash => exact .crash
    | crashed h => exact .crashed h
    | value h => exact .value h

/-! ### argument lists -/

inductive RelL (l : Bool) : ResL → ResL → Prop
  | ok {vs es es' i j} : RelL l (.ok vs es true i) (.ok vs es' true j)
  | later {vs es vs' es' i j} : RelL l (.ok vs es false i) (.ok vs' es' false j)
  | undecided {vs es i o} : l = true → RelL l (.ok vs es false i) o
  | fail {i j} : RelL l (.fail i) (.fail j)
  | crash {o} : RelL l o .crash
  | crashed {o} : l = true → RelL l .crash o

/-- pairwise related operands -/
abbrev RelA (l : Bool) := List.Forall₂ (fun (x y : Ex × Ev) => Rel l x.2 y.2)

theorem RelL.cons_same {l : Bool} {r r' : ResL} (v : Val Ex) (e e' : Ex) (h : RelL l r r') :
    RelL l (r.cons v e true) (r'.cons v e' true) := by
  cases h with
  | ok => exact .ok
  | later => exact .later
  | undecided h => exact .undecided h
  | fail => exact .fail
  | crash => exact .crash
  | crashed h => exact .crashed h

theorem RelL.cons_later {l : Bool} {r r' : ResL} (v v' : Val Ex) (e e' : Ex) (h : RelL l r r') :
    RelL l (r.cons v e false) (r'.cons v' e' false) := by
  cases h with
  | ok => exact .later
  | later => exact .later
  | undecided h => exact .undecided h
  | fail => exact .fail
  | crash => exact .crash
  | crashed h => exact .crashed h

theorem resolveArgs_rel (l : Bool) : ∀ {A A' : List (Ex × Ev)} (i j : Option Info), RelA l A A' →
    RelL l (resolveArgs i A) (resolveArgs j A') := by
  intro A A' i j h
  induction h generalizing i j with
  | nil => exact .ok
  | cons hx htl ih =>
    rename_i x y r r'
    obtain ⟨e, o⟩ := x
    obtain ⟨e', o'⟩ := y
    simp only at hx
    simp only [resolveArgs]
    cases hx with
    | crash => exact .crash
    | crashed h => exact .crashed h
    | fail => exact .fail
    | value h => simp only [resolve_val _ _ _ _ h]; exact (ih _ _).cons_same _ _ _
    | later => exact (ih _ _).cons_later _ _ _ _
    | undecided h =>
      rename_i f k
      simp only [resolve_expr]
      have h1 := ih (some (joinInfo i k)) 
      cases hr : resolveArgs (some (joinInfo i k)) r with
      | ok vs es res m => simp only [ResL.cons, Bool.false_and]; exact .undecided h
      | crash => exact .crashed h
      | fail m =>
        have key : ∀ q, (∃ m', resolveArgs q r' = .fail m') ∨ resolveArgs q r' = .crash := by
          intro q
          have := h1 q
          rw [hr] at this
          generalize resolveArgs q r' = z at this
          cases this with
          | fail => exact .inl ⟨_, rfl⟩
          | crash => exact .inr rfl
        simp only [ResL.cons]
        cases hq : resolve e' j o' with
        | crash => exact .crash
        | fail => exact .fail
        | done v q =>
          rcases key (some q) with ⟨m', hm⟩ | hm <;> simp only [hm, ResL.cons]
          · exact .fail
          · exact .crash
        | pend v q =>
          rcases key (some q) with ⟨m', hm⟩ | hm <;> simp only [hm, ResL.cons]
          · exact .fail
          · exact .crash

/-- no list expansion, and none is left by an argument -/
def NoExp (A : List (Ex × Ev)) : Prop :=
  ∀ x ∈ A, isExpand x.1 = false ∧ ∀ e i, x.2 = .val (.expr e) i → isExpand e = false

theorem keepWrapper_eq (e orig : Ex) (h : isExpand orig = false) : keepWrapper e orig = e := by
  simp [keepWrapper, h]

theorem resolve_pend {e e' : Ex} {o : Ev} {i : Option Info} {j : Info} (he : isExpand e = false) (h : resolve e i o = .pend e' j) :
    ∃ k, o = .val (.expr e') k ∧ j = joinInfo i k := by
  cases o with
  | crash => cases h
  | fail k => cases h
  | val v k =>
    cases hv : v.isExpr with
    | true =>
      obtain ⟨f, rfl⟩ := Val.isExpr_true hv
      simp only [resolve_expr, Res.pend.injEq, keepWrapper_eq _ _ he] at h
      obtain ⟨rfl, rfl⟩ := h
      exact ⟨k, rfl, rfl⟩
    | false => rw [resolve_val _ _ _ _ hv] at h; cases h

theorem resolve_done {e : Ex} {v : Val Ex} {o : Ev} {i : Option Info} {j : Info} (h : resolve e i o = .done v j) :
    ∃ k, o = .val v k ∧ j = joinInfo i k ∧ v.isExpr = false := by
  cases o with
  | crash => cases h
  | fail k => cases h
  | val w k =>
    cases hv : w.isExpr with
    | true => obtain ⟨f, rfl⟩ := Val.isExpr_true hv; cases h
    | false =>
      rw [resolve_val _ _ _ _ hv] at h
      simp only [Res.done.injEq] at h
      obtain ⟨rfl, rfl⟩ := h
      exact ⟨k, rfl, rfl, hv⟩

/-- what remains of the arguments: each of them itself, or what was left of it -/
def Left (A : List (Ex × Ev)) (es : List Ex) : Prop :=
  List.Forall₂ (fun (x : Ex × Ev) y => y = x.1 ∨ ∃ i, x.2 = .val (.expr y) i) A es

theorem resolveArgs_left : ∀ {A : List (Ex × Ev)} (q : Option Info) {vs es r i}, NoExp A →
    resolveArgs q A = .ok vs es r i → Left A es ∧ vs.length = es.length := by
  intro A
  induction A with
  | nil => intro q vs es r i _ h; simp only [resolveArgs, ResL.ok.injEq] at h; obtain ⟨rfl, rfl, _⟩ := h; exact ⟨.nil, rfl⟩
  | cons x t ih =>
    intro q vs es r i hn h
    obtain ⟨e, o⟩ := x
    have he := (hn (e, o) (by simp)).1
    simp only [resolveArgs] at h
    cases hq : resolve e q o with
    | crash => rw [hq] at h; cases h
    | fail => rw [hq] at h; cases h
    | done v k =>
      rw [hq] at h
      simp only at h
      cases hr : resolveArgs (some k) t with
      | crash => rw [hr] at h; cases h
      | fail => rw [hr] at h; cases h
      | ok vs' es' r' i' =>
        rw [hr] at h
        simp only [ResL.cons, ResL.ok.injEq] at h
        obtain ⟨rfl, rfl, _⟩ := h
        obtain ⟨h1, h2⟩ := ih (some k) (fun y hy => hn y (by simp [hy])) hr
        exact ⟨.cons (.inl rfl) h1, by simp [h2]⟩
    | pend e' k =>
      rw [hq] at h
      simp only at h
      cases hr : resolveArgs (some k) t with
      | crash => rw [hr] at h; cases h
      | fail => rw [hr] at h; cases h
      | ok vs' es' r' i' =>
        rw [hr] at h
        simp only [ResL.cons, ResL.ok.injEq] at h
        obtain ⟨rfl, rfl, _⟩ := h
        obtain ⟨h1, h2⟩ := ih (some k) (fun y hy => hn y (by simp [hy])) hr
        obtain ⟨k', hk, _⟩ := resolve_pend he hq
        exact ⟨.cons (.inr ⟨k', hk⟩) h1, by simp [h2]⟩

theorem left_noexp {A : List (Ex × Ev)} {es : List Ex} (hn : NoExp A) (h : Left A es) : ∀ e ∈ es, isExpand e = false := by
  induction h with
  | nil => simp
  | cons hx htl ih =>
    rename_i x y t t'
    intro e he
    rcases List.mem_cons.1 he with rfl | he
    · rcases hx with rfl | ⟨i, hx⟩
      · exact (hn x (by simp)).1
      · exact (hn x (by simp)).2 e i hx
    · exact ih (fun y hy => hn y (by simp [hy])) e he

theorem expandArgs_plain : ∀ (vs : List (Val Ex)) (es : List Ex), vs.length = es.length → (∀ e ∈ es, isExpand e = false) →
    expandArgs (vs.zip es) = some vs := by
  intro vs
  induction vs with
  | nil => intro es _ _; rfl
  | cons v r ih =>
    intro es hl he
    cases es with
    | nil => simp at hl
    | cons e t =>
      simp only [List.zip_cons_cons, expandArgs, he e (by simp), Bool.false_eq_true, if_false]
      rw [ih t (by simpa using hl) (fun x hx => he x (by simp [hx]))]
      rfl

theorem resolveList_eq {A : List (Ex × Ev)} (hn : NoExp A) : resolveList A = resolveArgs none A := by
  unfold resolveList
  cases h : resolveArgs none A with
  | crash => rfl
  | fail => rfl
  | ok vs es r i =>
    obtain ⟨h1, h2⟩ := resolveArgs_left none hn h
    simp only [expandArgs_plain vs es h2 (left_noexp hn h1)]

theorem listEv_rel (l : Bool) {b b' : Bind} (hb : b'.source = b.source) {A A' : List (Ex × Ev)} (h : RelA l A A') (hn : NoExp A)
    (hn' : NoExp A') : Rel l (listEv b A) (listEv b' A') := by
  unfold listEv
  rw [resolveList_eq hn, resolveList_eq hn', hb]
  have := resolveArgs_rel l none none h
  generalize resolveArgs none A = r at this
  generalize resolveArgs none A' = r' at this
  cases this with
  | ok => exact .value rfl
  | later => exact .later
  | undecided h => exact .undecided h
  | fail => exact .fail
  | crash => exact .crash
  | crashed h => exact .crashed h

/-- info of resolved arguments -/
def GoodL : ResL → Prop
  | .ok _ _ _ i => i.undefined = false ∧ i.raw = false
  | _ => True

/-- info `i` is defined and not raw -/
def Info.Good (i : Info) : Prop := i.undefined = false ∧ i.raw = false

theorem joinInfo_good {q : Option Info} {i : Info} (hq : ∀ j, q = some j → j.Good) (hi : i.Good) : (joinInfo q i).Good := by
  cases q with
  | none => exact hi
  | some j => have := hq j rfl; simp [joinInfo, Info.join, Info.Good, this.1, hi.1, this.2]

theorem resolve_good {e : Ex} {q : Option Info} {o : Ev} (hq : ∀ j, q = some j → j.Good) (ho : Good o) :
    (∀ v i, resolve e q o = .done v i → i.Good) ∧ (∀ e' i, resolve e q o = .pend e' i → i.Good) := by
  constructor
  · intro v i h
    obtain ⟨k, rfl, rfl, _⟩ := resolve_done h
    exact joinInfo_good hq ho
  · intro e' i h
    cases o with
    | crash => cases h
    | fail k => cases h
    | val w k =>
      cases hv : w.isExpr with
      | true =>
        obtain ⟨f, rfl⟩ := Val.isExpr_true hv
        simp only [resolve_expr, Res.pend.injEq] at h
        rw [← h.2]; exact joinInfo_good hq ho
      | false => rw [resolve_val _ _ _ _ hv] at h; cases h

theorem GoodL.cons {r : ResL} (v : Val Ex) (e : Ex) (x : Bool) (h : GoodL r) : GoodL (r.cons v e x) := by
  cases r <;> exact h

theorem resolveArgs_good : ∀ {A : List (Ex × Ev)} (q : Option Info), (∀ j, q = some j → j.Good) → (∀ x ∈ A, Good x.2) →
    GoodL (resolveArgs q A) := by
  intro A
  induction A with
  | nil =>
    intro q hq _
    cases q with
    | none => exact ⟨rfl, rfl⟩
    | some j => exact hq j rfl
  | cons x t ih =>
    intro q hq h
    obtain ⟨e, o⟩ := x
    have hg := resolve_good (e := e) hq (h (e, o) (by simp))
    simp only [resolveArgs]
    cases hr : resolve e q o with
    | crash => trivial
    | fail => trivial
    | done v i => exact (ih (some i) (fun j hj => by cases hj; exact hg.1 v i hr) (fun y hy => h y (by simp [hy]))).cons _ _ _
    | pend v i => exact (ih (some i) (fun j hj => by cases hj; exact hg.2 v i hr) (fun y hy => h y (by simp [hy]))).cons _ _ _

theorem callEv_rel (l : Bool) (X : EvLib) {b b' : Bind} (fn : String) (hb : b'.source = b.source) {A A' : List (Ex × Ev)}
    (h : RelA l A A') (hn : NoExp A) (hn' : NoExp A') (hg : ∀ x ∈ A, Good x.2) (hg' : ∀ x ∈ A', Good x.2) :
    Rel l (callEv X b fn A) (callEv X b' fn A') := by
  unfold callEv
  rw [resolveList_eq hn, resolveList_eq hn', hb]
  have h1 := resolveArgs_rel l none none h
  have h2 := resolveArgs_good (A := A) none (by simp) hg
  have h3 := resolveArgs_good (A := A') none (by simp) hg'
  generalize resolveArgs none A = r at h1 h2
  generalize resolveArgs none A' = r' at h1 h3
  cases h1 with
  | later => exact .later
  | undecided h => exact .undecided h
  | fail => exact .fail
  | crash => exact .crash
  | crashed h => exact .crashed h
  | ok =>
    rename_i vs es es' i j
    simp only [if_true]
    cases X.fn fn with
    | none => exact .fail
    | some f =>
      simp only [h2.1, h3.1, Bool.and_false, Bool.false_eq_true, if_false]
      cases f vs b.source with
      | ok x =>
        obtain ⟨v, sub⟩ := x
        cases hv : v.isExpr with
        | true => simp only [hv, if_true]; exact .later
        | false => simp only [hv, Bool.false_eq_true, if_false]; exact .value hv
      | err => exact .fail
      | undet => exact .fail
      | panic => exact .crash

/-! ### maps and scopes -/

inductive RelM (l : Bool) : ResM → ResM → Prop
  | done {m} : RelM l (.done m) (.done m)
  | pend {i j} : RelM l (.pend i) (.pend j)
  | undecided {i o} : l = true → RelM l (.pend i) o
  | fail {i j} : RelM l (.fail i) (.fail j)
  | crash {o} : RelM l o .crash
  | crashed {o} : l = true → RelM l .crash o

theorem assignEv_rel (l : Bool) {b b' : Bind} (hb : b'.source = b.source) : ∀ (n : Nat) (A A' : List (Ex × Ev)), A.length ≤ n →
    RelA l A A' → ∀ acc, RelM l (assignEv b A acc) (assignEv b' A' acc) := by
  intro n
  induction n with
  | zero =>
    intro A A' hl h acc
    cases h with
    | nil => simp only [assignEv]; exact .done
    | cons => simp at hl
  | succ n ih =>
    intro A A' hl h acc
    cases h with
    | nil => simp only [assignEv]; exact .done
    | cons hk ht =>
      cases ht with
      | nil => simp only [assignEv]; exact .done
      | cons hv hr =>
        rename_i k k' v v' r r'
        obtain ⟨ek, ok⟩ := k
        obtain ⟨ek', ok'⟩ := k'
        obtain ⟨ev, ov⟩ := v
        obtain ⟨ev', ov'⟩ := v'
        simp only at hk hv
        simp only [assignEv]
        cases hk with
        | later => exact .pend
        | undecided h => exact .undecided h
        | fail => exact .fail
        | crash => exact .crash
        | crashed h => exact .crashed h
        | value h =>
          simp only [resolve_val _ _ _ _ h]
          split
          · cases hv with
            | later => exact .pend
            | undecided h => exact .undecided h
            | fail => exact .fail
            | crash => exact .crash
            | crashed h => exact .crashed h
            | value h' =>
              simp only [resolve_val _ _ _ _ h', hb]
              exact ih _ _ (by simp only [List.length_cons] at hl; omega) hr _
          · exact .fail

theorem mapEv_rel (l : Bool) {b b' : Bind} (hb : b'.source = b.source) (e e' : Ex) {A A' : List (Ex × Ev)} (h : RelA l A A') :
    Rel l (mapEv e b A) (mapEv e' b' A') := by
  unfold mapEv
  have := assignEv_rel l hb A.length A A' (Nat.le_refl _) h []
  generalize assignEv b A [] = r at this
  generalize assignEv b' A' [] = r' at this
  cases this with
  | done => exact .value rfl
  | pend => exact .later
  | undecided h => exact .undecided h
  | fail => exact .fail
  | crash => exact .crash
  | crashed h => exact .crashed h

theorem scopeEv_rel (l : Bool) (X : EvLib) {b b' : Bind} (hb : b'.source = b.source) (e e' : Ex) {A A' : List (Ex × Ev)}
    (h : RelA l A A') (body body' : Bind → Ev) (hbody : ∀ m, Rel l (body (b.withLocal X m)) (body' (b'.withLocal X m))) :
    Rel l (scopeEv X e b A body) (scopeEv X e' b' A' body') := by
  unfold scopeEv
  have := assignEv_rel l hb A.length A A' (Nat.le_refl _) h []
  generalize assignEv b A [] = r at this
  generalize assignEv b' A' [] = r' at this
  cases this with
  | pend => exact .later
  | undecided h => exact .undecided h
  | fail => exact .fail
  | crash => exact .crash
  | crashed h => exact .crashed h
  | done =>
    rename_i m
    simp only
    have := hbody m
    generalize body (b.withLocal X m) = o at this
    generalize body' (b'.withLocal X m) = o' at this
    cases this with
    | value h => simp only [h, Bool.false_eq_true, if_false]; exact .value h
    | later => exact .later
    | undecided h => exact .undecided h
    | fail => exact .fail
    | crash => exact .crash
    | crashed h => exact .crashed h

/-! ### ranges, slices, qualified expressions -/

inductive RelI (l : Bool) : ResI → ResI → Prop
  | done {x} : RelI l (.done x) (.done x)
  | pend : RelI l .pend .pend
  | undecided {o} : l = true → RelI l .pend o
  | fail {i j} : RelI l (.fail i) (.fail j)
  | crash {o} : RelI l o .crash
  | crashed {o} : l = true → RelI l .crash o

theorem resolveInt_rel (l : Bool) (e e' : Ex) {o o' : Ev} (h : Rel l o o') : RelI l (resolveInt e o) (resolveInt e' o') := by
  unfold resolveInt
  cases h with
  | value h =>
    simp only [resolve_val _ _ _ _ h]
    split
    · exact .done
    · exact .fail
  | later => exact .pend
  | undecided h => exact .undecided h
  | fail => exact .fail
  | crash => exact .crash
  | crashed h => exact .crashed h

inductive RelB (l : Bool) : Option (Int × Int) ⊕ Ev → Option (Int × Int) ⊕ Ev → Prop
  | done {x} : RelB l (.inl (some x)) (.inl (some x))
  | pend : RelB l (.inl none) (.inl none)
  | undecided {o} : l = true → RelB l (.inl none) o
  | fail {i j} : RelB l (.inr (.fail i)) (.inr (.fail j))
  | crash {o} : RelB l o (.inr .crash)
  | crashed {o} : l = true → RelB l (.inr .crash) o

theorem boundsEv_rel (l : Bool) {s t s' t' : ResI} (hs : RelI l s s') (ht : RelI l t t') : RelB l (boundsEv s t) (boundsEv s' t') := by
  cases hs with
  | crash => exact .crash
  | crashed h => exact .crashed h
  | fail => exact .fail
  | pend =>
    cases ht with
    | crash => exact .crash
    | crashed h => exact .crashed h
    | fail => exact .fail
    | pend => exact .pend
    | undecided h => exact .undecided h
    | done => exact .pend
  | done =>
    cases ht with
    | crash => exact .crash
    | crashed h => exact .crashed h
    | fail => exact .fail
    | pend => exact .pend
    | undecided h => exact .undecided h
    | done => exact .done
  | undecided h =>
    cases ht with
    | crash =>
      cases t with
      | crash => exact .crashed h
      | fail => cases s' <;> first | exact .fail | exact .crash
      | pend => exact .undecided h
      | done => exact .undecided h
    | crashed h => exact .crashed h
    | fail => cases s' <;> first | exact .fail | exact .crash
    | pend => exact .undecided h
    | undecided h => exact .undecided h
    | done => exact .undecided h

theorem rangeEv_rel (l : Bool) {b b' : Bind} (hb : b'.source = b.source) (e es et e' es' et' : Ex) {s t s' t' : Ev} (hs : Rel l s s')
    (ht : Rel l t t') : Rel l (rangeEv e es et b s t) (rangeEv e' es' et' b' s' t') := by
  unfold rangeEv
  have := boundsEv_rel l (resolveInt_rel l es es' hs) (resolveInt_rel l et et' ht)
  generalize boundsEv (resolveInt es s) (resolveInt et t) = x at this
  generalize boundsEv (resolveInt es' s') (resolveInt et' t') = x' at this
  cases this with
  | pend => exact .later
  | undecided h => exact .undecided h
  | fail => exact .fail
  | crash => exact .crash
  | crashed h => exact .crashed h
  | done => simp only [hb]; exact Rel.refl _ _

/-- both given and related, or both not given -/
inductive RelO (l : Bool) : Option Ev → Option Ev → Prop
  | none : RelO l none none
  | some {o o'} : Rel l o o' → RelO l (some o) (some o')

theorem sliceBound_rel (l : Bool) (e e' : Ex) {o o' : Option Ev} (h : RelO l o o') : RelI l (sliceBound e o) (sliceBound e' o') := by
  cases h with
  | none => exact .done
  | some h => exact resolveInt_rel l e e' h

theorem sliceEv_rel (l : Bool) (X : EvLib) (e es et e' es' et' : Ex) {r r' : Ev} {s t s' t' : Option Ev} (hr : Rel l r r')
    (hs : RelO l s s') (ht : RelO l t t') : Rel l (sliceEv X e es et r s t false) (sliceEv X e' es' et' r' s' t' false) := by
  unfold sliceEv
  cases hr with
  | later => exact .later
  | undecided h => exact .undecided h
  | fail => exact .fail
  | crash => exact .crash
  | crashed h => exact .crashed h
  | value h =>
    rename_i v i j
    simp only
    split
    · exact .later
    split
    · exact .later
    split
    · have h1 : s'.isNone = s.isNone := by cases hs <;> rfl
      have h2 : t'.isNone = t.isNone := by cases ht <;> rfl
      have h3 : ∀ x : Int, (s'.map (fun _ => x)) = s.map (fun _ => x) := by intro x; cases hs <;> rfl
      have h4 : ∀ x : Int, (t'.map (fun _ => x)) = t.map (fun _ => x) := by intro x; cases ht <;> rfl
      rw [h1, h2]
      split
      · exact .fail
      · have := boundsEv_rel l (sliceBound_rel l es es' hs) (sliceBound_rel l et et' ht)
        generalize boundsEv (sliceBound es s) (sliceBound et t) = x at this
        generalize boundsEv (sliceBound es' s') (sliceBound et' t') = x' at this
        cases this with
        | pend => exact .later
        | undecided h => exact .undecided h
        | fail => exact .fail
        | crash => exact .crash
        | crashed h => exact .crashed h
        | done => simp only [h3, h4]; exact outEv_rel _ _ _ _
    · exact .fail

theorem qualEv_rel (l : Bool) (X : EvLib) (e e' : Ex) (p : List String) {r r' : Ev} (hr : Rel l r r') (hg : Good r) (hg' : Good r') :
    Rel l (qualEv X e p r false) (qualEv X e' p r' false) := by
  unfold qualEv
  cases hr with
  | later => exact .later
  | undecided h => exact .undecided h
  | fail => exact .fail
  | crash => exact .crash
  | crashed h => exact .crashed h
  | value h =>
    rename_i v i j
    simp only [hg.2, hg'.2, Bool.or_false]
    split
    · cases v <;> first | exact .later | cases h
    split
    · exact .later
    · exact Rel.refl _ _

end Spiff
