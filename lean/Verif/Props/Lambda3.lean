import Verif.Props.Lambda2
/-
C40: the exception for variadic lambdas, automatic currying, and default values.
-/
namespace Spiff
open Spec
variable {E B : Type}

/-- C40 (defect): currying a variadic lambda with as many arguments as it has parameters fixes the variadic list. Further arguments are
rejected then, although the lambda called with all of them is executed. -/
theorem variadic_curry_defect {L : Lam E B} (hd : Distinct L) (hv : L.varargs = true) (hne : L.params ≠ []) (src : String) (auto : Bool)
    {as1 as2 : List (Val E)} (h1 : L.params.length ≤ as1.length) (h2 : as2 ≠ []) :
    ∃ L', callLambda L src true auto [] as1 = .curried L' ∧ callLambda L' src false false [] as2 = .err ∧
      ∃ inp, callLambda L src false false [] (as1 ++ as2) = .run inp := by
  have hpos := List.length_pos_of_ne_nil hne
  have hpos2 := List.length_pos_of_ne_nil h2
  have hpl : (packArgs L src as1).length = L.params.length := by
    unfold packArgs
    rw [if_pos ⟨hv, by omega⟩]
    simp only [List.length_append, List.length_take, List.length_cons, List.length_nil]
    omega
  refine ⟨curryLambda L [] (packArgs L src as1).length (bindArgs src L.params (packArgs L src as1) L.static), ?_, ?_, ?_⟩
  · unfold callLambda
    simp [namedArgs, hpl]
  · have hp : (curryLambda L [] (packArgs L src as1).length (bindArgs src L.params (packArgs L src as1) L.static)).params = [] := by
      show (L.params.drop (packArgs L src as1).length).filter _ = []
      rw [hpl, List.drop_length]; rfl
    have hvv : (curryLambda L [] (packArgs L src as1).length (bindArgs src L.params (packArgs L src as1) L.static)).varargs = false := by
      show (L.varargs && decide ((packArgs L src as1).length < L.params.length) && _) = false
      rw [hpl]; simp
    rcases call_run_or_err (L := curryLambda L [] (packArgs L src as1).length (bindArgs src L.params (packArgs L src as1) L.static)) src [] as2 with e | e
    · exact e
    · exfalso
      have hd' : Distinct (curryLambda L [] (packArgs L src as1).length (bindArgs src L.params (packArgs L src as1) L.static)) := by
        unfold Distinct; rw [hp]; exact List.nodup_nil
      have := ((call_runs_iff hd' src [] as2).1 e).count
      rw [hp, hvv] at this
      simp at this
      exact h2 this
  · rw [call_runs_iff hd]
    refine ⟨.inr ⟨hv, hne⟩, by simp, List.Pairwise.nil, fun i p hp => .inl ?_⟩
    have := (List.getElem?_eq_some_iff.1 hp).1
    rw [List.length_append]; omega

/-- C40: a call without enough arguments is curried automatically if the lambda is not variadic, there are no named arguments and the
last parameter has no default. -/
theorem auto_curry {L : Lam E B} (src : String) {args : List (Val E)} (hv : L.varargs = false) (hlt : args.length < L.params.length)
    (hdef : ∀ p, L.params.getLast? = some p → p.default = none) :
    callLambda L src false true [] args = callLambda L src true false [] args ∧
    ∃ L', callLambda L src false true [] args = .curried L' := by
  have hp : packArgs L src args = args := by unfold packArgs; rw [if_neg (by simp [hv])]
  have hau : autoCurry L ([] : List (String × Node E)) args.length = true := by
    unfold autoCurry
    cases hl : L.params.getLast? with
    | none => simp [hv, hlt]
    | some p => simp [hv, hlt, hdef p hl]
  unfold callLambda
  have hn : ¬ L.params.length < args.length := by omega
  simp [namedArgs, hp, hau, hn]

/-- C40: in all other cases automatic currying has no effect. -/
theorem no_auto_curry {L : Lam E B} (src : String) {nargs : List (String × Node E)} {args : List (Val E)}
    (h : nargs ≠ [] ∨ L.varargs = true ∨ L.params.length ≤ args.length ∨ ∃ p d, L.params.getLast? = some p ∧ p.default = some d) :
    callLambda L src false true nargs args = callLambda L src false false nargs args := by
  unfold callLambda
  cases hnm : namedArgs L.params nargs [] with
  | none => rfl
  | some named =>
    have hau : autoCurry L named (packArgs L src args).length = false := by
      unfold autoCurry
      rcases h with h | h | h | ⟨p, d, h, h'⟩
      · cases nargs with
        | nil => exact absurd rfl h
        | cons a r =>
          obtain ⟨x, hx, _⟩ := (namedArgs_isSome.1 ⟨named, hnm⟩).1 a (List.mem_cons_self ..)
          have := (namedArgs_get hnm x a.2).2 (.inr ⟨a.1, List.mem_cons_self .., hx⟩)
          cases named with
          | nil => simp [mget] at this
          | cons => rfl
      · simp [h]
      · by_cases hv : L.varargs = true
        · simp [hv]
        · have hp : packArgs L src args = args := by unfold packArgs; rw [if_neg (by simp [hv])]
          rw [hp]
          have : ¬ args.length < L.params.length := by omega
          simp [this]
      · simp [h, h']
    simp only [hau, Bool.and_false]

/-! ### defaults -/

/-- the parameters of a lambda expression as produced by the grammar: those with defaults follow those without -/
def Contiguous {D : Type} (ps : List (LamParam E D)) : Prop :=
  ∃ front defs, ps = front ++ defs ∧ (∀ p ∈ front, p.default = none) ∧ (∀ p ∈ defs, p.default.isSome = true)

/-- what the parameter `q` of a lambda value is for the parameter `p` of the expression: the same name, and the value of the default
expression in the scope of the lambda expression -/
def DefaultedBy {D : Type} (ev : D → Option (Val E)) (p q : LamParam E D) : Prop :=
  q.name = p.name ∧ ((p.default = none ∧ q.default = none) ∨ ∃ d v, p.default = some d ∧ evalDefault ev d = some v ∧ q.default = some (.value v))

theorem defaultValues_front {D : Type} (ev : D → Option (Val E)) : ∀ (front defs : List (LamParam E D)), (∀ p ∈ front, p.default = none) →
    defaultValues ev (front ++ defs) = defaultValues ev defs := by
  intro front
  induction front with
  | nil => intro defs _; rfl
  | cons p r ih =>
    intro defs h
    rw [List.cons_append, defaultValues, h p (List.mem_cons_self ..)]
    exact ih defs (fun q hq => h q (List.mem_cons_of_mem _ hq))

theorem defaultValues_defs {D : Type} (ev : D → Option (Val E)) : ∀ (defs : List (LamParam E D)), (∀ p ∈ defs, p.default.isSome = true) →
    ∀ vs, defaultValues ev defs = some vs → vs.length = defs.length ∧
      List.Forall₂ (DefaultedBy ev) defs (vs.map (fun e => ({ name := e.1, default := some (.value e.2) } : LamParam E D))) := by
  intro defs
  induction defs with
  | nil => intro _ vs h; simp only [defaultValues, Option.some.injEq] at h; subst h; exact ⟨rfl, .nil⟩
  | cons p r ih =>
    intro hs vs h
    have hp := hs p (List.mem_cons_self ..)
    rw [defaultValues] at h
    cases hd : p.default with
    | none => rw [hd] at hp; cases hp
    | some d =>
      simp only [hd] at h
      cases he : evalDefault ev d with
      | none => simp only [he, reduceCtorEq] at h
      | some v =>
        simp only [he] at h
        obtain ⟨vs', h1, rfl⟩ := Option.map_eq_some_iff.1 h
        obtain ⟨g1, g2⟩ := ih (fun q hq => hs q (List.mem_cons_of_mem _ hq)) vs' h1
        exact ⟨by simp [g1], .cons ⟨rfl, .inr ⟨d, v, hd, he, rfl⟩⟩ g2⟩

theorem forall2_self {D : Type} (ev : D → Option (Val E)) : ∀ (front : List (LamParam E D)), (∀ p ∈ front, p.default = none) →
    List.Forall₂ (DefaultedBy ev) front front := by
  intro front
  induction front with
  | nil => intro _; exact .nil
  | cons p r ih =>
    intro h
    have := h p (List.mem_cons_self ..)
    exact .cons ⟨rfl, .inl ⟨this, this⟩⟩ (ih (fun q hq => h q (List.mem_cons_of_mem _ hq)))

theorem takeWhile_front {D : Type} : ∀ (front defs : List (LamParam E D)), (∀ p ∈ front, p.default = none) → (∀ p ∈ defs, p.default.isSome = true) →
    (front ++ defs).takeWhile (fun p => p.default.isNone) = front := by
  intro front
  induction front with
  | nil =>
    intro defs _ h
    cases defs with
    | nil => rfl
    | cons p r =>
      have := h p (List.mem_cons_self ..)
      rw [List.nil_append, List.takeWhile_cons, if_neg]
      cases hd : p.default with
      | none => rw [hd] at this; cases this
      | some => simp
  | cons p r ih =>
    intro defs h h'
    rw [List.cons_append, List.takeWhile_cons, if_pos (by simp [h p (List.mem_cons_self ..)]),
      ih defs (fun q hq => h q (List.mem_cons_of_mem _ hq)) h']

theorem evalLambda_shape {D : Type} {ev : D → Option (Val E)} {ps vps ast : List (LamParam E D)} (hc : Contiguous ps)
    (h : evalLambdaExpr ev ps = some (vps, ast)) : List.Forall₂ (DefaultedBy ev) ps vps ∧ ast = vps := by
  obtain ⟨front, defs, rfl, hf, hs⟩ := hc
  unfold evalLambdaExpr at h
  rw [defaultValues_front ev front defs hf, takeWhile_front front defs hf hs] at h
  cases hv : defaultValues ev defs with
  | none => rw [hv] at h; cases h
  | some vs =>
    obtain ⟨g1, g2⟩ := defaultValues_defs ev defs hs vs hv
    rw [hv] at h
    cases vs with
    | nil =>
      simp only [Option.some.injEq, Prod.mk.injEq] at h
      have : defs = [] := List.length_eq_zero_iff.1 (by simpa using g1.symm)
      subst this
      rw [List.append_nil] at h ⊢
      rw [← h.1, ← h.2]
      exact ⟨forall2_self ev front hf, rfl⟩
    | cons x xs =>
      simp only [Option.some.injEq, Prod.mk.injEq] at h
      refine ⟨?_, ?_⟩
      · rw [← h.1]; exact List.rel_append (forall2_self ev front hf) g2
      · rw [← h.1, ← h.2]
        have : (front ++ defs).drop (front.length + ((x :: xs).map (fun e => ({ name := e.1, default := some (.value e.2) } : LamParam E D))).length) = [] := by
          apply List.drop_eq_nil_of_le
          simp only [List.length_append, List.length_map]; omega
        rw [this, List.append_nil]

/-- C40: the default of a parameter is the value of its expression in the scope of the lambda expression. -/
theorem lambda_defaults {D : Type} {ev : D → Option (Val E)} {ps vps ast : List (LamParam E D)} (hc : Contiguous ps)
    (h : evalLambdaExpr ev ps = some (vps, ast)) : List.Forall₂ (DefaultedBy ev) ps vps := (evalLambda_shape hc h).1

theorem defaultValues_none {D : Type} (ev : D → Option (Val E)) : ∀ ps : List (LamParam E D),
    defaultValues ev ps = none ↔ ∃ p ∈ ps, ∃ d, p.default = some d ∧ evalDefault ev d = none := by
  intro ps
  induction ps with
  | nil => simp [defaultValues]
  | cons p r ih =>
    rw [defaultValues]
    simp only [List.mem_cons, exists_eq_or_imp, ← ih]
    cases hd : p.default with
    | none => simp
    | some d =>
      cases he : evalDefault ev d with
      | none => simp [he]
      | some v => simp [he]

/-- C40: a lambda expression fails exactly if one of the default expressions fails. -/
theorem lambda_fails_iff {D : Type} (ev : D → Option (Val E)) (ps : List (LamParam E D)) :
    evalLambdaExpr ev ps = none ↔ ∃ p ∈ ps, ∃ d, p.default = some d ∧ evalDefault ev d = none := by
  rw [← defaultValues_none]
  unfold evalLambdaExpr
  cases defaultValues ev ps with
  | none => simp
  | some vs => cases vs <;> simp

theorem defaulted_frozen {D : Type} {ev ev' : D → Option (Val E)} {ps qs : List (LamParam E D)}
    (h : List.Forall₂ (DefaultedBy ev) ps qs) : List.Forall₂ (DefaultedBy ev') qs qs := by
  induction h with
  | nil => exact .nil
  | cons h _ ih =>
    refine .cons ⟨rfl, ?_⟩ ih
    rcases h.2 with ⟨_, h⟩ | ⟨d, v, _, _, h⟩
    · exact .inl ⟨h, h⟩
    · exact .inr ⟨_, v, h, rfl, h⟩

theorem defaulted_unique {D : Type} {ev : D → Option (Val E)} {p q r : LamParam E D} (h : DefaultedBy ev p q) (h' : DefaultedBy ev p r) : q = r := by
  obtain ⟨n1, d1⟩ := h
  obtain ⟨n2, d2⟩ := h'
  have hd : q.default = r.default := by
    rcases d1 with ⟨a1, b1⟩ | ⟨d, v, a1, e1, b1⟩ <;> rcases d2 with ⟨a2, b2⟩ | ⟨d', v', a2, e2, b2⟩
    · rw [b1, b2]
    · rw [a1] at a2; cases a2
    · rw [a1] at a2; cases a2
    · rw [a1] at a2; cases a2; rw [e1] at e2; cases e2; rw [b1, b2]
  cases q; cases r
  simp only at n1 n2 hd
  subst hd; rw [n1, n2]

theorem defaulted_unique_list {D : Type} {ev : D → Option (Val E)} {ps qs rs : List (LamParam E D)}
    (h : List.Forall₂ (DefaultedBy ev) ps qs) (h' : List.Forall₂ (DefaultedBy ev) ps rs) : qs = rs := by
  induction h generalizing rs with
  | nil => cases h'; rfl
  | cons h _ ih =>
    cases h' with
    | cons g g' => rw [defaulted_unique h g, ih g']

theorem lam_forall2_append {α β : Type} {R : α → β → Prop} : ∀ {a b : List α} {l : List β}, List.Forall₂ R (a ++ b) l →
    ∃ x y, List.Forall₂ R a x ∧ List.Forall₂ R b y ∧ l = x ++ y := by
  intro a
  induction a with
  | nil => intro b l h; exact ⟨[], l, .nil, h, rfl⟩
  | cons c r ih =>
    intro b l h
    cases h with
    | cons h1 h2 =>
      obtain ⟨x, y, hx, hy, rfl⟩ := ih h2
      exact ⟨_ :: x, y, .cons h1 hx, hy, rfl⟩

theorem lam_forall2_mem {α β : Type} {R : α → β → Prop} {a : List α} {b : List β} (h : List.Forall₂ R a b) {y : β} (hy : y ∈ b) : ∃ x ∈ a, R x y := by
  induction h with
  | nil => cases hy
  | cons h1 _ ih =>
    rcases List.mem_cons.1 hy with rfl | hy
    · exact ⟨_, List.mem_cons_self .., h1⟩
    · obtain ⟨x, hx, hr⟩ := ih hy
      exact ⟨x, List.mem_cons_of_mem _ hx, hr⟩

/-- C40 (defect): the first evaluation of a lambda expression replaces the default expressions by their values, in the expression
itself: every later evaluation, in whatever scope, gets the values of the first one. -/
theorem default_frozen {D : Type} {ev ev' : D → Option (Val E)} {ps vps ast : List (LamParam E D)} (hc : Contiguous ps)
    (h : evalLambdaExpr ev ps = some (vps, ast)) : evalLambdaExpr ev' ast = some (vps, ast) := by
  obtain ⟨h1, rfl⟩ := evalLambda_shape hc h
  have hc' : Contiguous ast := by
    obtain ⟨front, defs, rfl, hf, hs⟩ := hc
    obtain ⟨a, b, ha, hb, rfl⟩ := lam_forall2_append h1
    refine ⟨a, b, rfl, ?_, ?_⟩
    · intro q hq
      obtain ⟨p, hp, hpq⟩ := lam_forall2_mem ha hq
      rcases hpq.2 with ⟨_, w⟩ | ⟨d, v, w, _⟩
      · exact w
      · rw [hf p hp] at w; cases w
    · intro q hq
      obtain ⟨p, hp, hpq⟩ := lam_forall2_mem hb hq
      rcases hpq.2 with ⟨w, _⟩ | ⟨d, v, _, _, w⟩
      · have := hs p hp; rw [w] at this; cases this
      · rw [w]; rfl
  have hf := defaulted_frozen (ev' := ev') h1
  cases he : evalLambdaExpr ev' ast with
  | none =>
    obtain ⟨q, hq, d, hd, hdn⟩ := (lambda_fails_iff ev' ast).1 he
    obtain ⟨p, hp, hpq⟩ := lam_forall2_mem h1 hq
    rcases hpq.2 with ⟨_, w⟩ | ⟨d', v, _, _, w⟩
    · rw [w] at hd; cases hd
    · rw [w] at hd; cases hd; cases hdn
  | some r =>
    obtain ⟨v2, a2⟩ := r
    obtain ⟨g1, rfl⟩ := evalLambda_shape hc' he
    rw [defaulted_unique_list g1 hf]

/-! ### examples -/

/-- `lambda|a,b,c=3|->…` with a value in the static scope -/
def exLam : Lam Unit Unit := { params := [{ name := "a" }, { name := "b" }, { name := "c", default := some (.int 3) }], static := [("s", Node.new (.int 0) "")], body := () }
/-- `lambda|a,b...|->…` -/
def exVar : Lam Unit Unit := { params := [{ name := "a" }, { name := "b" }], varargs := true, body := () }

example : Distinct exLam ∧ Distinct exVar := ⟨by unfold Distinct; decide +kernel, by unfold Distinct; decide +kernel⟩

/-- the integer values of the scope, `none` if the call is rejected -/
def scopeInts : LamCall Unit Unit → List String → Option (List (Option (List Int)))
  | .run inp, xs => some (xs.map (fun x => (mget inp x).bind (fun n => match n.val with
    | .int i => some [i]
    | .list l => some (l.filterMap (fun m => match m.val with | .int i => some i | _ => none))
    | _ => none)))
  | _, _ => none

example : scopeInts (callLambda exLam "" false false [] [.int 1, .int 2]) ["a", "b", "c", "s"] = some [some [1], some [2], some [3], some [0]] := by
  decide +kernel
example : scopeInts (callLambda exLam "" false false [("c", Node.new (.int 5) "")] [.int 1, .int 2]) ["a", "b", "c"] = some [some [1], some [2], some [5]] := by
  decide +kernel
example : scopeInts (callLambda exLam "" false false [("2", Node.new (.int 5) "")] [.int 1]) ["a", "b", "c"] = some [some [1], some [5], some [3]] := by
  decide +kernel
example : scopeInts (callLambda exLam "" false false [("1", Node.new (.int 5) "")] [.int 1, .int 2]) ["a"] = none := by decide +kernel
example : scopeInts (callLambda exVar "" false false [] [.int 1, .int 2, .int 3]) ["a", "b"] = some [some [1], some [2, 3]] := by decide +kernel
example : scopeInts (callLambda exVar "" false false [] [.int 1]) ["a", "b"] = some [some [1], some []] := by decide +kernel

/-- currying is possible in the examples -/
def isCurried : LamCall Unit Unit → Bool | .curried _ => true | _ => false
example : isCurried (callLambda exLam "" true false [] [.int 1]) = true := by decide +kernel
example : isCurried (callLambda exLam "" true false [("b", Node.new (.int 5) "")] [.int 1]) = true := by decide +kernel
example : ByName (E := Unit) [("b", Node.new (.int 5) "")] := by
  intro a ha
  rcases List.mem_cons.1 ha with rfl | ha
  · decide +kernel
  · cases ha

/-- `lambda|x|->lambda|y=x|->y`: the inner lambda expression evaluated with `x=1` and with `x=2`: the second lambda has the default 1. -/
def exInner : List (LamParam Unit Unit) := [{ name := "y", default := some (.ast ()) }]
example : Contiguous exInner := ⟨[], exInner, rfl, by simp, by simp [exInner]⟩
def defaultOf : Option (List (LamParam Unit Unit) × List (LamParam Unit Unit)) → Option Int
  | some ({ default := some (.value (.int i)), .. } :: _, _) => some i
  | _ => none
example : defaultOf (evalLambdaExpr (fun _ => some (.int 1)) exInner) = some 1 ∧
    defaultOf ((evalLambdaExpr (fun _ => some (.int 1)) exInner).bind (fun r => evalLambdaExpr (fun _ => some (.int 2)) r.2)) = some 1 := by
  decide +kernel

end Spiff
