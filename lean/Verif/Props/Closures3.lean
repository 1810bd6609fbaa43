import Verif.Props.Closures2
import Verif.Model.Int64
import Mathlib.Data.Nat.Fib.Basic
/-
C81, third part: the meaning of names in functions, recursion, and the places where functions depend on their caller.
-/
namespace Spiff
open Spec

/-- **C81**: what a name means in the body of a function: a parameter, then a local name at the definition, then a local name of the caller, then
a node of the caller's document. -/
theorem name_order (P : Prims) (D : Docs) (loc : Loc) (n : Nat) (σ : Locals) (auto : Bool) (ps : List String) (ds : List (String × Lit)) (st : Locals) (h : Loc)
    (x : String) (p : List String) (as : List CVal) (hl : as.length = ps.length) (hx : x ≠ SELF) :
    let r := applyClo (ceval P D loc (n + 1)) σ false false auto (.clo ps false ds st h (.ref x p)) [] as
    (∀ i : Nat, ∀ v, ps.Nodup → ps[i]? = some x → as[i]? = some v → r = P.path v p) ∧
    (∀ v, x ∉ ps → mget st x = some v → r = P.path v p) ∧
    (∀ v, x ∉ ps → mget st x = none → mget σ x = some v → r = P.path v p) ∧
    (x ∉ ps → mget st x = none → mget σ x = none → r = D.look loc x p) := by
  intro r
  have hr : r = match mget (overlay σ (mset (setAllC (ps.zip as) st) SELF (.clo ps false ds st h (.ref x p)))) x with
      | some v => P.path v p | none => D.look loc x p := by
    show applyClo _ _ _ _ _ _ _ _ = _
    rw [full_call _ _ _ _ _ _ _ _ _ hl]
    rfl
  rw [mget_overlay, mget_mset_ne _ _ hx] at hr
  have hout : x ∉ ps → mget (setAllC (ps.zip as) st) x = mget st x :=
    fun hp => setAllC_not (by rw [zip_keys]; exact fun h => hp (List.mem_of_mem_take h))
  refine ⟨fun i v hnd hi hv => ?_, fun v hp hs => ?_, fun v hp hs hσ => ?_, fun hp hs hσ => ?_⟩
  · have : mget (setAllC (ps.zip as) st) x = some v := by
      clear hr r hout
      induction ps generalizing as i st with
      | nil => simp at hi
      | cons q qs ih =>
        cases as with
        | nil => simp at hv
        | cons a as =>
          cases i with
          | zero =>
            simp only [List.getElem?_cons_zero, Option.some.injEq] at hi hv
            subst hi; subst hv
            have hq : q ∉ (qs.zip as).map (·.1) := by
              rw [zip_keys]; exact fun h => (List.nodup_cons.1 hnd).1 (List.mem_of_mem_take h)
            have := setAllC_not (m := mset st q a) hq
            rw [mget_mset_self] at this
            exact this
          | succ i => exact ih (mset st q a) as (by simpa using hl) i (List.nodup_cons.1 hnd).2 (by simpa using hi) (by simpa using hv)
    rw [hr, this]
  · rw [hr, hout hp, hs]
  · rw [hr, hout hp, hs, hσ]
  · rw [hr, hout hp, hs, hσ]

example : (["x", "y"] : List String).Nodup ∧ (["x", "y"] : List String)[1]? = some "y" := by decide

/-- **C81**: `_.name` is looked up where the function was defined. -/
theorem self_reference (P : Prims) (D : Docs) (loc : Loc) (n : Nat) (σ : Locals) (auto : Bool) (ps : List String) (ds : List (String × Lit)) (st : Locals) (h : Loc)
    (x : String) (p : List String) (as : List CVal) (hl : as.length = ps.length) :
    applyClo (ceval P D loc (n + 1)) σ false false auto (.clo ps false ds st h (.self x p)) [] as = D.look h x p := by
  rw [full_call _ _ _ _ _ _ _ _ _ hl]
  simp only [ceval, mget_overlay, mget_mset_self]

/-- **C81**: a function defined in a function belongs to the place where the outer function was defined. -/
theorem inner_home (P : Prims) (D : Docs) (loc : Loc) (n : Nat) (σ : Locals) (auto : Bool) (ps : List String) (ds : List (String × Lit)) (st : Locals) (h : Loc)
    (ps' : List String) (va : Bool) (ds' : List Lit) (body : LEx) (as : List CVal) (hl : as.length = ps.length) :
    ∃ ds1 st1, applyClo (ceval P D loc (n + 1)) σ false false auto (.clo ps false ds st h (.lam ps' va ds' body)) [] as =
      .ok (.clo ps' va ds1 st1 h body) ∧ ∀ x, x ≠ SELF → x ∉ ps → mget st x ≠ none → mget st1 x = mget st x := by
  rw [full_call _ _ _ _ _ _ _ _ _ hl]
  simp only [ceval, homeOf, mget_overlay, mget_mset_self]
  refine ⟨_, _, rfl, fun x hx hp hs => ?_⟩
  rw [mget_overlay, mget_mset_ne _ _ hx, setAllC_not (by rw [zip_keys]; exact fun h => hp (List.mem_of_mem_take h))]
  cases hq : mget st x with
  | none => exact absurd hq hs
  | some v => rfl

/-! ### Recursion -/

/-- integer operators as spiff has them (C26), on the values needed here; a single value without path is itself -/
structure IntPrims (P : Prims) : Prop where
  le : ∀ a b, P.bin "<=" (.data (.int a)) (.data (.int b)) = .ok (.data (.bool (decide (a ≤ b))))
  eq : ∀ a b, P.bin "==" (.data (.int a)) (.data (.int b)) = .ok (.data (.bool (decide (a = b))))
  sub : ∀ a b, P.bin "-" (.data (.int a)) (.data (.int b)) = .ok (.data (.int (wrap64 (a - b))))
  add : ∀ a b, P.bin "+" (.data (.int a)) (.data (.int b)) = .ok (.data (.int (wrap64 (a + b))))
  truth : ∀ b, P.truth (.data (.bool b)) = b
  path : ∀ v, P.path v [] = .ok v

/-- `lambda |x|-> x <= 0 ? 0 : x == 1 ? 1 : _(x - 2) + _(x - 1)` (README.md:4199) -/
def fibBody : LEx :=
  .cond (.bin "<=" (.ref "x" []) (.lit (.int 0))) (.lit (.int 0))
    (.cond (.bin "==" (.ref "x" []) (.lit (.int 1))) (.lit (.int 1))
      (.bin "+" (.call false (.ref SELF []) [] [.bin "-" (.ref "x" []) (.lit (.int 2))])
        (.call false (.ref SELF []) [] [.bin "-" (.ref "x" []) (.lit (.int 1))])))

/-- the function as value -/
def fibClo (st : Locals) (h : Loc) : CVal := .clo ["x"] false [] st h fibBody

/-- the local scopes of the body for an argument -/
def fibScope (σ st : Locals) (h : Loc) (i : Int) : Locals := overlay σ (mset (mset st "x" (.data (.int i))) SELF (fibClo st h))

theorem fib_call (ev : Locals → LEx → CRes CVal) (σ st : Locals) (h : Loc) (auto : Bool) (i : Int) :
    applyClo ev σ false false auto (fibClo st h) [] [.data (.int i)] = ev (fibScope σ st h i) fibBody :=
  full_call ev σ auto ["x"] [] st h fibBody [.data (.int i)] rfl

theorem fibScope_x (σ st : Locals) (h : Loc) (i : Int) : mget (fibScope σ st h i) "x" = some (.data (.int i)) := by
  simp only [fibScope, mget_overlay]
  rw [mget_mset_ne _ _ (by decide), mget_mset_self]

theorem fibScope_self (σ st : Locals) (h : Loc) (i : Int) : mget (fibScope σ st h i) SELF = some (fibClo st h) := by
  simp only [fibScope, mget_overlay]
  rw [mget_mset_self]

theorem ceval_cond (P : Prims) (D : Docs) (loc : Loc) (n : Nat) (σ : Locals) (c t f : LEx) :
    ceval P D loc (n + 1) σ (.cond c t f) = (ceval P D loc n σ c).bind (fun v => if P.truth v then ceval P D loc n σ t else ceval P D loc n σ f) := rfl

theorem ceval_local (P : Prims) (D : Docs) (loc : Loc) (n : Nat) (σ : Locals) (x : String) (v : CVal) (hp : P.path v [] = .ok v) (h : mget σ x = some v) :
    ceval P D loc (n + 1) σ (.ref x []) = .ok v := by
  simp only [ceval, h, hp]

theorem ceval_node (P : Prims) (D : Docs) (loc : Loc) (n : Nat) (σ : Locals) (x : String) (h : mget σ x = none) :
    ceval P D loc (n + 1) σ (.ref x []) = D.look loc x [] := by
  simp only [ceval, h]

theorem ceval_bin (P : Prims) (D : Docs) (loc : Loc) (n : Nat) (σ : Locals) (op : String) (a b : LEx) (v w : CVal)
    (ha : ceval P D loc n σ a = .ok v) (hb : ceval P D loc n σ b = .ok w) : ceval P D loc (n + 1) σ (.bin op a b) = P.bin op v w := by
  simp only [ceval, evalAll, ha, hb, CRes.bind]

/-- a call with positional arguments -/
theorem ceval_call (P : Prims) (D : Docs) (loc : Loc) (n : Nat) (σ : Locals) (f : LEx) (as : List LEx) (ps : List String) (va : Bool)
    (ds : List (String × Lit)) (st : Locals) (h : Loc) (body : LEx) (vs : List CVal)
    (hf : ceval P D loc n σ f = .ok (.clo ps va ds st h body)) (ha : evalAll (ceval P D loc n σ) as = .ok vs) :
    ceval P D loc (n + 1) σ (.call false f [] as) = applyClo (ceval P D loc n) σ false false true (.clo ps va ds st h body) [] vs := by
  simp only [ceval, hf, ha, callWith, arity, Option.isSome_some, if_true, CRes.bind]
  rfl

theorem fib_rec (P : Prims) (D : Docs) (loc : Loc) (hP : IntPrims P) (σ st : Locals) (h : Loc) (i c : Int) (n : Nat) :
    ceval P D loc (n + 3) (fibScope σ st h i) (.call false (.ref SELF []) [] [.bin "-" (.ref "x" []) (.lit (.int c))]) =
      ceval P D loc (n + 2) (fibScope (fibScope σ st h i) st h (wrap64 (i - c))) fibBody := by
  have h1 := ceval_local P D loc (n + 1) _ _ _ (hP.path _) (fibScope_self σ st h i)
  have h2 := ceval_bin P D loc (n + 1) (fibScope σ st h i) "-" (.ref "x" []) (.lit (.int c)) _ (.data (.int c))
    (ceval_local P D loc n _ _ _ (hP.path _) (fibScope_x σ st h i)) rfl
  rw [hP.sub] at h2
  refine (ceval_call P D loc (n + 2) (fibScope σ st h i) _ _ _ _ _ _ _ _ [.data (.int (wrap64 (i - c)))] h1 ?_).trans (fib_call _ _ _ _ _ _)
  simp only [evalAll, h2, CRes.bind]

theorem fib_body (P : Prims) (D : Docs) (loc : Loc) (hP : IntPrims P) (σ st : Locals) (h : Loc) (i : Int) (n : Nat) :
    ceval P D loc (n + 5) (fibScope σ st h i) fibBody =
      if i ≤ 0 then .ok (.data (.int 0)) else if i = 1 then .ok (.data (.int 1))
      else ceval P D loc (n + 3) (fibScope σ st h i) (.bin "+" (.call false (.ref SELF []) [] [.bin "-" (.ref "x" []) (.lit (.int 2))])
        (.call false (.ref SELF []) [] [.bin "-" (.ref "x" []) (.lit (.int 1))])) := by
  have h1 := ceval_bin P D loc (n + 3) (fibScope σ st h i) "<=" (.ref "x" []) (.lit (.int 0)) _ (.data (.int 0))
    (ceval_local P D loc (n + 2) _ _ _ (hP.path _) (fibScope_x σ st h i)) rfl
  have h2 := ceval_bin P D loc (n + 2) (fibScope σ st h i) "==" (.ref "x" []) (.lit (.int 1)) _ (.data (.int 1))
    (ceval_local P D loc (n + 1) _ _ _ (hP.path _) (fibScope_x σ st h i)) rfl
  rw [hP.le] at h1
  rw [hP.eq] at h2
  unfold fibBody
  rw [ceval_cond, h1]
  simp only [CRes.bind, hP.truth, decide_eq_true_eq]
  by_cases hi : i ≤ 0
  · simp only [hi, if_true, ceval]
  · simp only [hi, if_false]
    rw [ceval_cond, h2]
    simp only [CRes.bind, hP.truth, decide_eq_true_eq]
    by_cases hi1 : i = 1
    · simp only [hi1, if_true, ceval]
    · simp only [hi1, if_false]

theorem wrap64_add (a b : Int) : wrap64 (wrap64 a + wrap64 b) = wrap64 (a + b) := by
  refine wrap64_congr ?_
  have h1 := wrap64_mod a
  have h2 := wrap64_mod b
  omega

/-- the function with the wrapped arithmetic of 64 bit integers -/
theorem fib_value (P : Prims) (D : Docs) (loc : Loc) (hP : IntPrims P) (st : Locals) (h : Loc) :
    ∀ (m : Nat), (m : Int) < 2 ^ 63 → ∀ (n : Nat) (σ : Locals), 4 * m + 5 ≤ n →
      ceval P D loc n (fibScope σ st h m) fibBody = .ok (.data (.int (wrap64 (Nat.fib m)))) := by
  intro m
  induction m using Nat.strong_induction_on with
  | _ m ih =>
    intro hm n σ hn
    obtain ⟨f, rfl⟩ : ∃ f, n = f + 5 := ⟨n - 5, by omega⟩
    rw [fib_body P D loc hP]
    by_cases h0 : m = 0
    · subst h0
      simp only [Int.natCast_zero, Int.le_refl, if_true, Nat.fib_zero]
      rw [wrap64_of_in (by unfold InInt64; omega)]
    · rw [if_neg (by omega)]
      by_cases h1 : m = 1
      · subst h1
        simp only [Int.natCast_one, if_true, Nat.fib_one]
        rw [wrap64_of_in (by unfold InInt64; omega)]
      · rw [if_neg (by omega)]
        obtain ⟨k, rfl⟩ : ∃ k, m = k + 2 := ⟨m - 2, by omega⟩
        obtain ⟨g, rfl⟩ : ∃ g, f = g + 1 := ⟨f - 1, by omega⟩
        have e2 : wrap64 (((k + 2 : Nat) : Int) - 2) = (k : Int) := by
          rw [wrap64_of_in (by unfold InInt64; omega)]; omega
        have e1 : wrap64 (((k + 2 : Nat) : Int) - 1) = ((k + 1 : Nat) : Int) := by
          rw [wrap64_of_in (by unfold InInt64; omega)]; omega
        have r2 := fib_rec P D loc hP σ st h ((k + 2 : Nat) : Int) 2 g
        have r1 := fib_rec P D loc hP σ st h ((k + 2 : Nat) : Int) 1 g
        rw [e2, ih k (by omega) (by omega) (g + 2) _ (by omega)] at r2
        rw [e1, ih (k + 1) (by omega) (by omega) (g + 2) _ (by omega)] at r1
        rw [ceval_bin P D loc (g + 3) _ _ _ _ _ _ r2 r1, hP.add]
        rw [wrap64_add, ← Int.natCast_add, ← Nat.fib_add_two]

/-- **C81**: recursion: the fibonacci function of the manual, called anywhere as `.fibonacci(n)`, gives the n-th fibonacci number (in 64 bit arithmetic),
for every n; the depth of the evaluation grows linearly with n. -/
theorem fibonacci (P : Prims) (D : Docs) (loc : Loc) (hP : IntPrims P) (st σ : Locals) (h : Loc) (path : List String)
    (hf : D.root loc path = .ok (fibClo st h)) (m : Nat) (hm : (m : Int) < 2 ^ 63) (n : Nat) (hn : 4 * m + 6 ≤ n) :
    ceval P D loc n σ (.call false (.abs path) [] [.lit (.int m)]) = .ok (.data (.int (wrap64 (Nat.fib m)))) := by
  obtain ⟨k, rfl⟩ : ∃ k, n = k + 2 := ⟨n - 2, by omega⟩
  exact (ceval_call P D loc (k + 1) σ (.abs path) [.lit (.int m)] _ _ _ _ _ _ [.data (.int m)] hf rfl).trans
    ((fib_call _ _ _ _ _ _).trans (fib_value P D loc hP st h m hm (k + 1) σ (by omega)))

/-- **C81**: the definition in the document gives this function. -/
theorem fibonacci_defined (P : Prims) (D : Docs) (loc : Loc) (n : Nat) :
    ceval P D loc (n + 1) [] (.lam ["x"] false [] fibBody) = .ok (fibClo [] loc) := rfl

/-- **C81** (deviation from the manual): `.fibonacci(5)` is 5; the manual says 8. -/
theorem fibonacci_five (P : Prims) (D : Docs) (loc : Loc) (hP : IntPrims P) (st σ : Locals) (h : Loc) (path : List String)
    (hf : D.root loc path = .ok (fibClo st h)) :
    ceval P D loc 26 σ (.call false (.abs path) [] [.lit (.int 5)]) = .ok (.data (.int 5)) := by
  have := fibonacci P D loc hP st σ h path hf 5 (by omega) 26 (by omega)
  rw [show wrap64 (Nat.fib 5 : Nat) = 5 by decide +kernel] at this
  exact this

/-! ### Functions that depend on their caller -/

/-- `lambda |y|-> y + off` -/
def incClo (h : Loc) : CVal := .clo ["y"] false [] [] h (.bin "+" (.ref "y" []) (.ref "off" []))

/-- **C81** (defect): a name that is neither parameter nor local name of the definition means a parameter of the calling function, if there is one with
this name, and not the node of the document: `inc: (( |y|-> y + off ))`, `off: 10`, `g: (( |off|-> .inc(1) ))`. The same call `.inc(1)` gives 1 + the node
outside, and 1 + the argument of `g` in `g`. -/
theorem caller_parameter_defect (P : Prims) (D : Docs) (loc h h' : Loc) (hP : IntPrims P) (hinc : D.root loc ["inc"] = .ok (incClo h))
    (hg : D.root loc ["g"] = .ok (.clo ["off"] false [] [] h' (.call false (.abs ["inc"]) [] [.lit (.int 1)])))
    (a b : Int) (hoff : D.look loc "off" [] = .ok (.data (.int a))) (n : Nat) :
    ceval P D loc (n + 3) [] (.call false (.abs ["inc"]) [] [.lit (.int 1)]) = .ok (.data (.int (wrap64 (1 + a)))) ∧
    ceval P D loc (n + 4) [] (.call false (.abs ["g"]) [] [.lit (.int b)]) = .ok (.data (.int (wrap64 (1 + b)))) := by
  have inc : ∀ (σ : Locals) (m : Nat) (c : Int), (∀ d, ceval P D loc (m + 1) (overlay σ (mset [("y", .data (.int 1))] SELF d)) (.ref "off" []) = .ok (.data (.int c))) →
      ceval P D loc (m + 3) σ (.call false (.abs ["inc"]) [] [.lit (.int 1)]) = .ok (.data (.int (wrap64 (1 + c)))) := by
    intro σ m c hc
    refine (ceval_call P D loc (m + 2) σ (.abs ["inc"]) [.lit (.int 1)] _ _ _ _ _ _ [.data (.int 1)] hinc rfl).trans ?_
    rw [full_call _ _ _ _ _ _ _ _ _ rfl]
    exact (ceval_bin P D loc (m + 1) _ "+" _ _ _ _ (ceval_local P D loc m _ "y" (.data (.int 1)) (hP.path _) rfl) (hc _)).trans (hP.add _ _)
  constructor
  · exact inc [] n a (fun d => (ceval_node P D loc n _ _ rfl).trans hoff)
  · refine (ceval_call P D loc (n + 3) [] (.abs ["g"]) [.lit (.int b)] _ _ _ _ _ _ [.data (.int b)] hg rfl).trans ?_
    rw [full_call _ _ _ _ _ _ _ _ _ rfl]
    exact inc _ n b (fun d => ceval_local P D loc n _ "off" (.data (.int b)) (hP.path _) rfl)

/-- `lambda |n,acc|-> n <= 0 ? acc : _(n - 1, acc + n)` -/
def sumClo (h : Loc) : CVal := .clo ["n", "acc"] false [] [] h
  (.cond (.bin "<=" (.ref "n" []) (.lit (.int 0))) (.ref "acc" [])
    (.call false (.ref SELF []) [] [.bin "-" (.ref "n" []) (.lit (.int 1)), .bin "+" (.ref "acc" []) (.ref "n" [])]))

/-- **C81** (defect): currying a recursive function: `_` is then the function with the remaining parameters. `sum(1, 0)` is 1, `sum*(1)(0)` is an
error. -/
theorem curry_recursion_defect (P : Prims) (D : Docs) (loc h : Loc) (hP : IntPrims P) (n : Nat) :
    applyClo (ceval P D loc (n + 6)) [] false false true (sumClo h) [] [.data (.int 1), .data (.int 0)] = .ok (.data (.int 1)) ∧
    ∃ g, applyClo (ceval P D loc (n + 6)) [] false true true (sumClo h) [] [.data (.int 1)] = .ok g ∧
      applyClo (ceval P D loc (n + 6)) [] false false true g [] [.data (.int 0)] = .fail := by
  have step : ∀ (σ : Locals) (i a : Int) (F : CVal) (m : Nat), mget σ "n" = some (.data (.int i)) → mget σ "acc" = some (.data (.int a)) → mget σ SELF = some F →
      0 < i → evalAll (ceval P D loc (m + 3) σ) [.bin "-" (.ref "n" []) (.lit (.int 1)), .bin "+" (.ref "acc" []) (.ref "n" [])] =
        .ok [.data (.int (wrap64 (i - 1))), .data (.int (wrap64 (a + i)))] := by
    intro σ i a F m h1 h2 h3 hi
    have e1 := (ceval_bin P D loc (m + 2) σ "-" (.ref "n" []) (.lit (.int 1)) _ (.data (.int 1)) (ceval_local P D loc (m + 1) _ _ _ (hP.path _) h1) rfl).trans (hP.sub _ _)
    have e2 := (ceval_bin P D loc (m + 2) σ "+" (.ref "acc" []) (.ref "n" []) _ _ (ceval_local P D loc (m + 1) _ _ _ (hP.path _) h2)
      (ceval_local P D loc (m + 1) _ _ _ (hP.path _) h1)).trans (hP.add _ _)
    simp only [evalAll, e1, e2, CRes.bind]
  have test : ∀ (σ : Locals) (i : Int) (m : Nat), mget σ "n" = some (.data (.int i)) →
      ceval P D loc (m + 2) σ (.bin "<=" (.ref "n" []) (.lit (.int 0))) = .ok (.data (.bool (decide (i ≤ 0)))) :=
    fun σ i m h1 => (ceval_bin P D loc (m + 1) σ "<=" (.ref "n" []) (.lit (.int 0)) _ (.data (.int 0)) (ceval_local P D loc m _ _ _ (hP.path _) h1) rfl).trans (hP.le _ _)
  have w0 : wrap64 (1 - 1) = 0 := by decide +kernel
  have w1 : wrap64 (0 + 1) = 1 := by decide +kernel
  have t1 : decide ((1 : Int) ≤ 0) = false := by decide
  have t0 : decide ((0 : Int) ≤ 0) = true := by decide
  constructor
  · unfold sumClo
    rw [full_call _ _ _ _ _ _ _ _ _ rfl, ceval_cond, test _ 1 (n + 3) rfl, t1]
    simp only [CRes.bind, hP.truth, Bool.false_eq_true, if_false]
    rw [ceval_call P D loc (n + 4) _ _ _ _ _ _ _ _ _ _ (ceval_local P D loc (n + 3) _ _ (sumClo h) (hP.path _) rfl) (step _ 1 0 (sumClo h) (n + 1) rfl rfl rfl (by omega)),
      full_call _ _ _ _ _ _ _ _ _ rfl, ceval_cond, test _ _ (n + 1) rfl, w0, w1, t0]
    simp only [CRes.bind, hP.truth, if_true]
    exact ceval_local P D loc (n + 2) _ _ _ (hP.path _) rfl
  · refine ⟨_, curry_value _ _ _ _ _ _ _ _ _ (by decide), ?_⟩
    refine (full_call _ _ _ _ _ _ _ _ _ rfl).trans ?_
    rw [ceval_cond, test _ 1 (n + 3) rfl, t1]
    simp only [CRes.bind, hP.truth, Bool.false_eq_true, if_false]
    rw [ceval_call P D loc (n + 4) _ _ _ _ _ _ _ _ _ _ (ceval_local P D loc (n + 3) _ _ _ (hP.path _) rfl) (step _ 1 0 _ (n + 1) rfl rfl rfl (by omega))]
    rfl

/-! ### The hypotheses are met -/

/-- operators on integers -/
def plainBin (op : String) : CVal → CVal → CRes CVal
  | .data (.int a), .data (.int b) =>
    if op = "<=" then .ok (.data (.bool (decide (a ≤ b)))) else if op = "==" then .ok (.data (.bool (decide (a = b))))
    else if op = "-" then .ok (.data (.int (wrap64 (a - b)))) else if op = "+" then .ok (.data (.int (wrap64 (a + b)))) else .fail
  | _, _ => .fail

/-- `length` of a list -/
def plainFn (n : String) : List CVal → CRes CVal
  | [.list l] => if n = "length" then .ok (.data (.int l.length)) else .fail
  | _ => .fail

/-- integer operators, `length` and access to list elements by nothing at all -/
def plainPrims : Prims where
  bin := plainBin
  fn := plainFn
  truth := fun v => match v with | .data (.bool b) => b | _ => true
  path := fun v p => if p = [] then .ok v else .fail

theorem plain_int : IntPrims plainPrims :=
  ⟨fun _ _ => rfl, fun _ _ => rfl, fun _ _ => rfl, fun _ _ => rfl, fun _ => rfl, fun _ => rfl⟩

theorem plain_ok : PrimsOk plainPrims := by
  refine ⟨fun op a a' b b' ha hb => ?_, fun n l l' h => ?_, fun a a' h => ?_, fun a a' p h => ?_⟩
  · show SameRes SameVal (plainBin op a b) (plainBin op a' b')
    cases ha with
    | data d => cases hb with
      | data d' =>
        cases d <;> cases d' <;> simp only [plainBin] <;> first | exact .fail | skip
        split
        · exact .ok (.data _)
        · split
          · exact .ok (.data _)
          · split
            · exact .ok (.data _)
            · split
              · exact .ok (.data _)
              · exact .fail
      | _ => cases d <;> exact .fail
    | _ => exact .fail
  · show SameRes SameVal (plainFn n l) (plainFn n l')
    cases h with
    | nil => exact .fail
    | @cons v w r r' hv hr => cases hr with
      | cons _ _ => cases hv <;> exact .fail
      | nil => cases hv with
        | list h1 h2 =>
          simp only [plainFn, h1]
          split
          · exact .ok (.data _)
          · exact .fail
        | _ => exact .fail
  · cases h <;> rfl
  · show SameRes SameVal (if p = [] then _ else _) (if p = [] then _ else _)
    split
    · exact .ok h
    · exact .fail

/-- **C81**: the function of the manual is closed. -/
theorem fib_closed (st : Locals) (h : Loc) (hst : mget st SELF = none) : Closed (fibClo st h) := by
  have hm : ∀ x, Mentions x fibBody → x = "x" ∨ x = SELF := by
    intro x hx
    have hbin : ∀ op c, Mentions x (.bin op (.ref "x" []) (.lit c)) → x = "x" := by
      intro op c hb
      cases hb with
      | binL h => cases h; rfl
      | binR h => cases h
    have hcall : ∀ c, Mentions x (.call false (.ref SELF []) [] [.bin "-" (.ref "x" []) (.lit c)]) → x = "x" ∨ x = SELF := by
      intro c hb
      cases hb with
      | callF h => cases h; exact .inr rfl
      | callA he h =>
        simp only [List.mem_singleton] at he
        subst he
        exact .inl (hbin _ _ h)
    unfold fibBody at hx
    cases hx with
    | condC h => exact .inl (hbin _ _ h)
    | condT h => cases h
    | condF h => cases h with
      | condC h => exact .inl (hbin _ _ h)
      | condT h => cases h
      | condF h => cases h with
        | binL h => exact hcall _ h
        | binR h => exact hcall _ h
  refine .clo (fun x hx hp hs => ?_) (fun x hx hp v hv => ?_)
  · rcases hm x hx with rfl | rfl
    · exact absurd (List.mem_singleton.2 rfl) hp
    · exact absurd rfl hs
  · rcases hm x hx with rfl | rfl
    · exact absurd (List.mem_singleton.2 rfl) hp
    · rw [hst] at hv; cases hv

/-- a document with this function -/
def fibDocs : Docs where
  look := fun _ _ _ => .fail
  root := fun _ p => if p = ["fibonacci"] then .ok (fibClo [] []) else .fail

theorem fibDocs_closed : DocsClosed fibDocs := by
  refine ⟨fun h x p v hv => ?_, fun h p v hv => ?_⟩
  · cases hv
  · have : (if p = ["fibonacci"] then CRes.ok (fibClo [] []) else .fail) = .ok v := hv
    by_cases hp : p = ["fibonacci"]
    · rw [if_pos hp] at this; cases this; exact fib_closed [] [] rfl
    · rw [if_neg hp] at this; cases this

/-- the same call at two places, once with a local name `x` and a local `_` -/
example (n : Nat) (hn : 46 ≤ n) (v w : CVal) :
    ceval plainPrims fibDocs ["a", "b"] n [("x", v), (SELF, w)] (.call false (.abs ["fibonacci"]) [] [.lit (.int 10)]) = .ok (.data (.int 55)) := by
  refine call_data_anywhere plain_ok fibDocs_closed (loc := []) (loc' := ["a", "b"]) (fun _ => rfl) n [] [("x", v), (SELF, w)] false ["fibonacci"] [] [.int 10] (.int 55) ?_
  have := fibonacci plainPrims fibDocs [] plain_int [] [] [] ["fibonacci"] rfl 10 (by omega) n (by omega)
  rw [show wrap64 (Nat.fib 10 : Nat) = 55 by decide +kernel] at this
  exact this

/-- the function `lambda |x,y|-> x - y` for the law of currying -/
example (σ σ' : Locals) (n : Nat) : ∃ g, (∀ ev τ, applyClo ev τ false true true (.clo ["x", "y"] false [] [] [] (.bin "-" (.ref "x" []) (.ref "y" []))) [] [.data (.int 7)] = .ok g) ∧
    SameRes SameVal (applyClo (ceval plainPrims fibDocs [] n) σ false false true (.clo ["x", "y"] false [] [] [] (.bin "-" (.ref "x" []) (.ref "y" []))) []
      ([.data (.int 7)] ++ [.data (.int 2)])) (applyClo (ceval plainPrims fibDocs ["k"] n) σ' false false true g [] [.data (.int 2)]) := by
  have hm : ∀ x, Mentions x (.bin "-" (.ref "x" []) (.ref "y" [])) → x ∈ ["x", "y"] := by
    intro x hx
    cases hx with
    | binL h => cases h; simp
    | binR h => cases h; simp
  refine curry_call plain_ok fibDocs_closed (loc := []) (loc' := ["k"]) (fun _ => rfl) n σ σ' true _ _ _ _ _ [.data (.int 7)] [.data (.int 2)] (.clo (fun x hx hp _ => absurd (hm x hx) hp) (fun x hx hp _ _ => absurd (hm x hx) hp))
    (fun h => absurd (hm _ h) (by decide)) ?_ ?_ rfl
  · intro v hv; rw [List.mem_singleton] at hv; subst hv; exact .data _
  · intro v hv; rw [List.mem_singleton] at hv; subst hv; exact .data _

end Spiff
