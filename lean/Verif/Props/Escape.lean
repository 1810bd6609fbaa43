import Verif.Model.Interp
import Mathlib.Logic.Function.Iterate
/-
C13: escaped dynaml is never evaluated and loses exactly one escape level.
-/
namespace Spiff.Props

/-- The literal text `((` ++ body ++ `))`. -/
def wrap (body : List Char) : List Char := "((".toList ++ body ++ "))".toList

/-- `n`-fold escaped expression `((!!...!x))`. -/
def escaped (n : Nat) (x : List Char) : List Char := wrap (List.replicate n '!' ++ x)

theorem dynamlBody_wrap (b : List Char) : dynamlBody (wrap b) = some b := by
  simp [dynamlBody, wrap, isSuffix]

theorem dynamlBody_some {s b : List Char} (h : dynamlBody s = some b) : s = wrap b := by
  unfold dynamlBody at h
  split at h
  · rename_i hc
    simp only [Bool.and_eq_true, isSuffix, List.isPrefixOf_iff_prefix] at hc
    obtain ⟨⟨t, ht⟩, hs⟩ := hc
    rw [List.reverse_prefix] at hs
    obtain ⟨u, hu⟩ := hs
    subst ht
    simp at h hu
    have hlen := congrArg List.length hu
    simp at hlen
    -- u = '(' :: '(' :: b
    match u, hu with
    | [], hu => simp at hu
    | [a], hu => simp at hu
    | a :: a' :: u', hu =>
      simp at hu
      obtain ⟨rfl, rfl, rfl⟩ := hu
      simp at h
      subst h
      simp [wrap]
  · simp at h

/-- C13a: for no setting of the interpolation feature an escaped expression is
taken as an expression, whatever text it contains. -/
theorem escaped_not_evaluated (q : List Char → List Char) (ip : Bool) (x : List Char) :
    embeddedDynaml q ip (wrap ('!' :: x)) = none := by
  simp [embeddedDynaml, dynamlBody_wrap]

/-- C13b: it is emitted with exactly one escape character less. -/
theorem escaped_unescape (q : List Char → List Char) (ip : Bool) (x : List Char) :
    unescapeStr q ip (wrap ('!' :: x)) = wrap x := by
  rw [unescapeStr, dynamlBody_wrap]
  simp [wrap]

/-- C13c: an expression string whose body does not start with `!` is an
expression with exactly this body, and unescaping does not touch it. -/
theorem unescaped_evaluated (q : List Char → List Char) (ip : Bool) (x : List Char)
    (h : x.head? ≠ some '!') :
    embeddedDynaml q ip (wrap x) = some x ∧ unescapeStr q ip (wrap x) = wrap x := by
  cases x with
  | nil => simp [embeddedDynaml, unescapeStr, dynamlBody_wrap]
  | cons c r =>
    have : ¬ ('!' = c) := by intro hc; subst hc; simp at h
    simp [embeddedDynaml, unescapeStr, dynamlBody_wrap, this]

/-- C13d: `n` escape levels survive exactly `n` merges: the `k`-th output for
`k ≤ n` is the `(n-k)`-fold escaped expression, which is not evaluated for `k<n`;
after `n` merges the expression itself is evaluated. -/
theorem escape_levels (q : List Char → List Char) (ip : Bool) (n k : Nat) (x : List Char)
    (hk : k ≤ n) (hx : x.head? ≠ some '!') :
    (unescapeStr q ip)^[k] (escaped n x) = escaped (n - k) x ∧
    (embeddedDynaml q ip ((unescapeStr q ip)^[k] (escaped n x))
       = if k < n then none else some x) := by
  have main : ∀ k, k ≤ n → (unescapeStr q ip)^[k] (escaped n x) = escaped (n - k) x := by
    intro k
    induction k with
    | zero => intro _; rfl
    | succ k ih =>
      intro h
      rw [Function.iterate_succ_apply', ih (by omega)]
      have : n - k = (n - (k+1)) + 1 := by omega
      rw [this, escaped, List.replicate_succ, List.cons_append, escaped_unescape]
      rfl
  refine ⟨main k hk, ?_⟩
  rw [main k hk]
  by_cases hlt : k < n
  · have : n - k = (n - (k+1)) + 1 := by omega
    rw [this, escaped, List.replicate_succ, List.cons_append, escaped_not_evaluated]
    simp [hlt]
  · have : n - k = 0 := by omega
    rw [this]
    simp [hlt, escaped, (unescaped_evaluated q ip x hx).1]

/-- C13e: a string that is not of the form `((...))` is, without interpolation,
neither evaluated nor altered. -/
theorem plain_string_untouched (q : List Char → List Char) (s : List Char)
    (h : ∀ b, s ≠ wrap b) :
    embeddedDynaml q false s = none ∧ unescapeStr q false s = s := by
  have : dynamlBody s = none := by
    cases hb : dynamlBody s with
    | none => rfl
    | some b => exact absurd (dynamlBody_some hb) (h b)
  simp [embeddedDynaml, unescapeStr, this]

example : escaped 2 "a".toList = "((!!a))".toList ∧ ("a".toList.head? ≠ some '!') := by decide
example : unescapeStr id false "((!a))".toList = "((a))".toList := by decide
example : (∀ b, "x ((a))".toList ≠ wrap b) := by
  intro b; simp [wrap]

end Spiff.Props
