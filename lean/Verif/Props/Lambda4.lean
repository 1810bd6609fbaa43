import Verif.Props.Lambda2
/-
C40: the scope in which the body of a lambda is evaluated.
-/
namespace Spiff
open Spec
variable {E B : Type}

/-- **C40** (evaluation): an accepted call yields what the body yields, exactly once evaluated, in a scope in which the parameters have
the given values, `_` is the lambda itself (but not for inline lambdas), and all other names have the values of the static scope.
A call which is not accepted fails. -/
theorem call_evaluates_body {L : Lam E B} (hd : Distinct L) (run : B → List (String × Node E) → LamOut E) (inline : Bool) (self : Node E)
    (src : String) (args : List (Val E)) :
    (Accepts L [] args → ∃ scope, applyLambda run inline self L src args = run L.body scope ∧
      (∀ (i : Nat) (p : Param E), L.params[i]? = some p → (inline = true ∨ p.name ≠ "_") →
        ∃ n, mget scope p.name = some n ∧ Given L src [] args i p n) ∧
      (inline = false → mget scope "_" = some self) ∧
      (∀ x, (∀ p ∈ L.params, p.name ≠ x) → (inline = true ∨ x ≠ "_") → mget scope x = mget L.static x)) ∧
    (¬ Accepts L [] args → applyLambda run inline self L src args = .fail) := by
  constructor
  · intro ha
    obtain ⟨inp, hi⟩ := (call_runs_iff hd src [] args).2 ha
    obtain ⟨h1, h2⟩ := call_binds hd hi
    refine ⟨if inline then inp else mset inp SELF self, ?_, ?_, ?_, ?_⟩
    · simp only [applyLambda, hi, runLambda]
    · intro i p hp hn
      obtain ⟨n, hg, hgv⟩ := h1 i p hp
      refine ⟨n, ?_, hgv⟩
      cases inline with
      | true => exact hg
      | false =>
        have : p.name ≠ SELF := hn.resolve_left (by decide)
        simp only [Bool.false_eq_true, if_false, mget_mset, this]
        exact hg
    · rintro rfl
      simp only [Bool.false_eq_true, if_false]
      exact mget_mset_self _ SELF _
    · intro x hx hn
      cases inline with
      | true => exact h2 x hx
      | false =>
        have : x ≠ SELF := hn.resolve_left (by decide)
        simp only [Bool.false_eq_true, if_false, mget_mset, this]
        exact h2 x hx
  · intro ha
    unfold applyLambda
    cases hc : callLambda L src false false [] args with
    | run inp => exact absurd ((call_runs_iff hd src [] args).1 ⟨inp, hc⟩) ha
    | _ => rfl

/-- `|x, y| -> x + _`: called with 5 and 7 the body sees both arguments and the lambda -/
example : let L : Lam Unit Unit := { params := [{ name := "x" }, { name := "y" }], body := () }
    Accepts L [] [.int 5, .int 7] ∧ Distinct L := by
  refine ⟨⟨.inl (by decide), by simp, by simp, ?_⟩, by show List.Nodup ["x", "y"]; decide⟩
  intro i p hp
  left
  have : i < 2 := by
    by_contra hge
    rw [List.getElem?_eq_none (by simp; omega)] at hp
    cases hp
  simpa using this

end Spiff
