import Verif.Props.Flow
import Verif.Props.Equiv
import Verif.Lemmas.Mono
/-
C07: a pass terminates; the result of the loop is a fixpoint.
-/
namespace Spiff
open Spec
variable {E : Type}

/-- C07: one processing pass over any document ends, for every parser and evaluator: the recursion
depth is bounded by the nesting depth of the document. (No key demands a template, which holds
if the control feature is off or no map uses control keys.) -/
theorem pass_terminates (L : Lang E) (ht : ∀ k, L.requireTemplate k = false) (env : Env E) (doc : Node E) (so : Bool)
    (fuel : Nat) (hf : depth doc < fuel) : ∃ r, flow L fuel env doc so false = .ok r := by
  have h1 := flow_NE L ht .fuel fuel env doc so (Or.inl hf)
  have h2 := flow_NE L ht .panic fuel env doc so (Or.inl hf)
  cases h : flow L fuel env doc so false with
  | ok r => exact ⟨r, rfl⟩
  | error e => cases e with
    | fuel => exact absurd h h1
    | panic => exact absurd h h2

/-- C07: the result does not depend on the recursion bound of the model. -/
theorem fuel_irrelevant (L : Lang E) (env : Env E) (doc : Node E) (so et : Bool) (f f' : Nat) (r r' : Node E)
    (h : flow L f env doc so et = .ok r) (h' : flow L f' env doc so et = .ok r') : r = r' := by
  rcases Nat.le_total f f' with hle | hle
  · have := flow_LE L hle env doc so et r h
    rw [this] at h'; cases h'; rfl
  · have := flow_LE L hle env doc so et r' h'
    rw [this] at h; cases h; rfl

variable [DecidableEq E]

/-- C07: if the processing ends, its result is a fixpoint: one more pass reproduces it (content,
sources and annotations at all positions). The exception is a document that became undefined
as a whole. -/
theorem result_fixpoint (L : Lang E) (fuel : Nat) (env : Env E) (source : Node E) (so : Bool) (passes : Nat)
    (doc r : Node E) (h : flowLoop L fuel env source so passes doc = .ok r) :
    (r.ann.undefined = true ∧ r.val = .nil) ∨
    ∃ next, pass L fuel env source r so = .ok next ∧ next.ann.undefined = false ∧
      (GoMaps r → GoMaps next → Identical r next) := by
  induction passes generalizing doc with
  | zero => simp [flowLoop] at h
  | succ n ih =>
    unfold flowLoop at h
    cases hp : pass L fuel env source doc so with
    | error e => rw [hp] at h; simp [bind, Except.bind] at h
    | ok next =>
      rw [hp] at h
      simp only [bind, Except.bind, pure, Except.pure] at h
      split at h
      · simp only [Except.ok.injEq] at h; subst h; exact Or.inl ⟨rfl, rfl⟩
      · next hu =>
        split at h
        · next hd =>
          simp only [Except.ok.injEq] at h
          subst h
          exact Or.inr ⟨next, hp, by simpa using hu, fun h1 h2 => (deepEq_iff_identical _ _ h1 h2).1 hd⟩
        · exact ih next h

/-- A converged document stays converged: re-processing it returns it after a single pass. -/
theorem reprocess_fixpoint (L : Lang E) (fuel : Nat) (env : Env E) (source : Node E) (so : Bool) (passes passes' : Nat)
    (doc r : Node E) (h : flowLoop L fuel env source so passes doc = .ok r) (hu : r.ann.undefined = false) :
    flowLoop L fuel env source so (passes' + 1) r = .ok r := by
  induction passes generalizing doc with
  | zero => simp [flowLoop] at h
  | succ n ih =>
    unfold flowLoop at h
    cases hp : pass L fuel env source doc so with
    | error e => rw [hp] at h; simp [bind, Except.bind] at h
    | ok next =>
      rw [hp] at h
      simp only [bind, Except.bind, pure, Except.pure] at h
      split at h
      · simp only [Except.ok.injEq] at h; subst h; simp [Node.undefinedNode, Node.withAnn, Node.ann] at hu
      · next hun =>
        split at h
        · next hd =>
          simp only [Except.ok.injEq] at h
          subst h
          unfold flowLoop
          rw [hp]
          simp only [bind, Except.bind, pure, Except.pure, hun, hd, if_true]
          simp
        · exact ih next h

/-- The number of passes the model allows does not influence the result. -/
theorem passes_irrelevant (L : Lang E) (fuel : Nat) (env : Env E) (source : Node E) (so : Bool) (n k : Nat)
    (doc r : Node E) (h : flowLoop L fuel env source so n doc = .ok r) :
    flowLoop L fuel env source so (n + k) doc = .ok r := by
  induction n generalizing doc with
  | zero => simp [flowLoop] at h
  | succ n ih =>
    rw [show n + 1 + k = n + k + 1 from by omega]
    unfold flowLoop at h ⊢
    cases hp : pass L fuel env source doc so with
    | error e => rw [hp] at h; simp [bind, Except.bind] at h
    | ok next =>
      rw [hp] at h
      simp only [bind, Except.bind, pure, Except.pure] at h ⊢
      split at h
      · next hu => simp only [hu, if_true]; exact h
      · next hu =>
        simp only [hu]
        split at h
        · next hd => simp only [hd, if_true]; simpa using h
        · next hd => simp only [hd]; simpa using ih next h

/-- the template `a: .nan` -/
def nanDoc : Node Empty := mapN [("a", leafN (.float (2047 * 2^52 + 1)))]

/-- C07, divergence: a document containing a NaN never converges, although a pass does not
change it: the comparison of consecutive results with `reflect.DeepEqual` never succeeds, because a
NaN differs from itself. No number of passes is enough. -/
theorem nan_diverges (passes : Nat) :
    flowLoop noLang 3 {} nanDoc true passes nanDoc = .error .fuel ∧ pass noLang 3 {} nanDoc nanDoc true = .ok nanDoc := by
  have hp : pass noLang 3 {} nanDoc nanDoc true = .ok nanDoc := rfl
  refine ⟨?_, hp⟩
  induction passes with
  | zero => rfl
  | succ n ih =>
    unfold flowLoop
    rw [hp]
    have hd : deepEq nanDoc nanDoc = false := by decide
    simp only [bind, Except.bind, hd]
    simpa [nanDoc, mapN, leafN, bare] using ih

/-- a language in which the key `<<do` demands a template (dynaml/control.go:190-196) -/
def ctlLang : Lang Empty := { noLang with requireTemplate := fun k => k == "<<do" }

/-- A list at a position that demands a template makes the pass panic. -/
theorem template_list_panics :
    flow ctlLang 3 {} (mapN [("<<do", leafN (.list []))]) true false = .error .panic := by rfl

/-! ### non-triviality: an expression that needs two passes -/

/-- expressions: `0` yields the value of expression `1` as an expression, `1` yields 7 -/
def twoLang : Lang Nat where
  parse _ _ _ := some 0
  eval e _ := if e = 0 then (.expr 1, {}, true) else (.int 7, {}, true)
  marker _ := none
  simpleMerge _ := false
  directMerge _ := false
  print _ := "x"
  requireTemplate _ := false
  quote s := s
  interpol := false

def twoDoc : Node Nat := .mk (.map [("a", .mk (.expr 0) "f" {})]) "f" {}

def twoMid : Node Nat := .mk (.map [("a", .mk (.expr 1) "f" {})]) "f" {}
def twoEnd : Node Nat := .mk (.map [("a", .mk (.int 7) "f" {})]) "f" {}

/-- one iteration of the loop, if the pass changes the document -/
theorem flowLoop_next (L : Lang E) (fuel : Nat) (env : Env E) (source doc next : Node E) (so : Bool) (n : Nat)
    (hp : pass L fuel env source doc so = .ok next) (hu : next.ann.undefined = false) (hd : deepEq doc next = false) :
    flowLoop L fuel env source so (n + 1) doc = flowLoop L fuel env source so n next := by
  rw [flowLoop, hp]
  simp [bind, Except.bind, hu, hd]

/-- the last iteration of the loop -/
theorem flowLoop_last (L : Lang E) (fuel : Nat) (env : Env E) (source doc next : Node E) (so : Bool) (n : Nat)
    (hp : pass L fuel env source doc so = .ok next) (hu : next.ann.undefined = false) (hd : deepEq doc next = true) :
    flowLoop L fuel env source so (n + 1) doc = .ok doc := by
  rw [flowLoop, hp]
  simp [bind, Except.bind, hu, hd, pure, Except.pure]

example : flowLoop twoLang 3 {} twoDoc true 4 twoDoc = .ok twoEnd := by
  rw [flowLoop_next _ _ _ _ _ twoMid _ _ rfl rfl rfl, flowLoop_next _ _ _ _ _ twoEnd _ _ rfl rfl rfl,
    flowLoop_last _ _ _ _ _ twoEnd _ _ rfl rfl (by decide)]

/-! ### C06: a preferred scalar and later passes -/

/-- expression `0` evaluates to 7 and prefers its value -/
def preferLang : Lang Nat where
  parse _ _ _ := some 0
  eval _ _ := (.int 7, { preferred := true }, true)
  marker _ := none
  simpleMerge _ := false
  directMerge _ := false
  print _ := "x"
  requireTemplate _ := false
  quote s := s
  interpol := false

def preferDoc : Node Nat := .mk (.map [("a", .mk (.expr 0) "f" {})]) "f" {}
def preferStub : Node Nat := .mk (.map [("a", .mk (.int 1) "s" {})]) "s" {}

/-- C06: the preference only holds for the pass that evaluates the expression. In the following
pass a *scalar* result is overridden by the stub value. -/
theorem preferred_scalar_overridden :
    (∃ r, flow preferLang 3 { stubs := [preferStub] } (.mk (.map [("a", .mk (.expr 0) "f" {})]) "f" {}) true false
        = .ok r ∧ erase r = .map [("a", .int 7)]) ∧
    (∃ r, flowLoop preferLang 3 { stubs := [preferStub] } preferDoc true 5 preferDoc = .ok r ∧
        erase r = .map [("a", .int 1)]) := by
  have h1 : pass preferLang 3 { stubs := [preferStub] } preferDoc preferDoc true
      = .ok (.mk (.map [("a", .mk (.int 7) "f" { preferred := true })]) "f" {}) := rfl
  have h2 : pass preferLang 3 { stubs := [preferStub] } preferDoc
      (.mk (.map [("a", .mk (.int 7) "f" { preferred := true })]) "f" {}) true
      = .ok (.mk (.map [("a", .mk (.int 1) "s" {})]) "f" {}) := rfl
  have h3 : pass preferLang 3 { stubs := [preferStub] } preferDoc
      (.mk (.map [("a", .mk (.int 1) "s" {})]) "f" {}) true
      = .ok (.mk (.map [("a", .mk (.int 1) "s" {})]) "f" {}) := rfl
  refine ⟨⟨.mk (.map [("a", .mk (.int 7) "f" { preferred := true })]) "f" {}, h1, rfl⟩,
    ⟨.mk (.map [("a", .mk (.int 1) "s" {})]) "f" {}, ?_, rfl⟩⟩
  rw [flowLoop_next _ _ _ _ _ _ _ _ h1 rfl rfl, flowLoop_next _ _ _ _ _ _ _ _ h2 rfl rfl,
    flowLoop_last _ _ _ _ _ _ _ _ h3 rfl (by decide)]

end Spiff
