import Verif.Model.Scope
/-
C49: lexical scoping of references.
-/
namespace Spiff
variable {E : Type}

/-- The scopes visible in an environment, innermost first: its own ones, then those of the
outer environments. -/
def visibleScopes (env : Env E) : List (Scope E) := env.scopes ++ env.outer.flatten

/-- The scope has a field with this name. -/
def Scope.Has (s : Scope E) (name : String) (n : Node E) : Prop := ∃ m, s.locals = some m ∧ mget m name = some n

/-- names without special meaning in a reference -/
def OrdinaryName (name : String) : Prop := name ≠ "__ctx" ∧ name ≠ "_" ∧ name ≠ "__" ∧ name ≠ "___"

theorem Scope.get_some {s : Scope E} {name : String} {n : Node E} : s.get name = some n ↔ s.Has name n := by
  unfold Scope.get Scope.Has
  cases s.locals <;> simp

theorem Scope.get_none {s : Scope E} {name : String} : s.get name = none ↔ ∀ n, ¬ s.Has name n := by
  constructor
  · intro h n hn
    rw [Scope.get_some.2 hn] at h; cases h
  · intro h
    cases hg : s.get name with
    | none => rfl
    | some n => exact (h n (Scope.get_some.1 hg)).elim

theorem lookupScopes_append_none {name : String} {a : List (Scope E)} (b : List (Scope E)) (h : ∀ s ∈ a, ∀ n, ¬ s.Has name n) :
    lookupScopes name (a ++ b) = lookupScopes name b := by
  induction a with
  | nil => rfl
  | cons s r ih =>
    simp only [List.cons_append, lookupScopes, Scope.get_none.2 (h s (by simp))]
    exact ih (fun s hs => h s (by simp [hs]))

theorem lookupScopes_first {name : String} {a b : List (Scope E)} {s : Scope E} {n : Node E}
    (h : ∀ s ∈ a, ∀ n, ¬ s.Has name n) (hs : s.Has name n) : lookupScopes name (a ++ s :: b) = some n := by
  rw [lookupScopes_append_none _ h]; simp [lookupScopes, Scope.get_some.2 hs]

theorem lookupScopes_none_iff {name : String} {a : List (Scope E)} :
    lookupScopes name a = none ↔ ∀ s ∈ a, ∀ n, ¬ s.Has name n := by
  induction a with
  | nil => simp [lookupScopes]
  | cons s r ih =>
    simp only [lookupScopes, List.mem_cons, forall_eq_or_imp]
    cases hg : s.get name with
    | none => simp only [ih]; exact ⟨fun h => ⟨Scope.get_none.1 hg, h⟩, fun h => h.2⟩
    | some n => simp only [reduceCtorEq, false_iff]; exact fun h => h.1 n (Scope.get_some.1 hg)

theorem lookupScopes_append {name : String} (a b : List (Scope E)) :
    lookupScopes name (a ++ b) = (lookupScopes name a).or (lookupScopes name b) := by
  induction a with
  | nil => simp [lookupScopes]
  | cons s r ih => simp only [List.cons_append, lookupScopes]; cases s.get name <;> simp [ih]

theorem findRefIn_ordinary (X : RefLib E) (ctx : Node E) {name : String} (rest : List String) (hn : OrdinaryName name) :
    ∀ (outer : List (List (Scope E))) (scopes : List (Scope E)),
    findRefIn X ctx scopes outer (name :: rest) =
      match lookupScopes name (scopes ++ outer.flatten) with
      | some n => findR X.ctl true n rest
      | none => .missing := by
  obtain ⟨h1, h2, h3, h4⟩ := hn
  intro outer
  induction outer with
  | nil =>
    intro scopes
    unfold findRefIn
    simp only [if_neg h1, List.flatten_nil, List.append_nil]
    cases hl : lookupScopes name scopes with
    | some n => simp [SELF, h2]
    | none => simp [ROOT, DOCNODE, h3, h4]
  | cons o os ih =>
    intro scopes
    unfold findRefIn
    simp only [if_neg h1]
    rw [List.flatten_cons, lookupScopes_append]
    cases hl : lookupScopes name scopes with
    | some n => simp [SELF, h2]
    | none => simp only [ROOT, DOCNODE, h3, h4, if_false, Option.none_or]; exact ih o

/-- C49: a reference starts at the innermost visible scope with a field named like its first
component; the other components are looked up there, whatever the scopes around contain. -/
theorem reference_innermost (X : RefLib E) (env : Env E) {name : String} (rest : List String) (hn : OrdinaryName name)
    {inner outer : List (Scope E)} {s : Scope E} {n : Node E} (hv : visibleScopes env = inner ++ s :: outer)
    (hi : ∀ s ∈ inner, ∀ n, ¬ s.Has name n) (hs : s.Has name n) :
    findReference X env (name :: rest) = findR X.ctl true n rest := by
  unfold findReference
  rw [findRefIn_ordinary X _ rest hn]
  unfold visibleScopes at hv
  rw [hv, lookupScopes_first hi hs]

/-- C49: without such a scope the reference is not found. -/
theorem reference_unknown (X : RefLib E) (env : Env E) {name : String} (rest : List String) (hn : OrdinaryName name)
    (h : ∀ s ∈ visibleScopes env, ∀ n, ¬ s.Has name n) : findReference X env (name :: rest) = .missing := by
  unfold findReference
  rw [findRefIn_ordinary X _ rest hn]
  have : lookupScopes name (env.scopes ++ env.outer.flatten) = none := lookupScopes_none_iff.2 h
  rw [this]

/-- C49: both cases together: a reference is found iff the innermost scope with a field of that
name leads to the node. -/
theorem reference_found_iff (X : RefLib E) (env : Env E) {name : String} (rest : List String) (hn : OrdinaryName name) (x : Node E) :
    findReference X env (name :: rest) = .found x ↔
      ∃ inner s outer n, visibleScopes env = inner ++ s :: outer ∧ (∀ t ∈ inner, ∀ n, ¬ t.Has name n) ∧
        s.Has name n ∧ findR X.ctl true n rest = .found x := by
  constructor
  · intro h
    by_cases hh : ∀ s ∈ visibleScopes env, ∀ n, ¬ s.Has name n
    · rw [reference_unknown X env rest hn hh] at h; cases h
    · have key : ∀ l : List (Scope E), (¬ ∀ s ∈ l, ∀ n, ¬ s.Has name n) →
          ∃ inner s outer n, l = inner ++ s :: outer ∧ (∀ t ∈ inner, ∀ n, ¬ t.Has name n) ∧ s.Has name n := by
        intro l
        induction l with
        | nil => intro h; exact (h (by simp)).elim
        | cons a r ih =>
          intro h
          by_cases ha : ∃ n, a.Has name n
          · obtain ⟨n, hn⟩ := ha
            exact ⟨[], a, r, n, rfl, by simp, hn⟩
          · have ha' : ∀ n, ¬ a.Has name n := fun n hn => ha ⟨n, hn⟩
            have : ¬ ∀ s ∈ r, ∀ n, ¬ s.Has name n := by
              intro hr; apply h
              intro s hs
              rcases List.mem_cons.1 hs with rfl | hs
              · exact ha'
              · exact hr s hs
            obtain ⟨i, s, o, n, he, hi, hs⟩ := ih this
            refine ⟨a :: i, s, o, n, by simp [he], ?_, hs⟩
            intro t ht
            rcases List.mem_cons.1 ht with rfl | ht
            · exact ha'
            · exact hi t ht
      obtain ⟨i, s, o, n, he, hi, hs⟩ := key _ hh
      refine ⟨i, s, o, n, he, hi, hs, ?_⟩
      rw [← reference_innermost X env rest hn he hi hs]; exact h
  · rintro ⟨i, s, o, n, he, hi, hs, hx⟩
    rw [reference_innermost X env rest hn he hi hs]; exact hx

/-- C49: the scopes around the one that binds the name are irrelevant. -/
theorem outer_scopes_irrelevant (X : RefLib E) (env env' : Env E) {name : String} (rest : List String) (hn : OrdinaryName name)
    {inner outer outer' : List (Scope E)} {s : Scope E} {n : Node E}
    (hv : visibleScopes env = inner ++ s :: outer) (hv' : visibleScopes env' = inner ++ s :: outer') (hs : s.Has name n) :
    findReference X env (name :: rest) = findReference X env' (name :: rest) := by
  by_cases hi : ∀ s ∈ inner, ∀ n, ¬ s.Has name n
  · rw [reference_innermost X env rest hn hv hi hs, reference_innermost X env' rest hn hv' hi hs]
  · unfold findReference
    rw [findRefIn_ordinary X _ rest hn, findRefIn_ordinary X _ rest hn]
    unfold visibleScopes at hv hv'
    rw [hv, hv', lookupScopes_append, lookupScopes_append]
    cases hl : lookupScopes name inner with
    | none => exact (hi (lookupScopes_none_iff.1 hl)).elim
    | some n => simp

/-- C49: entering a map or a call adds a scope: its fields hide those around, other names are not affected. -/
theorem local_scope_reference (X : RefLib E) (env : Env E) (m : List (String × Node E)) {name : String} (rest : List String)
    (hn : OrdinaryName name) :
    (∀ n, mget m name = some n → findReference X (env.withLocalScope m) (name :: rest) = findR X.ctl true n rest) ∧
    (mget m name = none → findReference X (env.withLocalScope m) (name :: rest) = findReference X env (name :: rest)) := by
  constructor
  · intro n h
    exact reference_innermost (inner := []) (outer := visibleScopes env) X _ rest hn rfl (by simp) ⟨m, rfl, h⟩
  · intro h
    unfold findReference
    rw [findRefIn_ordinary X _ rest hn, findRefIn_ordinary X _ rest hn]
    have : lookupScopes name ((env.withLocalScope m).scopes ++ (env.withLocalScope m).outer.flatten) =
        lookupScopes name (env.scopes ++ env.outer.flatten) := by
      simp [Env.withLocalScope, lookupScopes, Scope.get, h]
    rw [this]

theorem scope_reference (X : RefLib E) (env : Env E) (m : List (String × Node E)) {name : String} (rest : List String)
    (hn : OrdinaryName name) :
    (∀ n, mget m name = some n → findReference X (env.withScope m) (name :: rest) = findR X.ctl true n rest) ∧
    (mget m name = none → findReference X (env.withScope m) (name :: rest) = findReference X env (name :: rest)) := by
  constructor
  · intro n h
    exact reference_innermost (inner := []) (outer := visibleScopes env) X _ rest hn rfl (by simp) ⟨m, rfl, h⟩
  · intro h
    unfold findReference
    rw [findRefIn_ordinary X _ rest hn, findRefIn_ordinary X _ rest hn]
    have : lookupScopes name ((env.withScope m).scopes ++ (env.withScope m).outer.flatten) =
        lookupScopes name (env.scopes ++ env.outer.flatten) := by
      simp [Env.withScope, lookupScopes, Scope.get, h]
    rw [this]

/-- C49: the name `__ctx` cannot be hidden by a field. -/
theorem ctx_not_hidden (X : RefLib E) (env : Env E) (rest : List String) :
    findReference X env ("__ctx" :: rest) = findR X.ctl true (X.ctx env) rest := by
  unfold findReference findRefIn
  simp [SELF]

/-- C49: an absolute reference starts at the outermost scope and does not depend on the scopes entered. -/
theorem absolute_reference (X : RefLib E) (env : Env E) (m : List (String × Node E)) (path : List String)
    (s : Scope E) (hs : env.scopes.getLast? = some s) :
    (s.list = none → findFromRoot X env path = findR X.ctl true (Node.new (.map (s.locals.getD [])) "scope") path) ∧
    (s.list = none → findFromRoot X (env.withScope m) path = findFromRoot X env path ∧
      findFromRoot X (env.withLocalScope m) path = findFromRoot X env path) := by
  have hne : env.scopes ≠ [] := by intro h; rw [h] at hs; cases hs
  have hl : ∀ t : Scope E, (t :: env.scopes).getLast? = some s := by
    intro t
    cases hc : env.scopes with
    | nil => exact (hne hc).elim
    | cons a r => rw [hc] at hs; rw [List.getLast?_cons_cons]; exact hs
  constructor
  · intro h
    simp only [findFromRoot, hs, h]
  · intro h
    constructor
    · simp only [findFromRoot, Env.withScope, hl, h, hs]
    · simp only [findFromRoot, Env.withLocalScope, hl, h, hs]

theorem nodeScope_skip {locs : List (Scope E)} (b : List (Scope E)) (h : ∀ s ∈ locs, s.path = none) :
    nodeScope (locs ++ b) = nodeScope b := by
  induction locs with
  | nil => rfl
  | cons s r ih =>
    simp only [List.cons_append, nodeScope, h s (by simp)]
    simp only [Option.isSome_none, Bool.false_eq_true, false_and, if_false]
    exact ih (fun s hs => h s (by simp [hs]))

theorem findInScopes_first (ctl : Bool) (first : String) (rest : List String) (a b : List (Scope E)) (s : Scope E) (n : Node E)
    (ha : ∀ t ∈ a, ∃ m, t.locals = some m ∧ mget m first = none) (hs : s.Has first n) :
    findInScopes ctl first rest (a ++ s :: b) = findR ctl true n rest := by
  induction a with
  | nil =>
    obtain ⟨m, h1, h2⟩ := hs
    simp [findInScopes, h1, h2]
  | cons t r ih =>
    obtain ⟨m, h1, h2⟩ := ha t (by simp)
    simp only [List.cons_append, findInScopes, h1, h2]
    exact ih (fun t ht => ha t (by simp [ht]))

/-- C49: `__` refers to the document: the scopes of calls and of scope expressions (which have no path)
inside the innermost enclosing map of the document are skipped; their fields do not hide those of the document. -/
theorem doc_reference (X : RefLib E) (env : Env E) (first : String) (rest : List String)
    {locs a b : List (Scope E)} {s d : Scope E} {n : Node E}
    (hv : env.scopes = locs ++ (a ++ s :: b)) (hl : ∀ s ∈ locs, s.path = none)
    (hd : (a ++ s :: b).head? = some d) (hdp : d.path.isSome)
    (ha : ∀ t ∈ a, ∃ m, t.locals = some m ∧ mget m first = none) (hs : s.Has first n)
    (hno : ∀ s ∈ env.scopes, ∀ n, ¬ s.Has "__" n) :
    findReference X env ("__" :: first :: rest) = findR X.ctl true n rest := by
  have hds : d.locals.isSome := by
    cases a with
    | nil =>
      simp only [List.nil_append, List.head?_cons, Option.some.injEq] at hd
      obtain ⟨m, h1, _⟩ := hs
      rw [← hd, h1]; rfl
    | cons t r =>
      simp only [List.cons_append, List.head?_cons, Option.some.injEq] at hd
      obtain ⟨m, h1, _⟩ := ha t (by simp)
      rw [← hd, h1]; rfl
  have hns : nodeScope env.scopes = some (a ++ s :: b) := by
    rw [hv, nodeScope_skip _ hl]
    cases hc : a ++ s :: b with
    | nil => rw [hc] at hd; cases hd
    | cons x r =>
      rw [hc] at hd
      simp only [List.head?_cons, Option.some.injEq] at hd
      simp only [nodeScope]
      rw [if_pos]
      rw [hd]; exact ⟨hdp, hds⟩
  unfold findReference
  unfold findRefIn
  have : lookupScopes "__" env.scopes = none := lookupScopes_none_iff.2 hno
  simp only [show ("__" : String) ≠ "__ctx" by decide, if_false, this, ROOT, DOCNODE, show ("__" : String) ≠ "___" by decide, if_true, hns]
  exact findInScopes_first X.ctl first rest a b s n ha hs

theorem outermost_eq (scopes : List (Scope E)) (outer : List (List (Scope E))) :
    outermost scopes outer = (scopes :: outer).getLast (by simp) := by
  induction outer generalizing scopes with
  | nil => rfl
  | cons o os ih => simp only [outermost, ih]; exact (List.getLast_cons (by simp)).symm

/-- C49: `___` refers to the root of the outermost environment, from every nested one. -/
theorem root_reference (X : RefLib E) (env : Env E) (rest : List String)
    (hno : ∀ s ∈ env.scopes, ∀ n, ¬ s.Has "___" n) :
    findReference X env ("___" :: rest) =
      findR X.ctl true (Node.new (.map (rootMap ((env.scopes :: env.outer).getLast (by simp)))) "") rest := by
  unfold findReference
  unfold findRefIn
  have : lookupScopes "___" env.scopes = none := lookupScopes_none_iff.2 hno
  simp only [show ("___" : String) ≠ "__ctx" by decide, if_false, this, ROOT, if_true, outermost_eq]

section Example
/-- Two nested maps and an outer environment: `a` of the inner map hides the outer one (and there
is no fallback if the inner one has no field `x`), `b` is found in the outer map, `c` in the outer environment. -/
def exampleEnv : Env Unit :=
  { scopes := [{ locals := some [("a", Node.new (.map [("y", Node.new (.int 1) "s")]) "s")], path := some ["m"] },
      { locals := some [("a", Node.new (.map [("x", Node.new (.int 2) "s")]) "s"), ("b", Node.new (.int 3) "s")], path := some [] }]
    outer := [[{ locals := some [("c", Node.new (.int 4) "s")], path := some [] }]] }
def exampleLib : RefLib Unit := { ctl := false, ctx := fun _ => Node.new .nil "", resolver := fun _ _ => .missing }

def foundInt : Look (Node Unit) → Option Int
  | .found (.mk (.int i) _ _) => some i
  | _ => none

/-- no fallback to an outer scope: the inner `a` hides the outer one completely -/
theorem hidden_without_fallback :
    foundInt (findReference exampleLib exampleEnv ["a", "y"]) = some 1 ∧
    (findReference exampleLib exampleEnv ["a", "x"] matches .missing) = true ∧
    foundInt (findReference exampleLib exampleEnv ["b"]) = some 3 ∧
    foundInt (findReference exampleLib exampleEnv ["c"]) = some 4 ∧
    (findReference exampleLib exampleEnv ["d"] matches .missing) = true := by decide +kernel

example : ∃ inner s outer n, visibleScopes exampleEnv = inner ++ s :: outer ∧ (∀ t ∈ inner, ∀ n, ¬ t.Has "b" n) ∧ s.Has "b" n :=
  ⟨[exampleEnv.scopes[0]], exampleEnv.scopes[1], exampleEnv.outer.flatten, _, rfl,
    by intro t ht n ⟨m, h1, h2⟩; simp [exampleEnv] at ht; subst ht; cases h1; simp [mget] at h2,
    ⟨_, rfl, rfl⟩⟩
example : OrdinaryName "b" := by unfold OrdinaryName; decide
end Example

end Spiff
