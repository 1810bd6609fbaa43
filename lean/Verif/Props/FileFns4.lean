import Verif.Props.FileFns3
/-
C79: finding files and directories, listing directories, environment variables.
-/
namespace Spiff
open Spiff.Spec
variable {E : Type}

/-! ### lookup -/

theorem lookupElems_iff (l : List (Node E)) (a : List String) : lookupElems l = some a ↔
    ∃ ss, List.Forall₂ (fun (n : Node E) (o : Option String) => (n.val = .nil ∧ o = none) ∨ ∃ s, n.val = .str s ∧ o = some s) l ss ∧ a = ss.filterMap id := by
  induction l generalizing a with
  | nil =>
    simp only [lookupElems, Option.some.injEq, List.forall₂_nil_left_iff]
    constructor
    · rintro rfl; exact ⟨[], rfl, rfl⟩
    · rintro ⟨_, rfl, rfl⟩; rfl
  | cons n r ih =>
    simp only [lookupElems]
    constructor
    · intro h
      split at h
      · rename_i hv
        obtain ⟨ss, h1, h2⟩ := (ih a).1 h
        exact ⟨none :: ss, .cons (.inl ⟨hv, rfl⟩) h1, by simpa using h2⟩
      · rename_i s hv
        rw [Option.map_eq_some_iff] at h
        obtain ⟨b, hb, rfl⟩ := h
        obtain ⟨ss, h1, h2⟩ := (ih b).1 hb
        exact ⟨some s :: ss, .cons (.inr ⟨s, hv, rfl⟩) h1, by simpa using h2⟩
      · cases h
    · rintro ⟨_, h1, rfl⟩
      cases h1 with
      | cons ho hr =>
        rename_i o ss
        rcases ho with ⟨hv, rfl⟩ | ⟨s, hv, rfl⟩
        · simp only [hv]; exact (ih _).2 ⟨ss, hr, by simp⟩
        · simp only [hv, (ih _).2 ⟨ss, hr, rfl⟩]; simp

theorem lookupPaths_iff (args : List (Val E)) (ds : List String) : lookupPaths args = some ds ↔ DirsOf args ds := by
  induction args generalizing ds with
  | nil =>
    simp only [lookupPaths, Option.some.injEq]
    constructor
    · rintro rfl; exact .nil
    · intro h; cases h; rfl
  | cons v r ih =>
    constructor
    · intro h
      cases v with
      | list l =>
        simp only [lookupPaths] at h
        split at h
        · rename_i a b ha hb
          cases h
          obtain ⟨ss, h1, rfl⟩ := (lookupElems_iff l a).1 ha
          exact .list l r ss b h1 ((ih b).1 hb)
        · cases h
      | str s =>
        simp only [lookupPaths, Option.map_eq_some_iff] at h
        obtain ⟨b, hb, rfl⟩ := h
        exact .str s r b ((ih b).1 hb)
      | _ => simp [lookupPaths] at h
    · intro h
      cases h with
      | str s _ ds h => simp [lookupPaths, (ih _).2 h]
      | list l _ ss ds hl h =>
        simp only [lookupPaths, (lookupElems_iff l _).2 ⟨ss, hl, rfl⟩, (ih _).2 h]

theorem checkExistence_iff (stat : StatFn) (p : String) (d : Bool) : checkExistence true stat p d = true ↔ IsKind stat d p := by
  unfold checkExistence IsKind
  cases stat p <;> simp

/-- C79: `lookup_file`/`lookup_dir` require a non-empty name and at least one directory argument; the result are exactly the existing
candidates of the requested kind, in the order of the directories. -/
theorem lookup_iff (src : String) (allowed : Bool) (stat : StatFn) (directory : Bool) (args : List (Val E)) (v : Val E) :
    funcLookup src allowed stat directory args = .ok v ↔
      allowed = true ∧ ∃ name a r dirs, args = .str name :: a :: r ∧ name ≠ "" ∧ DirsOf (a :: r) dirs ∧
        ∃ found : List String, v = .list (found.map (fun p => Node.new (.str p) src)) ∧ found.Sublist (Candidates name dirs) ∧
          ∀ p, found.count p = if stat p = some directory then (Candidates name dirs).count p else 0 := by
  have key : ∀ name paths, ∃ found, lookupFound true stat directory name paths = found ∧ found = (Candidates name paths).filter (fun p => checkExistence true stat p directory) := by
    intro name paths
    refine ⟨_, rfl, ?_⟩
    unfold lookupFound Candidates
    have e : (['/'].isPrefixOf name.toList = true) ↔ name.toList.head? = some '/' := by
      cases name.toList with
      | nil => simp
      | cons c r => simp only [List.isPrefixOf, Bool.and_true, beq_iff_eq, List.head?_cons, Option.some.injEq]; exact eq_comm
    by_cases h : name.toList.head? = some '/'
    · rw [if_pos h, if_pos (e.2 h)]
      by_cases hc : checkExistence true stat name directory = true <;> simp [hc]
    · rw [if_neg h, if_neg (fun x => h (e.1 x))]
  have uniq : ∀ (found cand : List String), (found.Sublist cand ∧ ∀ p, found.count p = if stat p = some directory then cand.count p else 0) ↔
      found = cand.filter (fun p => checkExistence true stat p directory) := by
    intro found cand
    have hcount : ∀ p, (cand.filter (fun p => checkExistence true stat p directory)).count p = if stat p = some directory then cand.count p else 0 := by
      intro p
      by_cases hp : stat p = some directory
      · rw [if_pos hp]; exact List.count_filter (p := fun p => checkExistence true stat p directory) ((checkExistence_iff stat p directory).2 hp)
      · rw [if_neg hp, List.count_eq_zero]
        intro hm
        exact hp ((checkExistence_iff stat p directory).1 (List.mem_filter.1 hm).2)
    constructor
    · rintro ⟨hs, hc⟩
      have hall : ∀ p ∈ found, checkExistence true stat p directory = true := by
        intro p hp
        have := hc p
        by_cases hk : stat p = some directory
        · exact (checkExistence_iff stat p directory).2 hk
        · rw [if_neg hk, List.count_eq_zero] at this; exact absurd hp this
      have hs' := hs.filter (fun p => checkExistence true stat p directory)
      rw [List.filter_eq_self.2 hall] at hs'
      exact hs'.eq_of_length (List.Perm.length_eq (List.perm_iff_count.2 (fun p => by rw [hc, hcount])))
    · rintro rfl; exact ⟨List.filter_sublist, hcount⟩
  unfold funcLookup
  cases allowed with
  | false => simp
  | true =>
    simp only [Bool.not_true, Bool.false_eq_true, if_false, true_and]
    constructor
    · intro h
      split at h
      · rename_i f a r
        split at h
        · cases h
        · rename_i paths hp
          split at h
          · rename_i name
            split at h
            · cases h
            · rename_i hn
              cases h
              obtain ⟨found, hf, he⟩ := key name paths
              rw [hf]
              have := (uniq found (Candidates name paths)).2 he
              exact ⟨name, a, r, paths, rfl, hn, (lookupPaths_iff _ _).1 hp, found, rfl, this.1, this.2⟩
          · cases h
      · cases h
    · rintro ⟨name, a, r, dirs, rfl, hn, hd, found, rfl, h1, h2⟩
      simp only [(lookupPaths_iff _ _).2 hd, if_neg hn]
      obtain ⟨found', hf, he⟩ := key name dirs
      rw [hf, he, (uniq found (Candidates name dirs)).1 ⟨h1, h2⟩]

/-- C79: lookups are never undetermined and never crash: the inputs that are not accepted are rejected with an error. -/
theorem lookup_total (src : String) (allowed : Bool) (stat : StatFn) (directory : Bool) (args : List (Val E)) :
    funcLookup src allowed stat directory args = .err ∨ ∃ v, funcLookup src allowed stat directory args = .ok v := by
  unfold funcLookup
  repeat' split
  all_goals simp

/-- an existing relative file found in the second directory -/
example : (match funcLookup (E := Unit) "" true (fun p => if p = "b/x" then some false else none) false
    [.str "x", .list [Node.new (.str "a") "", Node.new (.nil) ""], .str "b"] with
    | .ok (.list l) => l.map (fun n => match n.val with | .str s => s | _ => "?")
    | _ => []) = ["b/x"] := by decide +kernel

/-- C79: `list_files`/`list_dirs` of an existing directory yield the names of its entries of the requested kind, in the order of the
directory listing; everything else is an error. -/
theorem list_files_iff (src : String) (allowed : Bool) (stat : StatFn) (readDir : String → Option (List (String × Bool))) (directory : Bool)
    (args : List (Val E)) (v : Val E) :
    funcListFiles src allowed stat readDir directory args = .ok v ↔
      allowed = true ∧ ∃ name entries, args = [.str name] ∧ name ≠ "" ∧ stat name = some true ∧ readDir name = some entries ∧
        v = .list ((entries.filter (fun e => e.2 = directory)).map (fun e => Node.new (.str e.1) src)) := by
  unfold funcListFiles
  cases allowed with
  | false => simp
  | true =>
    simp only [Bool.not_true, Bool.false_eq_true, if_false, true_and]
    have hk : ∀ name, (!checkExistence true stat name true) = true ↔ ¬ stat name = some true := by
      intro name
      rw [Bool.not_eq_true', ← Bool.not_eq_true]
      exact not_congr (checkExistence_iff stat name true)
    have hf : ∀ l : List (String × Bool), l.filter (fun f => f.2 == directory) = l.filter (fun e => e.2 = directory) := by
      intro l; rfl
    constructor
    · intro h
      split at h
      · rename_i name
        split at h
        · cases h
        · rename_i hn
          split at h
          · cases h
          · rename_i hs
            split at h
            · cases h
            · rename_i es he
              cases h
              exact ⟨name, es, rfl, hn, Classical.byContradiction (fun x => hs ((hk name).2 x)), he, by rw [hf]⟩
      · cases h
    · rintro ⟨name, es, rfl, hn, hs, he, rfl⟩
      simp only [if_neg hn, he, hf]
      rw [if_neg (fun x => (hk name).1 x hs)]

/-! ### environment -/

theorem envName_iff (v : Val E) (s : String) : keyString v = some s ↔ EnvName v s := by
  constructor
  · intro h
    cases v with
    | str s => cases h; exact .str _
    | int i => cases h; exact .int _
    | bool b => cases b <;> cases h <;> constructor
    | _ => cases h
  · intro h; cases h <;> rfl

theorem envElems_iff (l : List (Node E)) (ss : List String) : envElems l = some ss ↔ List.Forall₂ (fun (n : Node E) s => EnvName n.val s) l ss := by
  induction l generalizing ss with
  | nil =>
    simp only [envElems, Option.some.injEq, List.forall₂_nil_left_iff]
    exact eq_comm
  | cons n r ih =>
    simp only [envElems]
    constructor
    · intro h
      split at h
      · rename_i s hs
        rw [Option.map_eq_some_iff] at h
        obtain ⟨b, hb, rfl⟩ := h
        exact .cons ((envName_iff _ _).1 hs) ((ih b).1 hb)
      · cases h
    · intro h
      cases h with
      | cons h1 h2 => simp only [(envName_iff _ _).2 h1, (ih _).2 h2]; rfl

theorem envArgs_iff (args : List (Val E)) (ns : List String) : envArgs args = some ns ↔ NamesOf args ns := by
  induction args generalizing ns with
  | nil =>
    simp only [envArgs, Option.some.injEq]
    constructor
    · rintro rfl; exact .nil
    · intro h; cases h; rfl
  | cons v r ih =>
    have simple : ∀ v : Val E, (envArgs (v :: r) = match keyString v with | some s => (envArgs r).map (s :: ·) | none => none) →
        (v ≠ .nil) → (∀ l, v ≠ .list l) → (envArgs (v :: r) = some ns ↔ NamesOf (v :: r) ns) := by
      intro v e h1 h2
      rw [e]
      constructor
      · intro h
        split at h
        · rename_i s hs
          rw [Option.map_eq_some_iff] at h
          obtain ⟨b, hb, rfl⟩ := h
          exact .one v s r b ((envName_iff _ _).1 hs) ((ih b).1 hb)
        · cases h
      · intro h
        cases h with
        | skip => exact absurd rfl h1
        | one _ s _ ns hv h => simp only [(envName_iff _ _).2 hv, (ih _).2 h]; rfl
        | list => exact absurd rfl (h2 _)
    cases v with
    | list l =>
      simp only [envArgs]
      constructor
      · intro h
        split at h
        · rename_i a b ha hb
          cases h
          exact .list l a r b ((envElems_iff l a).1 ha) ((ih b).1 hb)
        · cases h
      · intro h
        cases h with
        | one _ _ _ _ hv _ => cases hv
        | list _ ss _ ns hl h => simp only [(envElems_iff l _).2 hl, (ih _).2 h]
    | nil =>
      simp only [envArgs]
      constructor
      · intro h; exact .skip r ns ((ih ns).1 h)
      · intro h
        cases h with
        | skip _ _ h => exact (ih _).2 h
        | one _ _ _ _ hv _ => cases hv
    | _ => exact simple _ rfl (by simp) (by simp)

theorem getenv_iff (environ : List String) (name value : String) : getenv environ name = some value ↔ EnvValue environ name value := by
  induction environ with
  | nil => simp [getenv, EnvValue]
  | cons s r ih =>
    simp only [getenv]
    have hp := hasPrefix_append s (name ++ "=")
    by_cases h : hasPrefix s (name ++ "=") = true
    · rw [if_pos h]
      obtain ⟨y, rfl⟩ := hp.1 h
      have e : String.ofList (((name ++ "=" ++ y).toList).drop (name ++ "=").length) = y := by
        apply String.toList_injective
        rw [String.toList_ofList, String.toList_append, ← String.length_toList, List.drop_left]
      rw [e, Option.some.injEq]
      constructor
      · rintro rfl; exact ⟨[], r, rfl, by simp⟩
      · rintro ⟨bf, af, he, hb⟩
        cases bf with
        | nil =>
          injection he with h1 h2
          have := congrArg String.toList h1
          apply String.toList_injective
          simpa using this
        | cons x bf =>
          injection he with h1 h2
          exact absurd ⟨y, h1.symm⟩ (hb x (by simp))
    · rw [if_neg h, ih]
      constructor
      · rintro ⟨bf, af, rfl, hb⟩
        refine ⟨s :: bf, af, rfl, ?_⟩
        intro x hx
        rcases List.mem_cons.1 hx with rfl | hx
        · exact fun hy => h (hp.2 hy)
        · exact hb x hx
      · rintro ⟨bf, af, he, hb⟩
        cases bf with
        | nil => injection he with h1 _; exact absurd (hp.2 ⟨value, h1⟩) h
        | cons x bf => injection he with _ h2; exact ⟨bf, af, h2, fun z hz => hb z (by simp [hz])⟩

theorem getenv_none (environ : List String) (name : String) : getenv environ name = none ↔ ¬ ∃ v, EnvValue environ name v := by
  constructor
  · rintro h ⟨v, hv⟩; rw [(getenv_iff _ _ _).2 hv] at h; cases h
  · intro h
    cases hg : getenv environ name with
    | none => rfl
    | some v => exact absurd ⟨v, (getenv_iff _ _ _).1 hg⟩ h

theorem mget_envMap (environ : List String) (ns : List String) (m : List (String × Node E)) (k : String) :
    mget (envMap environ ns m) k = match (if k ∈ ns then getenv environ k else none) with
      | some s => some (Node.new (.str s) "") | none => mget m k := by
  induction ns generalizing m with
  | nil => simp [envMap]
  | cons n r ih =>
    simp only [envMap, ih]
    by_cases hr : k ∈ r
    · simp only [hr, List.mem_cons, or_true, if_true]
      cases hg : getenv environ k with
      | some s => rfl
      | none =>
        dsimp only
        by_cases hn : k = n
        · subst hn; rw [hg]
        · cases getenv environ n with
          | some s => exact mget_mset_ne _ _ hn
          | none => rfl
    · simp only [hr, List.mem_cons, or_false, if_false]
      by_cases hn : k = n
      · subst hn
        rw [if_pos rfl]
        cases getenv environ k with
        | some s => exact mget_mset_self _ _ _
        | none => rfl
      · rw [if_neg hn]
        cases getenv environ n with
        | some s => exact mget_mset_ne _ _ hn
        | none => rfl

/-- C79: `env` with exactly one name yields the value of that variable and fails if it is not set. -/
theorem env_one (environ : List String) (args : List (Val E)) (n : String) (h : NamesOf args [n]) (v : Val E) :
    (funcEnv environ args = .ok v ↔ ∃ s, EnvValue environ n s ∧ v = .str s) ∧
    (funcEnv environ args = .err ↔ ¬ ∃ s, EnvValue environ n s) := by
  have hne : args.isEmpty = false := by
    cases args with
    | nil => rw [← envArgs_iff] at h; cases h
    | cons => rfl
  unfold funcEnv
  simp only [hne, Bool.false_eq_true, if_false, (envArgs_iff _ _).2 h]
  cases hg : getenv environ n with
  | some s =>
    have hs := (getenv_iff _ _ _).1 hg
    constructor
    · constructor
      · intro h; cases h; exact ⟨s, hs, rfl⟩
      · rintro ⟨t, ht, rfl⟩
        have := (getenv_iff _ _ _).2 ht
        rw [hg] at this; cases this; rfl
    · simp only [reduceCtorEq, false_iff, Classical.not_not]; exact ⟨s, hs⟩
  | none =>
    have hs := (getenv_none _ _).1 hg
    constructor
    · simp only [reduceCtorEq, false_iff]; rintro ⟨s, h1, _⟩; exact hs ⟨s, h1⟩
    · simp only [true_iff]; exact hs

/-- C79: `env` with no name or several names yields a map that contains exactly the set variables among them. -/
theorem env_many (environ : List String) (args : List (Val E)) (ns : List String) (hne : args ≠ []) (h : NamesOf args ns) (h1 : ns.length ≠ 1) :
    ∃ m, funcEnv environ args = .ok (.map m) ∧
      ∀ k n, mget m k = some n ↔ k ∈ ns ∧ ∃ s, EnvValue environ k s ∧ n = Node.new (.str s) "" := by
  refine ⟨envMap environ ns [], ?_, ?_⟩
  · unfold funcEnv
    have : args.isEmpty = false := by cases args with | nil => exact absurd rfl hne | cons => rfl
    simp only [this, Bool.false_eq_true, if_false, (envArgs_iff _ _).2 h]
    match ns, h1 with
    | [], _ => rfl
    | [_], h1 => exact absurd rfl h1
    | _ :: _ :: _, _ => rfl
  · intro k n
    rw [mget_envMap]
    by_cases hk : k ∈ ns
    · simp only [hk, if_true, true_and]
      cases hg : getenv environ k with
      | some s =>
        have hs := (getenv_iff _ _ _).1 hg
        constructor
        · intro h; cases h; exact ⟨s, hs, rfl⟩
        · rintro ⟨t, ht, rfl⟩
          rw [← getenv_iff, hg] at ht; cases ht; rfl
      | none =>
        have hs := (getenv_none _ _).1 hg
        constructor
        · intro h; cases h
        · rintro ⟨t, ht, _⟩; exact absurd ⟨t, ht⟩ hs
    · simp only [hk, if_false, false_and]
      constructor
      · intro h; cases h
      · intro h; exact h.elim

/-- C79: `env` fails if and only if an argument is not usable as name, or the only variable is not set; without arguments it never yields
a value. -/
theorem env_fails (environ : List String) (args : List (Val E)) : funcEnv environ args = .err ↔
    args ≠ [] ∧ ((¬ ∃ ns, NamesOf args ns) ∨ ∃ n, NamesOf args [n] ∧ ¬ ∃ s, EnvValue environ n s) := by
  by_cases he : args = []
  · subst he; simp [funcEnv]
  simp only [he, ne_eq, not_false_eq_true, true_and]
  by_cases hn : ∃ ns, NamesOf args ns
  · obtain ⟨ns, hn⟩ := hn
    by_cases h1 : ns.length = 1
    · obtain ⟨n, rfl⟩ := List.length_eq_one_iff.1 h1
      rw [(env_one environ args n hn .nil).2]
      constructor
      · intro h; exact .inr ⟨n, hn, h⟩
      · rintro (h | ⟨n', hn', h⟩)
        · exact absurd ⟨_, hn⟩ h
        · have := (envArgs_iff _ _).2 hn
          rw [(envArgs_iff _ _).2 hn'] at this; cases this; exact h
    · obtain ⟨m, hm, _⟩ := env_many environ args ns he hn h1
      rw [hm]
      simp only [reduceCtorEq, false_iff]
      rintro (h | ⟨n', hn', h⟩)
      · exact h ⟨_, hn⟩
      · have := (envArgs_iff _ _).2 hn
        rw [(envArgs_iff _ _).2 hn'] at this; cases this; exact h1 rfl
  · have : envArgs args = none := by
      cases ha : envArgs args with
      | none => rfl
      | some ns => exact absurd ⟨ns, (envArgs_iff _ _).1 ha⟩ hn
    have hee : args.isEmpty = false := by cases args with | nil => exact absurd rfl he | cons => rfl
    simp only [funcEnv, hee, Bool.false_eq_true, if_false, this, true_iff]
    exact .inl hn

theorem env_undetermined (environ : List String) (args : List (Val E)) : funcEnv environ args = .undet ↔ args = [] := by
  constructor
  · intro h
    cases args with
    | nil => rfl
    | cons a r =>
      simp only [funcEnv, List.isEmpty_cons, Bool.false_eq_true, if_false] at h
      split at h
      · cases h
      · split at h <;> cases h
      · cases h
  · rintro rfl; rfl

example : NamesOf (E := Unit) [.list [Node.new (.str "A") "", Node.new (.int 1) ""], .nil, .bool true] ["A", "1", "true"] :=
  .list _ ["A", "1"] _ _ (.cons (.str _) (.cons (.int 1) .nil)) (.skip _ _ (.one _ _ _ _ .true .nil))

/-- C79: a name that contains `=` is matched against the value of a variable: with `A=B=1` the name `A=B` is taken for a variable set to
`1`, although the variable `A` has the value `B=1` -/
theorem env_equals_defect : ∃ (environ : List String), funcEnv (E := E) environ [.str "A"] = .ok (.str "B=1") ∧
    funcEnv (E := E) environ [.str "A=B"] = .ok (.str "1") :=
  ⟨["A=B=1"], rfl, rfl⟩

/-- C76: the mode of an executable file: the bit for execution by the owner (0100) is set, the other bits are those of the permissions. -/
theorem exec_bit (m : Int) : orExec m / 64 % 2 = 1 ∧ orExec m % 64 = m % 64 ∧ orExec m / 128 = m / 128 := by
  unfold orExec
  split <;> omega

end Spiff
