import Verif.Lemmas.Reorder8
import Verif.Spec.ReorderEval
/-
The results of expressions do not depend on the order of fields.
-/
namespace Spiff
open Spec

/-- the meaning of an expression respects the order of fields -/
def DenSame (d : Den) : Prop := ∀ b b' loc, BindSame b b' → EvSame (d b loc) (d b' loc)

theorem args_same {args : List Ex} {ds : List Den} (h : ∀ d ∈ ds, DenSame d) {b b' : Bind} (hb : BindSame b b') (loc : Bool) : ArgsSame (argEv b loc args ds) (argEv b' loc args ds) := by
  unfold argEv
  induction ds generalizing args with
  | nil => cases args <;> exact .nil
  | cons d r ih =>
    cases args with
    | nil => exact .nil
    | cons a as => exact .cons ⟨rfl, h d List.mem_cons_self b b' loc hb⟩ (ih (fun d hd => h d (List.mem_cons_of_mem _ hd)))

theorem sem_same (X : EvLib) (hX : ∀ name f, X.fn name = some f → FnSame f) (op : Op) (args : List Ex) (ds : List Den) (h : ∀ d ∈ ds, DenSame d) : DenSame (sem X op args ds) := by
  intro b b' loc hb
  unfold sem
  simp only
  split
  · exact evs_leaf (by rename_i l; cases l <;> rfl)
  · exact evs_leaf rfl
  · exact refFind_same _ _ _ (refLook_same hb _) _
  · exact h _ (by simp) _ _ _ hb
  · exact h _ (by simp) _ _ _ hb
  · rename_i d
    rcases evSame_cases (h d (by simp) b b' loc hb) with ⟨w, w', j, e, e', hw⟩ | ⟨j, e, e'⟩ | ⟨e, e'⟩
    · rw [e, e']; exact evs_val hw
    · rw [e, e']; exact evs_fail
    · rw [e, e']; exact evs_crash
  · exact notEv_same _ (h _ (by simp) _ _ _ hb)
  · exact binEv_same X _ _ _ (h _ (by simp) _ _ _ hb) (h _ (by simp) _ _ _ hb)
  · exact logEv_same _ logAnd_same (h _ (by simp) _ _ _ hb) (h _ (by simp) _ _ _ hb)
  · exact logEv_same _ logOr_same (h _ (by simp) _ _ _ hb) (h _ (by simp) _ _ _ hb)
  · exact orEv_same _ (h _ (by simp) _ _ _ hb) (h _ (by simp) _ _ _ hb)
  · exact validOrEv_same _ _ (h _ (by simp) _ _ _ hb) (h _ (by simp) _ _ _ hb)
  · exact condEv_same _ _ _ (h _ (by simp) _ _ _ hb) (h _ (by simp) _ _ _ hb) (h _ (by simp) _ _ _ hb)
  · exact listEv_same hb (args_same h hb _)
  · exact mapEv_same _ hb (args_same h hb _)
  · exact scopeEv_same X _ hb (args_same (fun d hd => h d (List.mem_cons_of_mem _ hd)) hb _) (fun hc => h _ (by simp) _ _ _ hc)
  · exact mergeEv_same hb _
  · exact rangeEv_same _ _ _ hb (h _ (by simp) _ _ _ hb) (h _ (by simp) _ _ _ hb)
  · exact sliceEv_same X _ _ _ (h _ (by simp) _ _ _ hb) (show Both EvSame (some _) (some _) from h _ (by simp) _ _ _ hb) (show Both EvSame (some _) (some _) from h _ (by simp) _ _ _ hb) _
  · exact sliceEv_same X _ _ _ (h _ (by simp) _ _ _ hb) (show Both EvSame (some _) (some _) from h _ (by simp) _ _ _ hb) (show Both EvSame none none from trivial) _
  · exact sliceEv_same X _ _ _ (h _ (by simp) _ _ _ hb) (show Both EvSame none none from trivial) (show Both EvSame (some _) (some _) from h _ (by simp) _ _ _ hb) _
  · exact qualEv_same X _ _ (h _ (by simp) _ _ _ hb) _
  · exact dynEv_same X _ (h _ (by simp) _ _ _ hb) (fun l => h _ (by simp) _ _ _ hb) _
  · exact callEv_same X _ (hX _) hb (args_same h hb _)
  · exact definedEv_same _ (args_same h hb _) _
  · exact validEv_same _ (args_same h hb _) _ _
  · exact requireEv_same _ _ (h _ (by simp) _ _ _ hb)
  · exact optionalEv_same _ _ (h _ (by simp) _ _ _ hb) (h _ (by simp) _ _ _ hb)
  · exact stubEv_same X _ hb (args_same h hb _)
  · exact evs_expr
  · exact catchEv_same _ _ hb (h _ (by simp) _ _ _ hb)
  · obtain ⟨h1, h2, h3, h4, h5, h6⟩ := hb
    have hb : BindSame b b' := ⟨h1, h2, h3, h4, h5, h6⟩
    have := fun (src : String) (p : Bool) ea (d dq : Den) (hd : DenSame d) (hq : DenSame dq) => projEv_same ea p src (hd b b' false hb)
      (f := fun v => dq { b with proj := v } loc) (f' := fun v => dq { b' with proj := v } loc) (fun hv => hq _ _ _ ⟨h1, h2, h3, h4, h5, hv⟩)
    refine (congrArg (fun s => EvSame _ (projEv _ _ s _ _)) h5).mp ?_
    exact this _ _ _ _ _ (h _ (by simp)) (h _ (by simp))
  · exact evs_val hb.proj
  · exact evs_error

theorem eval_same (X : EvLib) (hX : ∀ name f, X.fn name = some f → FnSame f) (e : Ex) : DenSame (eval X e) := by
  refine Ex.rec (motive_1 := fun e => DenSame (eval X e)) (motive_2 := fun l => ∀ d ∈ evalL X l, DenSame d) ?_ ?_ ?_ e
  · intro op args ih
    rw [eval]
    exact sem_same X hX op args _ ih
  · intro d hd
    simp [evalL] at hd
  · intro a r ha hr d hd
    simp only [evalL, List.mem_cons] at hd
    rcases hd with rfl | hd
    · exact ha
    · exact hr d hd

/-! ### the lookup functions of an environment -/

variable {E : Type}

theorem scope_get_same {s s' : Scope E} (h : SameScope s s') (name : String) : Both Same (s.get name) (s'.get name) := by
  unfold Scope.get
  rcases both_some h.locals with ⟨e, e'⟩ | ⟨x, y, e, e', hxy⟩
  · rw [e, e']; trivial
  · rw [e, e']; exact (sameFields_iff.1 hxy).2.2 name

theorem lookupScopes_same (name : String) {l l' : List (Scope E)} (h : List.Forall₂ SameScope l l') : Both Same (lookupScopes name l) (lookupScopes name l') := by
  induction h with
  | nil => trivial
  | cons hs _ ih =>
    simp only [lookupScopes]
    rcases both_some (scope_get_same hs name) with ⟨e, e'⟩ | ⟨x, y, e, e', hxy⟩
    · rw [e, e']; exact ih
    · rw [e, e']; exact hxy

theorem locals_isSome {s s' : Scope E} (h : SameScope s s') : s.locals.isSome = s'.locals.isSome := by
  rcases both_some h.locals with ⟨e, e'⟩ | ⟨x, y, e, e', hxy⟩ <;> (rw [e, e']) <;> rfl

theorem locals_getD {s s' : Scope E} (h : SameScope s s') : MSame (s.locals.getD []) (s'.locals.getD []) := by
  rcases both_some h.locals with ⟨e, e'⟩ | ⟨x, y, e, e', hxy⟩
  · rw [e, e']; exact msame_nil
  · rw [e, e']; exact sameFields_iff.1 hxy

theorem nodeScope_same {l l' : List (Scope E)} (h : List.Forall₂ SameScope l l') : Both (List.Forall₂ SameScope) (nodeScope l) (nodeScope l') := by
  induction h with
  | nil => trivial
  | cons hs hr ih =>
    simp only [nodeScope, ← locals_isSome hs, ← hs.path]
    split
    · exact List.Forall₂.cons hs hr
    · exact ih

theorem findInScopes_same (ctl : Bool) (first : String) (rest : List String) {l l' : List (Scope E)} (h : List.Forall₂ SameScope l l') :
    LookSame (findInScopes ctl first rest l) (findInScopes ctl first rest l') := by
  induction h with
  | nil => trivial
  | cons hs _ ih =>
    simp only [findInScopes]
    rcases both_some hs.locals with ⟨e, e'⟩ | ⟨x, y, e, e', hxy⟩
    · rw [e, e']; trivial
    · rw [e, e']
      simp only
      rcases both_some ((sameFields_iff.1 hxy).2.2 first) with ⟨e, e'⟩ | ⟨x, y, e, e', hxy⟩
      · rw [e, e']; exact ih
      · rw [e, e']; exact findR_same ctl true rest hxy

theorem forall2_getLast {α : Type} {H : α → α → Prop} {l l' : List α} (h : List.Forall₂ H l l') : Both H l.getLast? l'.getLast? := by
  induction h with
  | nil => trivial
  | @cons a b l l' hab hr ih =>
    cases hr with
    | nil => exact hab
    | cons hcd hr => simpa [List.getLast?_cons_cons] using ih

theorem rootMap_same {l l' : List (Scope E)} (h : List.Forall₂ SameScope l l') : MSame (rootMap l) (rootMap l') := by
  unfold rootMap
  rcases both_some (forall2_getLast h) with ⟨e, e'⟩ | ⟨x, y, e, e', hxy⟩
  · rw [e, e']; exact msame_nil
  · rw [e, e']; exact locals_getD hxy

theorem outermost_same {o o' : List (List (Scope E))} (ho : List.Forall₂ (List.Forall₂ SameScope) o o') : ∀ {l l' : List (Scope E)}, List.Forall₂ SameScope l l' →
    List.Forall₂ SameScope (outermost l o) (outermost l' o') := by
  induction ho with
  | nil => exact fun h => h
  | cons h _ ih => exact fun _ => ih h

theorem sameLook_iff {x y : Look (Node E)} : SameLook x y ↔ LookSame x y := by
  cases x <;> cases y <;> rfl

/-- one level of `findRefIn`; `next` is the result for the outer environment -/
def refBody (R : RefLib E) (ctx : Node E) (scopes : List (Scope E)) (outer : List (List (Scope E))) (name : String) (rest : List String) (next : Look (Node E)) : Look (Node E) :=
  match (if name = "__ctx" then some ctx else lookupScopes name scopes) with
  | some n => if rest ≠ [] ∧ name = SELF then R.resolver n rest else findR R.ctl true n rest
  | none => if name = ROOT then findR R.ctl true (Node.new (.map (rootMap (outermost scopes outer))) "") rest
    else match (if name = DOCNODE then nodeScope scopes else none) with
      | some ns => match rest with
        | [] => findR R.ctl true (Node.new (.map ((ns.head?.bind (·.locals)).getD [])) "") []
        | f :: rest => findInScopes R.ctl f rest ns
      | none => next

theorem findRefIn_nil (R : RefLib E) (ctx : Node E) (scopes : List (Scope E)) (name : String) (rest : List String) :
    findRefIn R ctx scopes [] (name :: rest) = refBody R ctx scopes [] name rest .missing := by
  simp only [findRefIn, refBody]
  generalize (if name = "__ctx" then some ctx else lookupScopes name scopes) = a
  generalize (if name = DOCNODE then nodeScope scopes else none) = c
  cases a <;> cases c <;> cases rest <;> rfl
theorem findRefIn_cons (R : RefLib E) (ctx : Node E) (scopes o : List (Scope E)) (os : List (List (Scope E))) (name : String) (rest : List String) :
    findRefIn R ctx scopes (o :: os) (name :: rest) = refBody R ctx scopes (o :: os) name rest (findRefIn R ctx o os (name :: rest)) := by
  rw [findRefIn, refBody]
  generalize (if name = "__ctx" then some ctx else lookupScopes name scopes) = a
  generalize (if name = DOCNODE then nodeScope scopes else none) = c
  cases a <;> cases c <;> cases rest <;> rfl

theorem findRefIn_same (R : RefLib E) (hR : ∀ n n' p, Same n n' → SameLook (R.resolver n p) (R.resolver n' p)) {ctx ctx' : Node E} (hc : Same ctx ctx')
    {o o' : List (List (Scope E))} (ho : List.Forall₂ (List.Forall₂ SameScope) o o') (p : List String) : ∀ {l l' : List (Scope E)}, List.Forall₂ SameScope l l' →
    LookSame (findRefIn R ctx l o p) (findRefIn R ctx' l' o' p) := by
  cases p with
  | nil => intro l l' _; cases ho <;> trivial
  | cons name rest =>
    have one : ∀ {o o' : List (List (Scope E))} (_ : List.Forall₂ (List.Forall₂ SameScope) o o') {l l' : List (Scope E)} (_ : List.Forall₂ SameScope l l') {f f' : Look (Node E)} (_ : LookSame f f'),
        LookSame (refBody R ctx l o name rest f) (refBody R ctx' l' o' name rest f') := by
      intro o o' ho l l' hl f f' hf
      unfold refBody
      have h1 : Both Same (if name = "__ctx" then some ctx else lookupScopes name l) (if name = "__ctx" then some ctx' else lookupScopes name l') := by
        split
        · exact hc
        · exact lookupScopes_same name hl
      rcases both_some h1 with ⟨e, e'⟩ | ⟨x, y, e, e', hxy⟩
      · rw [e, e']
        simp only
        split
        · exact findR_same _ _ _ (same_new (show VSame (.map _) (.map _) from rootMap_same (outermost_same ho hl)) _)
        · have h2 : Both (List.Forall₂ SameScope) (if name = DOCNODE then nodeScope l else none) (if name = DOCNODE then nodeScope l' else none) := by
            split
            · exact nodeScope_same hl
            · trivial
          rcases both_some h2 with ⟨e, e'⟩ | ⟨x, y, e, e', hxy⟩
          · rw [e, e']; exact hf
          · rw [e, e']
            cases rest with
            | nil =>
              refine findR_same _ _ _ (same_new (show VSame (.map _) (.map _) from ?_) _)
              cases hxy with
              | nil => exact msame_nil
              | cons hs _ => exact locals_getD hs
            | cons a rest => exact findInScopes_same _ _ _ hxy
      · rw [e, e']
        simp only
        split
        · exact sameLook_iff.1 (hR _ _ _ hxy)
        · exact findR_same _ _ _ hxy
    induction ho with
    | nil =>
      intro l l' hl
      rw [findRefIn_nil, findRefIn_nil]
      exact one .nil hl (f := .missing) (f' := .missing) trivial
    | cons h hr ih =>
      intro l l' hl
      rw [findRefIn_cons, findRefIn_cons]
      exact one (.cons h hr) hl (ih h)

theorem topMap_same {l l' : List (Scope E)} (h : List.Forall₂ SameScope l l') : MSame (topMap l) (topMap l') := by
  induction h with
  | nil => exact msame_nil
  | @cons a b r r' hs hr ih =>
    have : r.any (·.locals.isSome) = r'.any (·.locals.isSome) := by
      clear ih
      induction hr with
      | nil => rfl
      | cons h _ ih => simp only [List.any_cons, locals_isSome h, ih]
    simp only [topMap, ← this]
    split
    · exact ih
    · exact locals_getD hs

theorem findFromRoot_same (R : RefLib E) {env env' : Env E} (h : SameEnv env env') (p : List String) : LookSame (findFromRoot R env p) (findFromRoot R env' p) := by
  unfold findFromRoot
  rcases both_some (forall2_getLast h.scopes) with ⟨e, e'⟩ | ⟨x, y, e, e', hxy⟩
  · rw [e, e']; trivial
  · rw [e, e']
    simp only
    rcases both_some hxy.list with ⟨e, e'⟩ | ⟨l, l', e, e', hl⟩
    · rw [e, e']; exact findR_same _ _ _ (same_new (show VSame (.map _) (.map _) from locals_getD hxy) _)
    · rw [e, e']
      cases p with
      | nil => exact same_new (show VSame (.list _) (.list _) from hl) _
      | cons a rest =>
        simp only
        split
        · exact findR_same _ _ _ (same_new (show VSame (.map _) (.map _) from topMap_same h.scopes) _)
        · exact findR_same _ _ _ (same_new (show VSame (.list _) (.list _) from hl) _)

theorem bindOf_same {X : EvLib} {R : RefLib Ex} (hP : OrderFreeParams X R) {env env' : Env Ex} (h : SameEnv env env') : BindSame (bindOf R env) (bindOf R env') where
  ref := fun p => findRefIn_same R hP.resolver (hP.ctx _ _ h) h.outer p h.scopes
  root := findFromRoot_same R h
  stub := findInStubs_same R.ctl h.stubs
  path := h.path
  source := h.sourceName
  proj := vsame_leaf rfl

theorem fnSame_of {X : EvLib} {R : RefLib Ex} (hP : OrderFreeParams X R) (name : String) (f) (hf : X.fn name = some f) : FnSame f := by
  intro vs vs' src h
  have h0 : List.Forall₂ SameValue vs vs' := h.imp (fun _ _ => sameValue_iff.2)
  have := hP.fn name f hf vs vs' src h0
  cases h1 : f vs src <;> cases h2 : f vs' src <;> rw [h1, h2] at this <;> simp only [SameOut] at this
  · obtain ⟨q1, q2⟩ := this
    refine .inl ⟨_, _, _, rfl, ?_, sameValue_iff.1 q1⟩
    rw [q2]
  all_goals exact .inr ⟨rfl, fun r hr => by cases hr⟩

/-- The dynaml expressions do not depend on the order of fields. -/
theorem eval_order_free {X : EvLib} {R : RefLib Ex} (hP : OrderFreeParams X R) (base : Lang Ex) : OrderFree (exLang X R base) := by
  intro e env env' h
  show SameValue ((eval X e (bindOf R env) false).triple).1 ((eval X e (bindOf R env') false).triple).1 ∧
    ((eval X e (bindOf R env) false).triple).2 = ((eval X e (bindOf R env') false).triple).2
  rcases evSame_cases (eval_same X (fnSame_of hP) e _ _ false (bindOf_same hP h)) with ⟨w, w', j, e, e', hw⟩ | ⟨j, e, e'⟩ | ⟨e, e'⟩
  · rw [e, e']; exact ⟨sameValue_iff.2 hw, rfl⟩
  · rw [e, e']; exact ⟨sameValue_iff.2 (vsame_leaf rfl), rfl⟩
  · rw [e, e']; exact ⟨sameValue_iff.2 (vsame_leaf rfl), rfl⟩

end Spiff
