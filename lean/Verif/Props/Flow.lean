import Verif.Props.Unresolved
import Verif.Lemmas.NodeSimp
/-
C03–C07: stub lookup, fields of processed maps, default fields, merged/injected values,
fixpoints.
-/
namespace Spiff
variable {E : Type}

/-! ### C03 -/

/-- C03: a value found in the stubs is the one of the first stub that defines the path
with a non-implied value. -/
theorem stub_lookup_some (ctl : Bool) (stubs : List (Node E)) (p : List String) (n : Node E) :
    findInStubs ctl stubs p = some n ↔
      ∃ pre s post, stubs = pre ++ s :: post ∧ find ctl s p = some n ∧ n.flags.isImplied = false ∧
        ∀ t ∈ pre, ∀ n', find ctl t p = some n' → n'.flags.isImplied = true := by
  induction stubs with
  | nil => simp [findInStubs]
  | cons t r ih =>
    unfold findInStubs
    have next : (∀ n', find ctl t p = some n' → n'.flags.isImplied = true) →
        (findInStubs ctl r p = some n ↔ ∃ pre s post, t :: r = pre ++ s :: post ∧ find ctl s p = some n ∧
          n.flags.isImplied = false ∧ ∀ t ∈ pre, ∀ n', find ctl t p = some n' → n'.flags.isImplied = true) := by
      intro ht
      rw [ih]
      constructor
      · rintro ⟨pre, s, post, rfl, h2, h3, h4⟩
        refine ⟨t :: pre, s, post, rfl, h2, h3, ?_⟩
        intro t' ht'
        rcases List.mem_cons.1 ht' with rfl | ht'
        · exact ht
        · exact h4 t' ht'
      · rintro ⟨pre, s, post, h1, h2, h3, h4⟩
        cases pre with
        | nil =>
          simp only [List.nil_append, List.cons.injEq] at h1
          obtain ⟨rfl, rfl⟩ := h1
          rw [ht n h2] at h3; simp at h3
        | cons x pre =>
          simp only [List.cons_append, List.cons.injEq] at h1
          obtain ⟨rfl, rfl⟩ := h1
          exact ⟨pre, s, post, rfl, h2, h3, fun t' ht' => h4 t' (by simp [ht'])⟩
    cases hf : find ctl t p with
    | none => exact next (by simp [hf])
    | some n' =>
      cases hi : n'.flags.isImplied with
      | true =>
        simp only [hi, Bool.not_true, Bool.false_eq_true, if_false]
        exact next (by intro n'' h; rw [hf] at h; cases h; exact hi)
      | false =>
        simp only [hi, Bool.not_false, if_true, Option.some.injEq]
        constructor
        · rintro rfl
          exact ⟨[], t, r, rfl, hf, hi, by simp⟩
        · rintro ⟨pre, s, post, h1, h2, h3, h4⟩
          cases pre with
          | nil =>
            simp only [List.nil_append, List.cons.injEq] at h1
            obtain ⟨rfl, rfl⟩ := h1
            rw [hf] at h2; cases h2; rfl
          | cons x pre =>
            simp only [List.cons_append, List.cons.injEq] at h1
            obtain ⟨rfl, rfl⟩ := h1
            have := h4 t (by simp) n' hf
            rw [hi] at this; simp at this

/-- C03: nothing is found iff no stub defines the path (with a non-implied value). -/
theorem stub_lookup_none (ctl : Bool) (stubs : List (Node E)) (p : List String) :
    findInStubs ctl stubs p = none ↔ ∀ t ∈ stubs, ∀ n, find ctl t p = some n → n.flags.isImplied = true := by
  induction stubs with
  | nil => simp [findInStubs]
  | cons t r ih =>
    unfold findInStubs
    cases hf : find ctl t p with
    | none => simp [ih, hf]
    | some n' =>
      cases hi : n'.flags.isImplied with
      | true =>
        simp only [hi, Bool.not_true, Bool.false_eq_true, if_false, ih, List.mem_cons, forall_eq_or_imp]
        simp [hf, hi]
      | false =>
        simp only [hi, Bool.not_false, if_true, List.mem_cons, forall_eq_or_imp]
        simp [hf, hi]

/-- C03: stubs behind the one that defines the path are irrelevant. -/
theorem later_stubs_irrelevant (ctl : Bool) (pre post post' : List (Node E)) (s : Node E) (p : List String) (n : Node E)
    (h : find ctl s p = some n) (hi : n.flags.isImplied = false) :
    findInStubs ctl (pre ++ s :: post) p = findInStubs ctl (pre ++ s :: post') p := by
  induction pre with
  | nil => simp [findInStubs, h, hi]
  | cons t r ih => simp only [List.cons_append, findInStubs, ih]

/-- non-trivial case: the second stub wins for `a.b`, because the first one lacks the path -/
example : (findInStubs false [exStub1, exStub2] ["a", "c", "[0]"]).map erase = some (.str "q") := by rfl

/-! ### C04, C05: the fields of a processed map -/

/-- The field a stub injects: the stub found at the path is a map whose field `k` is
marked as inject or default. -/
def injectedField (stubs : List (Node E)) (path : List String) (k : String) : Option (Node E) :=
  match findInStubs false stubs path with
  | some (.mk (.map sm) _ _) =>
    match mget sm k with
    | some f => if f.flags.inject || f.flags.default then some (f.addFlags { inject := true, injected := true }) else none
    | none => none
  | _ => none

theorem mget_injectFields {sm : List (String × Node E)} (hm : MapOK sm) (m : List (String × Node E)) (k : String) :
    mget (injectFields sm m) k = match mget m k with
      | some x => some x
      | none => match mget sm k with
        | some f => if f.flags.inject || f.flags.default then some (f.addFlags { inject := true, injected := true }) else none
        | none => none := by
  unfold injectFields
  induction sm generalizing m with
  | nil => simp only [List.foldl_nil, mget]; cases mget m k <;> rfl
  | cons e r ih =>
    obtain ⟨k', f⟩ := e
    simp only [MapOK, mkeys, List.map_cons, List.nodup_cons] at hm
    have hk' : mget r k' = none := mget_none_iff.2 hm.1
    simp only [List.foldl_cons]
    rw [ih hm.2]
    simp only [mget, Flags.isInject]
    by_cases hk : k' = k
    · subst hk
      simp only [if_true, hk']
      cases hg : mget m k' with
      | some x => simp [hg]
      | none =>
        by_cases hb : (f.flags.inject || f.flags.default) = true
        · simp only [hb, Option.isNone_none, Bool.and_self, if_true, mget_mset_self]
        · simp only [hb, Bool.false_and, Bool.false_eq_true, if_false, hg]
    · simp only [hk, if_false]
      by_cases hb : ((f.flags.inject || f.flags.default) && (mget m k').isNone) = true
      · simp only [hb, if_true, mget_mset_ne _ _ (Ne.symm hk)]
      · simp only [hb, Bool.false_eq_true, if_false]

theorem injectStub_get {stubs : List (Node E)} {path : List String} (hm : ∀ o m, findInStubs false stubs path = some o →
    o.val = .map m → MapOK m) {fl : Flags} (hf : fl.injected = false) (m : List (String × Node E)) (k : String) :
    mget (injectStub (findInStubs false stubs path) fl m) k = match mget m k with
      | some x => some x
      | none => injectedField stubs path k := by
  unfold injectStub injectedField
  cases h : findInStubs false stubs path with
  | none => cases mget m k <;> rfl
  | some o =>
    obtain ⟨v, s, a⟩ := o
    simp only [hf, Bool.not_false, if_true, Node.val]
    cases v with
    | map sm => exact mget_injectFields (hm _ sm h rfl) m k
    | _ => cases mget m k <;> rfl

theorem mapEntries_get (L : Lang E) (rec : FlowFn E) (v : MapVars E) (mk : String) (so : Bool)
    (hv : v.processed = true) (hf : v.flags.propagateImplied = false)
    (m acc res : List (String × Node E)) (hm : MapOK m) (hk : mget m mk = none)
    (h : mapEntries L rec v mk so m acc = .ok res) (k : String) :
    (mget m k = none → mget res k = mget acc k) ∧
    (∀ n, mget m k = some n → ∃ n', rec (v.env.withPath k) n so (L.requireTemplate k) = .ok n' ∧
      mget res k = if n'.ann.undefined then mget acc k else some n') := by
  induction m generalizing acc with
  | nil => simp only [mapEntries, Except.ok.injEq] at h; subst h; simp [mget]
  | cons e r ih =>
    obtain ⟨k', n⟩ := e
    simp only [MapOK, mkeys, List.map_cons, List.nodup_cons] at hm
    simp only [mget] at hk
    split at hk
    · simp at hk
    · next hne =>
      unfold mapEntries at h
      simp only [mapEntry, hne, if_false, hv, if_true] at h
      cases hr : rec (v.env.withPath k') n so (L.requireTemplate k') with
      | error x => rw [hr] at h; simp [Except.map, Except.bind] at h
      | ok n' =>
        rw [hr] at h
        simp only [Except.map, Except.bind, storeEntry, hf, Bool.false_eq_true, if_false] at h
        simp only [mget]
        have hrk : mget r k' = none := mget_none_iff.2 hm.1
        cases hu : n'.ann.undefined with
        | true =>
          simp only [hu, if_true] at h
          obtain ⟨i1, i2⟩ := ih acc hm.2 hk h
          by_cases hkk : k' = k
          · subst hkk
            simp only [if_true, reduceCtorEq, false_implies, true_and, Option.some.injEq]
            rintro _ rfl
            exact ⟨n', hr, by simp [hu, i1 hrk]⟩
          · simp only [hkk, if_false]; exact ⟨i1, i2⟩
        | false =>
          simp only [hu, Bool.false_eq_true, if_false] at h
          obtain ⟨i1, i2⟩ := ih _ hm.2 hk h
          by_cases hkk : k' = k
          · subst hkk
            simp only [if_true, reduceCtorEq, false_implies, true_and, Option.some.injEq]
            rintro _ rfl
            exact ⟨n', hr, by simp [hu, i1 hrk, mget_mset_self]⟩
          · simp only [hkk, if_false]
            rw [mget_mset_ne _ _ (Ne.symm hkk)] at i1 i2
            exact ⟨i1, i2⟩

theorem inherited_not_implied (env : Env E) : (inheritedFlags env).1.propagateImplied = false ∧
    (inheritedFlags env).1.injected = false ∧ (inheritedFlags env).2 = findInStubs false env.stubs env.stubPath := by
  unfold inheritedFlags
  cases h : findInStubs false env.stubs env.stubPath <;> exact ⟨rfl, rfl, rfl⟩

/-- C04, C05: processing a map without merge key yields exactly the (defined) processed
template fields plus the inject/default fields of the stub map the template lacks. Holds
for every parser and evaluator. -/
theorem map_fields (L : Lang E) (fuel : Nat) (env : Env E) (m : List (String × Node E)) (s : String) (a : Ann)
    (so : Bool) (r : Node E) (h : flow L (fuel + 1) env (.mk (.map m) s a) so false = .ok r)
    (hm : MapOK m) (h1 : mget m "<<" = none) (h2 : mget m MERGEKEY = none)
    (ha : a.merged = false) (hrp : a.replace = false) (hrd : a.redirectPath = none)
    (hst : ∀ o sm, findInStubs false env.stubs env.stubPath = some o → o.val = .map sm → MapOK sm) :
    ∃ nm, r.val = .map nm ∧ ∀ k,
      (mget m k = none → mget nm k = injectedField env.stubs env.stubPath k) ∧
      (∀ n, mget m k = some n → ∃ n',
        flow L fuel ((env.withScope m).withPath k) n true (L.requireTemplate k) = .ok n' ∧
        mget nm k = if n'.ann.undefined then injectedField env.stubs env.stubPath k else some n') := by
  simp only [flow, flowStep, Node.ann, hrd, hrp, ha, Bool.not_false, if_true, Bool.and_false, Bool.false_eq_true,
    if_false, Node.val] at h
  unfold flowMap at h
  obtain ⟨i1, i2, i3⟩ := inherited_not_implied env
  generalize hifl : inheritedFlags env = ifl at h i1 i2 i3
  obtain ⟨iflags, stub⟩ := ifl
  simp only at i1 i2 i3
  subst i3
  have hmk : mergeKey m = some (MERGEKEY, none) := by simp [mergeKey, h1, h2]
  simp only [hmk, mapVars, Except.bind, mapNew, mapVars0, Bool.not_false, if_true] at h
  simp only [Node.ann, hrd, hrp] at h
  generalize hv0 : (MapVars.mk _ _ _ _ _ _ _ _ _ _ _ _ : MapVars E) = v0 at h
  cases he : mapEntries L (flow L fuel) v0 MERGEKEY true m [] with
  | error x => simp [Except.map, he] at h
  | ok nm =>
    subst hv0
    simp only [Except.map, he, Except.ok.injEq] at h
    refine ⟨injectStub (findInStubs false env.stubs env.stubPath) iflags nm, ?_, ?_⟩
    · rw [← h]
      simp [mapNode]
    · intro k
      have hg := mapEntries_get L (flow L fuel) _ MERGEKEY true rfl i1 m [] nm hm h2 he k
      rw [injectStub_get hst i2]
      refine ⟨fun hk => ?_, fun n hn => ?_⟩
      · rw [hg.1 hk]; rfl
      · obtain ⟨n', e1, e2⟩ := hg.2 n hn
        refine ⟨n', e1, ?_⟩
        rw [e2]
        cases n'.ann.undefined <;> rfl

/-- C04: no other keys appear. -/
theorem map_keys (L : Lang E) (fuel : Nat) (env : Env E) (m : List (String × Node E)) (s : String) (a : Ann)
    (so : Bool) (r : Node E) (h : flow L (fuel + 1) env (.mk (.map m) s a) so false = .ok r)
    (hm : MapOK m) (h1 : mget m "<<" = none) (h2 : mget m MERGEKEY = none)
    (ha : a.merged = false) (hrp : a.replace = false) (hrd : a.redirectPath = none)
    (hst : ∀ o sm, findInStubs false env.stubs env.stubPath = some o → o.val = .map sm → MapOK sm)
    (nm : List (String × Node E)) (hr : r.val = .map nm) (k : String) (hk : k ∈ mkeys nm) :
    k ∈ mkeys m ∨ ∃ o sm f, findInStubs false env.stubs env.stubPath = some o ∧ o.val = .map sm ∧
      (k, f) ∈ sm ∧ (f.flags.inject = true ∨ f.flags.default = true) := by
  obtain ⟨nm', e1, e2⟩ := map_fields L fuel env m s a so r h hm h1 h2 ha hrp hrd hst
  rw [e1] at hr
  cases hr
  by_cases hkm : k ∈ mkeys m
  · exact Or.inl hkm
  · right
    have := (e2 k).1 (mget_none_iff.2 hkm)
    have hs : mget nm k ≠ none := fun hc => (mget_none_iff.1 hc) hk
    rw [this] at hs
    unfold injectedField at hs
    split at hs
    · next sm ss sa hf =>
      split at hs
      · next f hg =>
        split at hs
        · next hb =>
          rw [Bool.or_eq_true] at hb
          exact ⟨_, sm, f, hf, rfl, mget_some_mem hg, hb⟩
        · simp at hs
      · simp at hs
    · simp at hs

/-- C05 (second half): a default (or inject) field of the stub the template lacks is added with
the stub's value. -/
theorem default_fills_gap (L : Lang E) (fuel : Nat) (env : Env E) (m : List (String × Node E)) (s : String) (a : Ann)
    (so : Bool) (r : Node E) (h : flow L (fuel + 1) env (.mk (.map m) s a) so false = .ok r)
    (hm : MapOK m) (h1 : mget m "<<" = none) (h2 : mget m MERGEKEY = none)
    (ha : a.merged = false) (hrp : a.replace = false) (hrd : a.redirectPath = none)
    (hst : ∀ o sm, findInStubs false env.stubs env.stubPath = some o → o.val = .map sm → MapOK sm)
    (o : Node E) (sm : List (String × Node E)) (ho : findInStubs false env.stubs env.stubPath = some o)
    (hos : o.val = .map sm) (k : String) (f : Node E) (hf : (k, f) ∈ sm)
    (hfl : f.flags.inject = true ∨ f.flags.default = true) (hk : mget m k = none) :
    ∃ nm f', r.val = .map nm ∧ mget nm k = some f' ∧ f'.val = f.val := by
  obtain ⟨nm, e1, e2⟩ := map_fields L fuel env m s a so r h hm h1 h2 ha hrp hrd hst
  refine ⟨nm, f.addFlags { inject := true, injected := true }, e1, ?_, rfl⟩
  rw [(e2 k).1 hk]
  obtain ⟨ov, os, oa⟩ := o
  simp only [Node.val] at hos
  subst hos
  unfold injectedField
  rw [ho]
  simp only
  rw [mget_of_mem (hst _ sm ho rfl) hf]
  have : (f.flags.inject || f.flags.default) = true := by simpa using hfl
  simp [this]

/-! ### C05, C06: when the stubs have no effect on a value -/

/-- not a map or list -/
def Val.isScalar : Val E → Bool
  | .map _ => false
  | .list _ => false
  | _ => true

theorem override_false (env : Env E) (root : Node E) (mg rep : Bool) (red : Option (List String)) (kn : String) (fl : Flags) :
    override env root false mg rep red kn fl = root := by
  simp [override]

theorem override_noop {env : Env E} {root : Node E} {so mg rep : Bool} {red : Option (List String)} {kn : String} {fl : Flags}
    (h : root.flags.injected = true ∨ mg = true ∨ env.nomerge = true ∨
      ∀ o, findInStubs false env.stubs env.stubPath = some o → o.flags.isDefault = true) :
    override env root so mg rep red kn fl = root := by
  unfold override
  rcases h with h | h | h | h
  · simp only [h]
    split
    · split
      · simp
      · rfl
    · rfl
  · simp [h]
  · simp [h]
  · split
    · split
      · next o ho => simp [h o ho]
      · rfl
    · rfl

/-- The result of evaluating an expression, without stub override. -/
theorem flowExpr_split (L : Lang E) (root : Node E) (e : E) (env : Env E) (et : Bool) (red : Option (List String)) :
    ∃ r, flowExpr L root e env false et red = .inl r ∧
      (flowExpr L root e env true et red = .inl r ∨
       ∃ rep fl rd k, flowExpr L root e env true et red = .inr (r, rep, fl, rd, k)) := by
  unfold flowExpr
  simp only [Bool.not_false, Bool.not_true, Bool.or_true, Bool.true_or, if_true, Bool.or_false]
  generalize (if root.src ≠ env.sourceName then env.withSource root.src else env) = env'
  generalize exprEval L e (asTemplate L e et) (exprRoot (asTemplate L e et) root) env' = x
  obtain ⟨ev, info, ok, mf⟩ := x
  cases ok
  · exact ⟨_, rfl, Or.inr ⟨_, _, _, _, rfl⟩⟩
  · refine ⟨_, rfl, ?_⟩
    simp only [Bool.not_true, Bool.false_eq_true, if_false]
    generalize exprAnn _ info _ _ _ = result
    generalize (exprValue L ev info _ env') = result0
    cases hc : (result0.val.isExpr || result.ann.merged || result.ann.preferred)
    · exact Or.inr ⟨_, _, _, _, rfl⟩
    · exact Or.inl rfl

theorem injected_updateNode (n : Node E) {f : Flags} (hf : f.injected = true) (t : String) :
    (updateNode n f t).flags.injected = true := by
  have : (n.addFlags f).flags.injected = true := by
    simp [Node.addFlags, Node.flags, Flags.add, hf]
  unfold updateNode
  simp only
  split <;> exact this

theorem flowExpr_injected (L : Lang E) (root : Node E) (e : E) (env : Env E) (et : Bool) (red : Option (List String))
    (hi : root.flags.injected = true) (r : Node E) (h : flowExpr L root e env false et red = .inl r) :
    r.flags.injected = true := by
  have hroot : (exprRoot (asTemplate L e et) root).flags.injected = true := by
    unfold exprRoot
    split
    · split <;> exact hi
    · exact hi
  unfold flowExpr at h
  simp only [Bool.not_false, Bool.or_true, Bool.true_or, if_true] at h
  generalize (if root.src ≠ env.sourceName then env.withSource root.src else env) = env' at h
  generalize exprEval L e (asTemplate L e et) (exprRoot (asTemplate L e et) root) env' = x at h
  obtain ⟨ev, info, ok, mf⟩ := x
  cases ok
  · simp only [Bool.not_false, if_true] at h
    simp only [Sum.inl.injEq] at h
    rw [← h]
    exact hroot
  · simp only [Bool.not_true, Bool.false_eq_true, if_false] at h
    simp only [Sum.inl.injEq] at h
    rw [← h]
    unfold exprAnn
    simp only
    exact injected_updateNode _ (by simp [Flags.add, hroot]) _

/-- C05 (first half), C06: a scalar or an expression is not affected by the stubs, if
it was injected from a stub, or what the stubs define at its path is a default value (or
nothing). "Not affected" means: the result is the one without stub override. -/
theorem stub_no_effect (L : Lang E) (fuel : Nat) (env : Env E) (root : Node E) (et : Bool)
    (hsc : root.val.isScalar = true) (hrd : root.ann.redirectPath = none)
    (h : root.flags.injected = true ∨ env.nomerge = true ∨
      ∀ o, findInStubs false env.stubs env.stubPath = some o → o.flags.isDefault = true) :
    flow L (fuel + 1) env root true et = flow L (fuel + 1) env root false et := by
  have h' : ∀ r : Node E, (root.flags.injected = true → r.flags.injected = true) →
      r.flags.injected = true ∨ root.ann.merged = true ∨ env.nomerge = true ∨
      ∀ o, findInStubs false env.stubs env.stubPath = some o → o.flags.isDefault = true := by
    intro r hr
    rcases h with h | h | h
    · exact Or.inl (hr h)
    · exact Or.inr (Or.inr (Or.inl h))
    · exact Or.inr (Or.inr (Or.inr h))
  simp only [flow, flowStep, hrd]
  split
  · split
    · rfl
    · cases hv : root.val with
      | map m => simp [hv, Val.isScalar] at hsc
      | list m => simp [hv, Val.isScalar] at hsc
      | expr e =>
        simp only
        obtain ⟨r, e1, e2⟩ := flowExpr_split L root e env et none
        rw [e1]
        rcases e2 with e2 | ⟨rep, fl, rd, k, e2⟩
        · rw [e2]
        · rw [e2]
          simp only
          rw [override_noop (h' r (fun hi => flowExpr_injected L root e env et none hi r e1))]
      | str x =>
        simp only
        split
        · rfl
        · rw [override_noop (h' root id), override_false]
      | _ => simp only; rw [override_noop (h' root id), override_false]
  · rw [override_noop (h' root id), override_false]

/-- Without override a scalar without dynaml keeps its node. -/
theorem scalar_kept (L : Lang E) (fuel : Nat) (env : Env E) (root : Node E) (et : Bool)
    (hrd : root.ann.redirectPath = none)
    (hsc : match root.val with
      | .map _ => False | .list _ => False | .expr _ => False
      | .str s => embeddedDynaml L.quote L.interpol s.toList = none
      | _ => True) : flow L (fuel + 1) env root false et = .ok root := by
  simp only [flow, flowStep, hrd]
  split
  · split
    · rfl
    · cases hv : root.val with
      | map m => rw [hv] at hsc; exact hsc.elim
      | list m => rw [hv] at hsc; exact hsc.elim
      | expr e => rw [hv] at hsc; exact hsc.elim
      | str x =>
        rw [hv] at hsc
        have : flowString L root env = root := by simp [flowString, embedded, hv, hsc]
        simp only [this, hv, Val.isExpr, Bool.false_eq_true, if_false, override_false]
      | _ => simp only; rw [override_false]
  · rw [override_false]

/-- C06: the result of an explicit merge is returned as it is, at any depth. -/
theorem merged_kept (L : Lang E) (fuel : Nat) (env : Env E) (root : Node E) (so et : Bool)
    (hm : root.ann.merged = true) (he : root.val.isExpr = false) : flow L (fuel + 1) env root so et = .ok root := by
  simp only [flow, flowStep, hm, he, Bool.not_false, Bool.and_true]
  split
  · rfl
  · rw [override_noop (Or.inr (Or.inl rfl))]

theorem preferred_exprAnn (result : Node E) (info : Info) (root : Node E) (fl : Flags) (red : Option (List String))
    (h : (root.ann.preferred || info.preferred) = true) : (exprAnn result info root fl red).ann.preferred = true := by
  unfold exprAnn
  simp only [h, if_true, preferred_updateNode]
  repeat' split
  all_goals simp [Node.replaceNode, Node.redirectNode, Node.preferredNode, Node.keyNameNode, Node.mergedNode]

theorem merged_exprAnn (result : Node E) (info : Info) (root : Node E) (fl : Flags) (red : Option (List String))
    (h : info.merged = true) (hr : info.replace = false) : (exprAnn result info root fl red).ann.merged = true := by
  unfold exprAnn
  simp only [h, hr, Bool.or_true, Bool.false_eq_true, if_false, if_true, merged_updateNode]
  rfl

/-- C06: an expression marked as preferred (or evaluating to a merge result) is evaluated without
considering the stub value at its path. -/
theorem preferred_value (L : Lang E) (fuel : Nat) (env : Env E) (e : E) (s : String) (a : Ann) (et : Bool)
    (v : Val E) (info : Info) (hrp : a.replace = false) (hrd : a.redirectPath = none)
    (hmk : asTemplate L e et = none)
    (hev : L.eval e (if s ≠ env.sourceName then env.withSource s else env) = (v, info, true))
    (hv : v.isStr = false) (hp : a.preferred = true ∨ info.preferred = true ∨ (info.merged = true ∧ info.replace = false)) :
    ∃ r, flow L (fuel + 1) env (.mk (.expr e) s a) true et = .ok r ∧ r.val = v := by
  simp only [flow, flowStep, Node.ann, hrd, hrp, Bool.not_false, if_true, Node.val, Val.isExpr, Bool.not_true,
    Bool.false_and, Bool.false_eq_true, if_false]
  have key : ∃ r, flowExpr L (.mk (.expr e) s a) e env true et none = .inl r ∧ r.val = v := by
    have hev' : L.eval e (if (Node.mk (.expr e) s a).src ≠ env.sourceName then
        env.withSource (Node.mk (.expr e) s a).src else env) = (v, info, true) := hev
    unfold flowExpr
    generalize (if (Node.mk (.expr e) s a).src ≠ env.sourceName then
        env.withSource (Node.mk (.expr e) s a).src else env) = env' at hev'
    simp only [hmk, exprEval, exprRoot, hev', Bool.not_true, Bool.false_eq_true, if_false]
    rw [if_pos]
    · exact ⟨_, rfl, by simp [exprAnn, exprValue, hv]⟩
    · rw [Bool.or_eq_true, Bool.or_eq_true, Bool.or_eq_true]
      rcases hp with hp | hp | hp
      · right; exact preferred_exprAnn _ _ _ _ _ (by simp [hp])
      · right; exact preferred_exprAnn _ _ _ _ _ (by simp [hp])
      · left; left; right; exact merged_exprAnn _ _ _ _ _ hp.1 hp.2
  obtain ⟨r, hr, hrv⟩ := key
  rw [hr]
  exact ⟨r, rfl, hrv⟩

end Spiff
