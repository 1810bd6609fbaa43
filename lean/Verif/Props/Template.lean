import Verif.Spec.Template
import Verif.Props.MergeText
import Verif.Props.MergeExpr
/-
C92: templates.
-/
namespace Spiff
open Spec
variable {E : Type}

/-! ### plain bodies -/

/-- merging of plain documents anywhere in a document -/
theorem merge_uniform_at [DecidableEq E] (L : Lang E) (stubs : List (Node E)) (so : Bool) (p : List Sel) (hk : ∀ s ∈ p, SelOK s) (doc : Node E)
    (hp : Plain L doc) (hsi : Simple (erase doc)) (hno : NamesOK (erase doc))
    (hs : ∀ s ∈ stubs, Plain L s) (hss : ∀ s ∈ stubs, Simple (erase s)) :
    ∃ r N, Plain L r ∧ erase r = Spec.overlay (stubs.map erase) so p (erase doc) ∧
      ∀ env : Env E, env.stubs = stubs → env.stubPath = p.map render → env.nomerge = false →
      ∀ fuel ≥ N, ∀ passes, flowDoc L fuel (passes + 3) env doc so = .ok (r, []) := by
  let x1 := ovN stubs so (p.map render) doc
  let x2 := markN stubs (p.map render) x1
  have hx1 : Plain L x1 := ovN_plain hs doc so _ hp
  have hst : Stab stubs so (p.map render) x1 := stab_ov hs hss doc so p hk hp hsi hno
  obtain ⟨m1, m2, m3⟩ := stab_mark stubs x1 so (p.map render) hst
  have e2 : ovN stubs so (p.map render) x1 = x2 := m1
  have hx2 : Plain L x2 := by rw [← e2]; exact ovN_plain hs x1 so _ hx1
  have e3 : ovN stubs so (p.map render) x2 = x2 := by
    rw [(stab_mark stubs x2 so (p.map render) m2).1]; exact m3
  have er1 : erase x1 = Spec.overlay (stubs.map erase) so p (erase doc) := erase_ovN hs hss doc so p hp hsi hk
  have er2 : erase x2 = erase x1 := erase_mark stubs x1 _
  have main : ∃ r, Plain L r ∧ erase r = Spec.overlay (stubs.map erase) so p (erase doc) ∧
      ∀ env : Env E, env.stubs = stubs → env.stubPath = p.map render → env.nomerge = false →
      ∀ fuel ≥ max (depth doc) (max (depth x1) (depth x2)) + 1, ∀ passes, flowLoop L fuel env doc so (passes + 3) doc = .ok r := by
    have p1 : ∀ env : Env E, env.stubs = stubs → env.stubPath = p.map render → env.nomerge = false → ∀ fuel ≥ max (depth doc) (max (depth x1) (depth x2)) + 1,
        pass L fuel env doc doc so = .ok x1 ∧ pass L fuel env doc x1 so = .ok x2 ∧ pass L fuel env doc x2 so = .ok x2 := by
      intro env h1 h2 h3 fuel hf
      have hpass : ∀ n, Plain L n → depth n < fuel → pass L fuel env doc n so = .ok (ovN stubs so (p.map render) n) := by
        intro n hn hd
        obtain ⟨g1, g2, g3⟩ := passEnv_stubs env doc
        unfold pass
        rw [flow_plain L hs fuel n (passEnv env doc) so (g1.trans h1) (g3.trans h3) hn hd, g2, h2]
      refine ⟨hpass _ hp (by omega), ?_, ?_⟩
      · rw [hpass _ hx1 (by omega), e2]
      · rw [hpass _ hx2 (by omega), e3]
    have u1 := (plain_flags hx1).2.2.2.2.2
    have u2 := (plain_flags hx2).2.2.2.2.2
    cases c1 : deepEq doc x1 with
    | true =>
      have : x1 = doc := deepEq_ov (stubs := stubs) hs doc so _ hp c1
      refine ⟨doc, hp, by rw [← er1, this], fun env h1 h2 h3 fuel hf passes => ?_⟩
      obtain ⟨q1, -, -⟩ := p1 env h1 h2 h3 fuel hf
      rw [show passes + 3 = passes + 1 + 1 + 1 from rfl, flowLoop, q1]
      simp only [bind, Except.bind, pure, Except.pure, u1, Bool.false_eq_true, if_false, c1, if_true]
    | false =>
      cases c2 : deepEq x1 x2 with
      | true =>
        refine ⟨x1, hx1, er1, fun env h1 h2 h3 fuel hf passes => ?_⟩
        obtain ⟨q1, q2, -⟩ := p1 env h1 h2 h3 fuel hf
        rw [show passes + 3 = passes + 1 + 1 + 1 from rfl, flowLoop, q1]
        simp only [bind, Except.bind, pure, Except.pure, u1, Bool.false_eq_true, if_false, c1]
        rw [flowLoop, q2]
        simp only [bind, Except.bind, pure, Except.pure, u2, Bool.false_eq_true, if_false, c2, if_true]
      | false =>
        refine ⟨x2, hx2, by rw [er2, er1], fun env h1 h2 h3 fuel hf passes => ?_⟩
        obtain ⟨q1, q2, q3⟩ := p1 env h1 h2 h3 fuel hf
        rw [show passes + 3 = passes + 1 + 1 + 1 from rfl, flowLoop, q1]
        simp only [bind, Except.bind, pure, Except.pure, u1, Bool.false_eq_true, if_false, c1]
        rw [flowLoop, q2]
        simp only [bind, Except.bind, pure, Except.pure, u2, Bool.false_eq_true, if_false, c2]
        rw [flowLoop, q3]
        simp only [bind, Except.bind, pure, Except.pure, u2, Bool.false_eq_true, if_false, deepEq_refl_plain x2 hx2, if_true]
  obtain ⟨r, h1, h2, h3⟩ := main
  refine ⟨r, max (depth doc) (max (depth x1) (depth x2)) + 1, h1, h2, fun env e1 e2 e3 fuel hf passes => ?_⟩
  unfold flowDoc
  rw [h3 env e1 e2 e3 fuel hf passes]
  simp [bind, Except.bind, pure, Except.pure, plain_resolved r h1]

theorem erase_copy (n : Node E) : erase (instanceCopy n) = erase n := by
  refine Node.rec (motive_1 := fun v => eraseV (copyVal v) = eraseV v) (motive_2 := fun n => erase (instanceCopy n) = erase n)
    (motive_3 := fun l => eraseL (copyList l) = eraseL l) (motive_4 := fun m => eraseM (copyMap m) = eraseM m)
    (motive_5 := fun e => erase (instanceCopy e.2) = erase e.2) ?_ ?_ ?_ ?_ ?_ ?_ ?_ ?_ ?_ ?_ ?_ ?_ ?_ ?_ ?_ ?_ n
  · rfl
  · intro _; rfl
  · intro _; rfl
  · intro _; rfl
  · intro _; rfl
  · intro l ih; simp only [copyVal, eraseV, ih]
  · intro m ih; simp only [copyVal, eraseV, ih]
  · intro _; rfl
  · intro _ _; rfl
  · intro _; rfl
  · intro v s a ih; simp only [instanceCopy, Node.new, erase, ih]
  · rfl
  · intro n r h1 h2; simp only [copyList, eraseL, h1, h2]
  · rfl
  · intro e r h1 h2; obtain ⟨k, n⟩ := e; simp only [copyMap, eraseM, h2]; rw [show erase (instanceCopy n) = erase n from h1]
  · intro k n h; exact h

/-- **C92**: the use of a template without expressions gives, in every environment, the data of the body, with the fields of its maps overridden by the stubs
at the place of use. -/
theorem template_instance [DecidableEq E] (L : Lang E) (stubs : List (Node E)) (p : List Sel) (hk : ∀ s ∈ p, SelOK s) (body : Node E)
    (hp : Plain L (instanceCopy body)) (hsi : Simple (erase body)) (hno : NamesOK (erase body))
    (hs : ∀ s ∈ stubs, Plain L s) (hss : ∀ s ∈ stubs, Simple (erase s)) :
    ∃ r N, Plain L r ∧ erase r = Spec.overlay (stubs.map erase) false p (erase body) ∧
      ∀ env : Env E, env.stubs = stubs → env.stubPath = p.map render → env.nomerge = false →
      ∀ fuel ≥ N, ∀ passes ≥ 3, ∀ self info, substitute L fuel passes env self (.templ body, info, true) = .ok (r.val, { source := r.src }, true) := by
  obtain ⟨r, N, h1, h2, h3⟩ := merge_uniform_at L stubs false p hk (instanceCopy body) hp (by rw [erase_copy]; exact hsi) (by rw [erase_copy]; exact hno) hs hss
  refine ⟨r, N, h1, by rw [h2, erase_copy], fun env e1 e2 e3 fuel hf passes hps self info => ?_⟩
  obtain ⟨q, rfl⟩ : ∃ q, passes = q + 3 := ⟨passes - 3, by omega⟩
  have := h3 (templateEnv env (.templ body)) e1 e2 e3 fuel hf q
  simp only [substitute, Val.isExpr, Bool.not_true, Bool.or_false, Bool.false_eq_true, if_false]
  rw [this]
  simp only [Except.map, templateResult, ne_eq, not_true_eq_false, if_false, (plain_flags h1).2.2.2.2.2]

/-! ### definitions -/

theorem addFlags_undefined (n : Node E) (f : Flags) : (n.addFlags f).ann.undefined = n.ann.undefined := rfl

theorem mapEntries_keep (L : Lang E) (rec : FlowFn E) (v : MapVars E) (so : Bool) (hv : v.processed = false)
    (hu : ∀ n, v.mergeval = some n → n.ann.undefined = false) (m : List (String × Node E)) :
    ∀ acc : List (String × Node E), (∀ e ∈ m, e.2.ann.undefined = false) → MapOK m → (∀ e ∈ m, mget acc e.1 = none) →
      mapEntries L rec v "<<" so m acc = .ok (acc ++ templateBody v.mergeval v.flags.propagateImplied m) := by
  induction m with
  | nil => intro acc _ _ _; simp [mapEntries, templateBody]
  | cons e r ih =>
    intro acc hd hm hacc
    obtain ⟨k, n⟩ := e
    simp only [MapOK, mkeys, List.map_cons, List.nodup_cons] at hm
    have hn : n.ann.undefined = false := hd (k, n) (by simp)
    have hacck : mget acc k = none := hacc (k, n) (by simp)
    have hrec : ∀ (x : Option (Node E)), (∀ y, x = some y → y.ann.undefined = false) →
        mapEntries L rec v "<<" so r (storeEntry v k x acc) =
        .ok (acc ++ (x.map (fun n => (k, if v.flags.propagateImplied then n.addFlags { implied := true } else n))).toList
          ++ templateBody v.mergeval v.flags.propagateImplied r) := by
      intro x hx
      cases x with
      | none =>
        simp only [storeEntry, Option.map_none, Option.toList_none, List.append_nil]
        exact ih acc (fun e he => hd e (by simp [he])) hm.2 (fun e he => hacc e (by simp [he]))
      | some y =>
        have hy := hx y rfl
        simp only [storeEntry, hy, Bool.false_eq_true, if_false, Option.map_some, Option.toList_some]
        rw [mset_of_none hacck]
        rw [ih _ (fun e he => hd e (by simp [he])) hm.2 ?_]
        intro e he
        rw [mget_append_of_none (hacc e (by simp [he]))]
        have : k ≠ e.1 := by
          rintro rfl
          exact hm.1 (List.mem_map.2 ⟨e, he, rfl⟩)
        simp [mget, this]
    rw [mapEntries, mapEntry]
    by_cases hk : k = "<<"
    · rw [if_pos hk]
      show mapEntries L rec v "<<" so r (storeEntry v k v.mergeval acc) = _
      rw [hrec v.mergeval hu]
      simp only [templateBody, List.filterMap_cons, hk, if_true]
      cases v.mergeval <;> simp
    · rw [if_neg hk, hv, if_neg (by simp)]
      show mapEntries L rec v "<<" so r (storeEntry v k (some n) acc) = _
      rw [hrec (some n) (by rintro y ⟨⟩; exact hn)]
      simp only [templateBody, List.filterMap_cons, hk, if_false]
      simp

/-- the first step: the text of the marker becomes an expression -/
theorem flow_marker_text (L : Lang E) (fuel : Nat) (env : Env E) (x s : String) (a : Ann) (e : E) (sub : List Char)
    (ha : a.redirectPath = none ∧ a.replace = false ∧ a.merged = false)
    (hx : embeddedDynaml L.quote L.interpol x.toList = some sub) (he : L.parse (String.ofList sub) env.path env.stubPath = some e) (so en : Bool) :
    flow L (fuel + 1) env (.mk (.str x) s a) so en = .ok (.mk (.expr e) s a) := by
  have hf : flowString L (.mk (.str x) s a) env = .mk (.expr e) s a := by
    simp only [flowString, embedded, Node.val, hx, Option.map_some, he]
    rfl
  simp only [flow, flowStep, Node.ann, ha.1, ha.2.1, ha.2.2, Node.val, Bool.not_false, Bool.and_false, Bool.false_eq_true, if_false, if_true, hf, Val.isExpr]

/-- **C92**, definition by a map: no field is evaluated; the value is a template with exactly the given fields. -/
theorem template_defined (L : Lang E) (fuel : Nat) (env : Env E) (m : List (String × Node E)) (s : String) (a : Ann) (so : Bool)
    (hstub : findInStubs false env.stubs env.stubPath = none) (hm : MapOK m) (hund : ∀ e ∈ m, e.2.ann.undefined = false)
    (ha : a.redirectPath = none ∧ a.replace = false ∧ a.merged = false ∧ a.failed = false ∧ a.undefined = false)
    {x sx : String} {ax : Ann} (hx : mget m "<<" = some (.mk (.str x) sx ax)) (hx' : mget m MERGEKEY = none)
    (hax : ax.redirectPath = none ∧ ax.replace = false ∧ ax.merged = false)
    {sub : List Char} {e : E} {mk : Marker E} (hsub : embeddedDynaml L.quote L.interpol x.toList = some sub)
    (he : L.parse (String.ofList sub) env.path env.stubPath = some e) (hmk : L.marker e = some mk) (ht : mk.template = true) :
    flow L (fuel + 2) env (.mk (.map m) s a) so false =
      .ok (updateNode (.mk (.templ (Node.new (.map (templateBody (templateExpression L mk (.mk (.map m) s a)) mk.flags.propagateImplied m)) s)) s a)
        mk.flags (if mk.tag ≠ "" then mk.tag else a.tag)) := by
  obtain ⟨a1, a2, a3, a4, a5⟩ := ha
  have hux : ax.undefined = false := by
    have := hund _ (mget_some_mem hx)
    exact this
  have hbase := flow_marker_text L fuel (env.withScope m) x sx ax e sub hax hsub he false false
  have hinh : inheritedFlags env = ({}, none) := by unfold inheritedFlags; rw [hstub]
  rw [flow, flowStep]
  simp only [Node.ann, Node.val, a1, a2, a3, Bool.not_false, if_true, Bool.and_false, Bool.false_eq_true, if_false, Val.isExpr]
  unfold flowMap
  simp only [mergeKey, hx, hx', Option.isSome_none, Bool.false_eq_true, if_false]
  have hvars : mapVars L (flow L (fuel + 1)) (.mk (.map m) s a) (some (.mk (.str x) sx ax)) (mapVars0 (.mk (.map m) s a) (env.withScope m) (inheritedFlags env).1 false) =
      .ok (some { env := env.withScope m, flags := mk.flags, tag := if mk.tag ≠ "" then mk.tag else a.tag, processed := false, template := true,
                  redirect := none, replace := false, mergeval := templateExpression L mk (.mk (.map m) s a) }) := by
    have hb2 : flow L (fuel + 1) (mapVars0 (.mk (.map m) s a) (env.withScope m) (inheritedFlags env).1 false).env (.mk (.str x) sx ax) false false = .ok (.mk (.expr e) sx ax) := hbase
    simp only [mapVars]
    rw [hb2]
    simp only [Except.map, Node.ann, hux, Bool.false_eq_true, if_false]
    simp only [mergeVars, Node.val, asTemplate, hmk, ht, if_true, mapVars0, hinh, Node.ann, a1, a2]
    rw [show ({} : Flags).add mk.flags = mk.flags from by cases mk.flags; simp [Flags.add]]
  rw [hvars]
  simp only [Except.bind, mapNew, if_true]
  rw [mapEntries_keep L _ _ true rfl ?_ m [] hund hm (fun _ _ => rfl)]
  · simp only [Except.map, List.nil_append, mapNode, hinh, injectStub, Node.src, Node.ann, a4, Bool.false_eq_true, if_false, if_true]
    rw [show ∀ v : Val E, Node.redirectNode v (.mk (.map m) s a) none = .mk v s a from fun v => by cases a; cases a1; rfl]
  · intro n hn
    simp only [templateExpression] at hn
    cases hme : mk.expr with
    | none => rw [hme] at hn; cases hn
    | some y => rw [hme] at hn; cases hn; exact a5

/-- **C92**, definition by an expression: `(( &template expr ))` is a template whose body is the text `(( expr ))`, not evaluated. -/
theorem template_expression_defined (L : Lang E) (fuel : Nat) (env : Env E) (e : E) (s : String) (a : Ann)
    (ha : a.redirectPath = none ∧ a.replace = false ∧ a.merged = false) {mk : Marker E} (hmk : L.marker e = some mk) (ht : mk.template = true) {y : E} (hy : mk.expr = some y) :
    ∃ r orig, flow L (fuel + 1) env (.mk (.expr e) s a) false false = .ok r ∧ r.val = .templ orig ∧ orig.val = .str (L.print y) := by
  have hroot : ∃ a', exprRoot (some mk) (.mk (.expr e) s a) = .mk (.expr e) s a' := by
    unfold exprRoot
    simp only
    split
    · exact ⟨_, rfl⟩
    · exact ⟨a, rfl⟩
  obtain ⟨a', hroot⟩ := hroot
  simp only [flow, flowStep, Node.ann, ha.1, ha.2.1, ha.2.2, Node.val, Bool.not_false, Bool.and_false, Bool.false_eq_true, if_false, if_true]
  simp only [flowExpr, asTemplate, hmk, hroot, exprEval, ht, if_true, templateExpression, hy, Option.map_some, Bool.not_true, Bool.false_eq_true, if_false, Bool.not_false,
    Bool.or_true, Bool.true_or]
  refine ⟨_, (Node.mk (.str (L.print y)) s a').addFlags mk.flags, rfl, ?_, rfl⟩
  exact (val_exprAnn _ _ _ _ _).1.trans rfl

/-- **C92**: a template stays as it is, unless a stub has a value for it. -/
theorem template_kept (L : Lang E) (fuel : Nat) (env : Env E) (b : Node E) (s : String) (a : Ann) (so en : Bool)
    (hstub : findInStubs false env.stubs (env.stubPath) = none) (hr : a.redirectPath = none) :
    flow L (fuel + 1) env (.mk (.templ b) s a) so en = .ok (.mk (.templ b) s a) := by
  have hov : ∀ rep red k fl, override env (.mk (.templ b) s a) so a.merged rep red k fl = .mk (.templ b) s a := by
    intro rep red k fl
    unfold override
    rw [hstub]
    simp
  simp only [flow, flowStep, Node.ann, hr, Node.val, Val.isExpr, Bool.not_false, Bool.true_and]
  rw [hov, ite_self, ite_self]

/-! ### scopes -/

theorem lookup_cons_none (name : String) (s : Scope E) (r : List (Scope E)) (h : s.get name = none) : lookupScopes name (s :: r) = lookupScopes name r := by
  simp only [lookupScopes, h]

/-- **C92**: names in the body of a template mean what they mean at the place of use, except for the fields of the body and the name `_`. -/
theorem template_scope (X : RefLib E) (env : Env E) (t : Val E) (fields : List (String × Node E)) (name : String) (rest : List String)
    (h1 : mget fields name = none) (h2 : name ≠ SELF) (h3 : name ≠ "__ctx") (h4 : name ≠ ROOT) (h5 : name ≠ DOCNODE) :
    findReference X ((templateEnv env t).withScope fields) (name :: rest) = findReference X env (name :: rest) := by
  have hl : lookupScopes name ((templateEnv env t).withScope fields).scopes = lookupScopes name env.scopes := by
    simp only [Env.withScope, templateEnv, Env.withLocalScope]
    rw [lookup_cons_none, lookup_cons_none]
    · simp [Scope.get, mget, Ne.symm h2]
    · simp [Scope.get, h1]
  have hstep : ∀ (ctx : Node E) (sc : List (Scope E)) (outer : List (List (Scope E))), findRefIn X ctx sc outer (name :: rest) =
      match lookupScopes name sc with
      | some n => findR X.ctl true n rest
      | none => match outer with
        | o :: os => findRefIn X ctx o os (name :: rest)
        | [] => .missing := by
    intro ctx sc outer
    have h2' : ¬ (rest ≠ [] ∧ name = SELF) := fun h => h2 h.2
    cases outer <;> simp only [findRefIn, h3, h4, h5, if_false, h2'] <;> cases lookupScopes name sc <;> rfl
  have hctx : ∀ (c1 c2 : Node E) (outer : List (List (Scope E))) (sc : List (Scope E)), findRefIn X c1 sc outer (name :: rest) = findRefIn X c2 sc outer (name :: rest) := by
    intro c1 c2 outer
    induction outer with
    | nil => intro sc; rw [hstep, hstep]
    | cons o os ih => intro sc; rw [hstep, hstep]; simp only [ih]
  unfold findReference
  rw [hctx (X.ctx ((templateEnv env t).withScope fields)) (X.ctx env), hstep, hstep, hl]
  rfl

/-- **C92**: a field of the body is found first, and `_` is the template. -/
theorem template_own (X : RefLib E) (env : Env E) (t : Val E) (fields : List (String × Node E)) (name : String) (rest : List String) (n : Node E)
    (h1 : mget fields name = some n) (h2 : name ≠ SELF) (h3 : name ≠ "__ctx") :
    findReference X ((templateEnv env t).withScope fields) (name :: rest) = findR X.ctl true n rest ∧
    (mget fields SELF = none → ∃ src, findReference X ((templateEnv env t).withScope fields) [SELF] = .found (Node.new t src)) := by
  constructor
  · have h2' : ¬ (rest ≠ [] ∧ name = SELF) := fun h => h2 h.2
    have hl : lookupScopes name ((templateEnv env t).withScope fields).scopes = some n := by
      simp only [Env.withScope, templateEnv, Env.withLocalScope, lookupScopes, Scope.get, Option.bind_some, h1]
    unfold findReference
    generalize ((templateEnv env t).withScope fields).outer = o
    cases o <;> simp only [findRefIn, h3, if_false, h2', hl]
  · intro h
    refine ⟨dynamlSource env.sourceName, ?_⟩
    have hl : lookupScopes SELF ((templateEnv env t).withScope fields).scopes = some (Node.new t (dynamlSource env.sourceName)) := by
      simp only [Env.withScope, templateEnv, Env.withLocalScope, lookupScopes, Scope.get, Option.bind_some, h, mget, if_true]
    have h6 : SELF ≠ "__ctx" := by decide
    unfold findReference
    generalize ((templateEnv env t).withScope fields).outer = o
    cases o <;> simp only [findRefIn, h6, if_false, hl, ne_eq, not_true_eq_false, false_and, findR]

/-! ### waiting and failing -/

/-- **C92**: the use of a template waits for its definition; another value is an error; a body which cannot be resolved makes the use wait, or fail if there is an issue. -/
theorem template_waits [DecidableEq E] (L : Lang E) (fuel passes : Nat) (env : Env E) (self : E) (v : Val E) (info : Info) (ok : Bool) :
    ((ok = false ∨ v.isExpr = true) → substitute L fuel passes env self (v, info, ok) = .ok (.expr self, info, ok)) ∧
    (ok = true → v.isExpr = false → (∀ b, v ≠ .templ b) →
      ∃ i, substitute L fuel passes env self (v, info, ok) = .ok (.nil, i, false) ∧ i.issue = "template value required" ∧ i.localError = true) ∧
    (∀ body r u, ok = true → v = .templ body → flowDoc L fuel passes (templateEnv env v) (instanceCopy body) false = .ok (r, u) → u ≠ [] →
      ((∀ n ∈ u, n.node.ann.issue = "") → ∃ i, substitute L fuel passes env self (v, info, ok) = .ok (.expr self, i, true)) ∧
      ((∃ n ∈ u, n.node.ann.issue ≠ "") → ∃ w i, substitute L fuel passes env self (v, info, ok) = .ok (w, i, false) ∧ i.issue ≠ "")) := by
  refine ⟨?_, ?_, ?_⟩
  · rintro (rfl | h)
    · simp [substitute]
    · simp [substitute, h]
  · rintro rfl h hb
    cases v with
    | templ b => exact absurd rfl (hb b)
    | expr e => cases h
    | _ => exact ⟨_, rfl, rfl, rfl⟩
  · rintro body r u rfl rfl hf hu
    have hs : substitute L fuel passes env self (.templ body, info, true) = .ok (templateResult self r u) := by
      simp only [substitute, Val.isExpr, Bool.not_true, Bool.or_false, Bool.false_eq_true, if_false]
      rw [hf]
      rfl
    rw [hs]
    constructor
    · intro hall
      have : hasIssue u = false := by
        unfold hasIssue
        rw [List.any_eq_false]
        intro n hn
        simp [hall n hn]
      refine ⟨{ undefined := r.ann.undefined }, ?_⟩
      simp [templateResult, hu, this]
    · rintro ⟨n, hn, hi⟩
      have : hasIssue u = true := by
        unfold hasIssue
        rw [List.any_eq_true]
        exact ⟨n, hn, by simp [hi]⟩
      refine ⟨_, _, by simp only [templateResult, hu, this, ne_eq, not_false_eq_true, if_true]; rfl, by simp⟩

/-! ### documents with templates -/

theorem mapEntries_each {α : Type} (L : Lang E) (rec : FlowFn E) (v : MapVars E) (so : Bool) (hv : v.processed = true) (hf : v.flags.propagateImplied = false) (mk : String)
    (f g : α → Node E) (items : List (String × α)) :
    ∀ acc : List (String × Node E), (∀ e ∈ items, e.1 ≠ mk ∧ rec (v.env.withPath e.1) (f e.2) so (L.requireTemplate e.1) = .ok (g e.2) ∧ (g e.2).ann.undefined = false) →
      MapOK items → (∀ e ∈ items, mget acc e.1 = none) → mapEntries L rec v mk so (items.map (fun e => (e.1, f e.2))) acc = .ok (acc ++ items.map (fun e => (e.1, g e.2))) := by
  induction items with
  | nil => intro acc _ _ _; simp [mapEntries]
  | cons e r ih =>
    intro acc hd hm hacc
    obtain ⟨k, n⟩ := e
    simp only [MapOK, mkeys, List.map_cons, List.nodup_cons] at hm
    obtain ⟨h1, h2, h3⟩ := hd (k, n) (by simp)
    have hacck : mget acc k = none := hacc (k, n) (by simp)
    simp only at h1 h2 h3
    rw [List.map_cons, mapEntries, mapEntry, if_neg h1, if_pos hv, h2]
    simp only [Except.map, Except.bind, storeEntry, h3, hf, Bool.false_eq_true, if_false]
    rw [mset_of_none hacck, ih _ (fun e he => hd e (by simp [he])) hm.2 ?_]
    · simp
    · intro e he
      rw [mget_append_of_none (hacc e (by simp [he]))]
      have : k ≠ e.1 := by
        rintro rfl
        exact hm.1 (List.mem_map.2 ⟨e, he, rfl⟩)
      simp [mget, this]

/-- one pass over a map without merge key, if the processing of its fields is known -/
theorem flow_fields {α : Type} (L : Lang E) (fuel : Nat) (env : Env E) (items : List (String × α)) (s : String) (so : Bool) (f g : α → Node E)
    (hst : env.stubs = []) (hm : MapOK items) (hk : ∀ e ∈ items, e.1 ≠ "<<" ∧ e.1 ≠ MERGEKEY)
    (hg : ∀ e ∈ items, flow L fuel ((env.withScope (items.map (fun e => (e.1, f e.2)))).withPath e.1) (f e.2) true (L.requireTemplate e.1) = .ok (g e.2) ∧
      (g e.2).ann.undefined = false) :
    flow L (fuel + 1) env (.mk (.map (items.map (fun e => (e.1, f e.2)))) s bare) so false = .ok (.mk (.map (items.map (fun e => (e.1, g e.2)))) s bare) := by
  have hinh : inheritedFlags env = ({}, none) := by unfold inheritedFlags; rw [hst]; rfl
  have hkn : ∀ k, (∀ e ∈ items, e.1 ≠ k) → mget (items.map (fun e => (e.1, f e.2))) k = none := by
    intro k h
    rw [mget_none_iff]
    intro hmem
    simp only [mkeys, List.map_map, List.mem_map] at hmem
    obtain ⟨e, he, rfl⟩ := hmem
    exact h e he rfl
  have h1 := hkn "<<" (fun e he => (hk e he).1)
  have h2 := hkn MERGEKEY (fun e he => (hk e he).2)
  rw [flow, flowStep]
  simp only [Node.ann, Node.val, bare, Bool.not_false, if_true, Bool.and_false, Bool.false_eq_true, if_false, Val.isExpr]
  unfold flowMap
  simp only [mergeKey, h1, h2, mapVars, Except.bind, hinh, mapNew, mapVars0, Bool.not_false, if_true]
  rw [mapEntries_each L _ _ true rfl rfl MERGEKEY f g items [] ?_ hm (fun _ _ => rfl)]
  · rfl
  · exact fun e he => ⟨(hk e he).2, hg e he⟩

/-- the use of a template without expressions, without stubs -/
theorem template_instance_plain [DecidableEq E] (L : Lang E) (body : Node E) (hp : Plain L (instanceCopy body)) (env : Env E) (hst : env.stubs = []) (hn : env.nomerge = false)
    (fuel : Nat) (hf : depth (instanceCopy body) < fuel) (passes : Nat) (hps : 0 < passes) (self : E) (info : Info) :
    substitute L fuel passes env self (.templ body, info, true) = .ok ((instanceCopy body).val, { source := body.src }, true) := by
  obtain ⟨q, rfl⟩ : ∃ q, passes = q + 1 := ⟨passes - 1, by omega⟩
  have hloop : flowLoop L fuel (templateEnv env (.templ body)) (instanceCopy body) false (q + 1) (instanceCopy body) = .ok (instanceCopy body) := by
    obtain ⟨g1, g2, g3⟩ := passEnv_stubs (templateEnv env (.templ body)) (instanceCopy body)
    have hpass : pass L fuel (templateEnv env (.templ body)) (instanceCopy body) (instanceCopy body) false = .ok (instanceCopy body) := by
      unfold pass
      rw [flow_plain L (stubs := []) (by simp) fuel _ (passEnv _ _) false (g1.trans hst) (g3.trans hn) hp hf, ovN_nil]
    simp only [flowLoop]
    rw [hpass]
    simp [bind, Except.bind, (plain_flags hp).2.2.2.2.2, deepEq_refl_plain _ hp, pure, Except.pure]
  have hdoc : flowDoc L fuel (q + 1) (templateEnv env (.templ body)) (instanceCopy body) false = .ok (instanceCopy body, []) := by
    unfold flowDoc
    rw [hloop]
    simp [bind, Except.bind, pure, Except.pure, plain_resolved _ hp]
  simp only [substitute, Val.isExpr, Bool.not_true, Bool.or_false, Bool.false_eq_true, if_false]
  rw [hdoc]
  simp only [Except.map, templateResult, ne_eq, not_true_eq_false, if_false, (plain_flags hp).2.2.2.2.2]
  cases body
  rfl

theorem deepEqM_false [DecidableEq E] {m m' : List (String × Node E)} {k : String} {n n' : Node E} (h : (k, n) ∈ m) (h' : mget m' k = some n') (hd : deepEq n n' = false) :
    deepEqM m m' = false := by
  induction m with
  | nil => cases h
  | cons e r ih =>
    obtain ⟨k1, n1⟩ := e
    rw [deepEqM]
    rcases List.mem_cons.1 h with h | h
    · cases h
      rw [h']
      simp [hd]
    · rw [ih h, Bool.and_false]

theorem deepEqM_refl [DecidableEq E] (m m' : List (String × Node E)) (hm : ∀ e ∈ m, mget m' e.1 = some e.2 ∧ deepEq e.2 e.2 = true) : deepEqM m m' = true := by
  induction m with
  | nil => rfl
  | cons e r ih =>
    obtain ⟨k, n⟩ := e
    rw [deepEqM, (hm (k, n) (by simp)).1, ih (fun e he => hm e (by simp [he]))]
    simp [(hm (k, n) (by simp)).2]

theorem plainM_copy {L : Lang E} (n : Node E) : Plain L n → Plain L (instanceCopy n) := by
  refine Node.rec (motive_1 := fun v => ∀ a, PlainV L a v → PlainV L {} (copyVal v)) (motive_2 := fun n => Plain L n → Plain L (instanceCopy n))
    (motive_3 := fun l => PlainL L l → PlainL L (copyList l)) (motive_4 := fun m => (PlainM L m → PlainM L (copyMap m)) ∧ mkeys (copyMap m) = mkeys m)
    (motive_5 := fun e => Plain L e.2 → Plain L (instanceCopy e.2)) ?_ ?_ ?_ ?_ ?_ ?_ ?_ ?_ ?_ ?_ ?_ ?_ ?_ ?_ ?_ ?_ n
  · intro a h; rfl
  · intro _ a h; rfl
  · intro _ a h; rfl
  · intro _ a h; exact ⟨rfl, h.2⟩
  · intro _ a h; exact ⟨rfl, h.2⟩
  · intro l ih a h; exact ⟨.inl rfl, ih h.2⟩
  · intro m ih a h
    refine ⟨rfl, ?_, ih.1 h.2.2⟩
    unfold MapOK
    rw [ih.2]
    exact h.2.1
  · intro _ a h; exact h.elim
  · intro _ _ a h; exact h.elim
  · intro _ a h; exact h.elim
  · intro v s a ih h; exact ih a h
  · intro h; trivial
  · intro n r h1 h2 h; exact ⟨h1 h.1, h2 h.2⟩
  · exact ⟨fun _ => trivial, rfl⟩
  · intro e r h1 h2
    obtain ⟨k, n⟩ := e
    refine ⟨fun h => ⟨h.1, h1 h.2.1, h2.1 h.2.2⟩, ?_⟩
    simp only [copyMap, mkeys, List.map_cons, List.cons.injEq, true_and]
    exact h2.2
  · intro k n h; exact h

theorem templateBody_data {L : Lang E} (body : List (String × Node E)) (h : PlainM L body) (x : Node E) :
    templateBody none false (("<<", x) :: body) = body := by
  have : ∀ b : List (String × Node E), (∀ e ∈ b, e.1 ≠ "<<") → templateBody none false b = b := by
    intro b
    induction b with
    | nil => intro _; rfl
    | cons e r ih =>
      intro hb
      simp only [templateBody, List.filterMap_cons, if_neg (hb e (by simp))]
      have := ih (fun e he => hb e (by simp [he]))
      simp only [templateBody] at this
      rw [this]
      rfl
  simp only [templateBody, List.filterMap_cons, if_true, Option.map_none]
  exact this body (fun e he => ((PlainM_iff.1 h) e he).1.1)

/-- the fields after one pass -/
def Spec.TField.mid (L : Lang E) : TField E → Node E
  | .data n => n
  | .template _ body src => .mk (.templ (.mk (.map body) src {})) src {}
  | .use text src _ => match (embeddedDynaml L.quote L.interpol text.toList).bind (fun sub => L.parse (String.ofList sub) [] []) with
    | some e => .mk (.expr e) src {}
    | none => .mk (.str text) src {}

theorem mget_fields {α β : Type} (f : α → β) (items : List (String × α)) (k : String) : mget (items.map (fun e => (e.1, f e.2))) k = (mget items k).map f := by
  induction items with
  | nil => rfl
  | cons e r ih =>
    simp only [List.map_cons, mget, ih]
    split <;> rfl

/-- **C92**, whole documents: without stubs, data is unchanged, templates stay templates, and every use is a copy of the body of its template. -/
theorem template_document [DecidableEq E] (L : Lang E) (X : RefLib E) (fields : List (String × TField E)) (s : String) (hm : MapOK fields)
    (hk : ∀ e ∈ fields, PlainKey L e.1) (hv : ∀ e ∈ fields, e.2.Valid L X fields) (hu : ∃ k text src name, (k, TField.use text src name) ∈ fields)
    (env : Env E) (hst : env.stubs = []) (hn : env.nomerge = false) :
    ∃ N, ∀ fuel ≥ N, ∀ passes ≥ 3, flowDoc L fuel passes env (.mk (.map (fields.map (fun e => (e.1, e.2.source)))) s {}) true =
      .ok (.mk (.map (fields.map (fun e => (e.1, e.2.result fields)))) s {}, []) := by
  let m0 := fields.map (fun e => (e.1, e.2.source))
  let m1 := fields.map (fun e => (e.1, e.2.mid L))
  let m2 := fields.map (fun e => (e.1, e.2.result fields))
  have hkeys : ∀ e ∈ fields, e.1 ≠ "<<" ∧ e.1 ≠ MERGEKEY := fun e he => ⟨(hk e he).1, (hk e he).2.1⟩
  have hreq : ∀ e ∈ fields, L.requireTemplate e.1 = false := fun e he => (hk e he).2.2.2
  have hbody : ∀ name body src, bodyOf fields name = some (body, src) → ∃ marker, mget fields name = some (.template marker body src) := by
    intro name body src h
    unfold bodyOf at h
    split at h
    · rename_i mk b sr hg; cases h; exact ⟨mk, hg⟩
    · cases h
  have hbv : ∀ name body src, bodyOf fields name = some (body, src) → MapOK body ∧ PlainM L body := by
    intro name body src h
    obtain ⟨mk, hg⟩ := hbody name body src h
    have := hv _ (mget_some_mem hg)
    exact ⟨this.1, this.2.1⟩
  -- nodes of the result
  have hres : ∀ e ∈ fields, Plain L (e.2.result fields) ∨ ∃ mk body src, e.2 = .template mk body src := by
    intro e he
    have := hv e he
    obtain ⟨k, it⟩ := e
    cases it with
    | data n => exact .inl this
    | template mk body src => exact .inr ⟨mk, body, src, rfl⟩
    | use text src name =>
      obtain ⟨h1, -, -⟩ := this
      cases hb : bodyOf fields name with
      | none => rw [hb] at h1; cases h1
      | some b =>
        obtain ⟨body, sr⟩ := b
        obtain ⟨b1, b2⟩ := hbv _ _ _ hb
        left
        simp only [TField.result, hb]
        have := plainM_copy (L := L) (.mk (.map body) "" {}) ⟨rfl, b1, b2⟩
        exact this
  refine ⟨depthM m0 + depthM m2 + 6, fun fuel hf passes hps => ?_⟩
  obtain ⟨f, rfl⟩ : ∃ f, fuel = f + 3 := ⟨fuel - 3, by omega⟩
  have hd0 : ∀ e ∈ fields, depth e.2.source < f := by
    intro e he
    have := depthM_le (m := m0) (List.mem_map.2 ⟨e, he, rfl⟩)
    have this : depth e.2.source ≤ depthM m0 := this
    omega
  have hd2 : ∀ e ∈ fields, depth (e.2.result fields) < f := by
    intro e he
    have := depthM_le (m := m2) (List.mem_map.2 ⟨e, he, rfl⟩)
    have this : depth (e.2.result fields) ≤ depthM m2 := this
    omega
  have henv : ∀ (m : List (String × Node E)) (k : String), ((env.withScope m).withPath k).stubs = [] ∧ ((env.withScope m).withPath k).nomerge = false := fun m k => ⟨hst, hn⟩
  have hplain : ∀ (n : Node E) (m : List (String × Node E)) (k : String), Plain L n → depth n < f →
      flow L (f + 2) ((env.withScope m).withPath k) n true false = .ok n := by
    intro n m k hp hd
    rw [flow_plain L (stubs := []) (by simp) (f + 2) n _ true (henv m k).1 (henv m k).2 hp (by omega), ovN_nil]
  have hkept : ∀ (b : Node E) (src : String) (m : List (String × Node E)) (k : String),
      flow L (f + 2) ((env.withScope m).withPath k) (.mk (.templ b) src {}) true false = .ok (.mk (.templ b) src {}) := by
    intro b src m k
    exact template_kept L (f + 1) _ b src {} true false (by rw [(henv m k).1]; rfl) rfl
  -- the passes
  have pass0 : flow L (f + 3) env (.mk (.map m0) s bare) true false = .ok (.mk (.map m1) s bare) := by
    refine flow_fields L (f + 2) env fields s true TField.source (TField.mid L) hst hm hkeys (fun e he => ?_)
    rw [hreq e he]
    have hval := hv e he
    obtain ⟨k, it⟩ := e
    cases it with
    | data n => exact ⟨hplain n m0 k hval (hd0 _ he), (plain_flags (L := L) hval).2.2.2.2.2⟩
    | template mk body src =>
      obtain ⟨b1, b2, sub, e, h1, h2, h3⟩ := hval
      have hkb : ∀ x ∈ body, x.1 ≠ "<<" ∧ x.1 ≠ MERGEKEY := fun x hx => ⟨((PlainM_iff.1 b2) x hx).1.1, ((PlainM_iff.1 b2) x hx).1.2.1⟩
      have hdef := template_defined L f ((env.withScope m0).withPath k) (("<<", .mk (.str mk) src {}) :: body) src {} true (by rw [(henv m0 k).1]; rfl)
        (by
          refine List.nodup_cons.2 ⟨?_, b1⟩
          intro hmem
          obtain ⟨x, hx, hxk⟩ := List.mem_map.1 hmem
          exact (hkb x hx).1 hxk)
        (by
          intro x hx
          rcases List.mem_cons.1 hx with rfl | hx
          · rfl
          · exact (plain_flags ((PlainM_iff.1 b2) x hx).2).2.2.2.2.2)
        ⟨rfl, rfl, rfl, rfl, rfl⟩ (x := mk) (sx := src) (ax := {}) (by simp [mget])
        (by
          rw [mget_none_iff]
          intro hmem
          rcases List.mem_cons.1 hmem with h | h
          · exact absurd (show MERGEKEY = "<<" from h) (by decide)
          · obtain ⟨x, hx, hxk⟩ := List.mem_map.1 h
            exact (hkb x hx).2 hxk)
        ⟨rfl, rfl, rfl⟩ h1 (h2 _ _) h3 rfl
      refine ⟨?_, rfl⟩
      have : templateExpression L ({ template := true } : Marker E) (.mk (.map (("<<", .mk (.str mk) src {}) :: body)) src {}) = none := rfl
      simp only [this] at hdef
      rw [show (({ template := true } : Marker E).flags).propagateImplied = false from rfl, templateBody_data body b2] at hdef
      exact hdef
    | use text src name =>
      obtain ⟨-, -, sub, e, h1, h2, h3, -⟩ := hval
      have hmid : TField.mid L (.use text src name) = .mk (.expr e) src {} := by
        simp only [TField.mid, h1, Option.bind_some, h2]
      refine ⟨?_, by simp only; rw [hmid]; rfl⟩
      simp only
      rw [hmid]
      exact flow_marker_text L (f + 1) _ text src {} e sub ⟨rfl, rfl, rfl⟩ h1 (h2 _ _) true false
  have pass1 : flow L (f + 3) env (.mk (.map m1) s bare) true false = .ok (.mk (.map m2) s bare) := by
    refine flow_fields L (f + 2) env fields s true (TField.mid L) (TField.result fields) hst hm hkeys (fun e he => ?_)
    rw [hreq e he]
    have hval := hv e he
    have hund : (e.2.result fields).ann.undefined = false := by
      rcases hres e he with h | ⟨mk, body, src, h⟩
      · exact (plain_flags h).2.2.2.2.2
      · rw [h]; rfl
    refine ⟨?_, hund⟩
    obtain ⟨k, it⟩ := e
    cases it with
    | data n => exact hplain n m1 k hval (hd0 _ he)
    | template mk body src => exact hkept _ src m1 k
    | use text src name =>
      obtain ⟨g1, g2, sub, e, h1, h2, h3, h4⟩ := hval
      have hmid : TField.mid L (.use text src name) = .mk (.expr e) src {} := by
        simp only [TField.mid, h1, Option.bind_some, h2]
      cases hb : bodyOf fields name with
      | none => rw [hb] at g1; cases g1
      | some b =>
        obtain ⟨body, sr⟩ := b
        obtain ⟨b1, b2⟩ := hbv _ _ _ hb
        obtain ⟨mk, hget⟩ := hbody _ _ _ hb
        have hpb : Plain L (instanceCopy (.mk (.map body) sr {})) := plainM_copy (L := L) _ ⟨rfl, b1, b2⟩
        have heval : ∀ env' : Env E, env'.stubs = [] → env'.nomerge = false → env'.scopes.head? = some { locals := some m1, path := some env.path } →
            L.eval e env' = (.map (copyMap body), { source := sr }, true) := by
          intro env' e1 e2 e3
          have hlook : lookupScopes name env'.scopes = some (.mk (.templ (.mk (.map body) sr {})) sr {}) := by
            cases hsc : env'.scopes with
            | nil => rw [hsc] at e3; cases e3
            | cons s0 r0 =>
              rw [hsc] at e3
              cases e3
              have : mget m1 name = some (.mk (.templ (.mk (.map body) sr {})) sr {}) := by
                show mget (fields.map (fun e => (e.1, e.2.mid L))) name = _
                rw [mget_fields, hget]
                rfl
              simp only [lookupScopes, Scope.get, Option.bind_some, this]
          have href : findReference X env' [name] = .found (.mk (.templ (.mk (.map body) sr {})) sr {}) := by
            unfold findReference
            generalize env'.outer = o
            cases o <;> simp only [findRefIn, g2, if_false, hlook, ne_eq, not_true_eq_false, false_and, findR]
          obtain ⟨fu, pa, q1, q2, q3⟩ := h4 env' _ (.mk (.map body) sr {}) e1 e2 href rfl hpb
          have := template_instance_plain L (.mk (.map body) sr {}) hpb env' e1 e2 fu q2 pa q1 e {}
          have q3' : substitute L fu pa env' e (.templ (.mk (.map body) sr {}), {}, true) = .ok (L.eval e env') := q3
          rw [this] at q3'
          exact (Except.ok.inj q3').symm
        have hresult : TField.result fields (.use text src name) = .mk (.map (copyMap body)) (if sr ≠ "" then sr else src) {} := by
          simp only [TField.result, hb]
        simp only [hmid, hresult]
        have hflow : ∀ env' : Env E, env'.stubs = [] → env'.nomerge = false → env'.scopes.head? = some { locals := some m1, path := some env.path } →
            flow L (f + 2) env' (.mk (.expr e) src {}) true false = .ok (.mk (.map (copyMap body)) (if sr ≠ "" then sr else src) {}) := by
          intro env' e1 e2 e3
          have hev : L.eval e (if src ≠ env'.sourceName then env'.withSource src else env') = (.map (copyMap body), { source := sr }, true) := by
            split
            · exact heval _ e1 e2 e3
            · exact heval _ e1 e2 e3
          have hfe : flowExpr L (.mk (.expr e) src {}) e env' true false none =
              .inr (.mk (.map (copyMap body)) (if sr ≠ "" then sr else src) {}, false, {}, none, "") := by
            have hx : L.eval e (if (Node.mk (Val.expr e) src {}).src ≠ env'.sourceName then env'.withSource (Node.mk (Val.expr e) src {}).src else env') =
              (.map (copyMap body), { source := sr }, true) := hev
            unfold flowExpr
            generalize (if (Node.mk (Val.expr e) src {}).src ≠ env'.sourceName then env'.withSource (Node.mk (Val.expr e) src {}).src else env') = env2 at hx ⊢
            have hmk : asTemplate L e false = none := by simp [asTemplate, h3]
            rw [hmk]
            simp only [exprRoot, exprEval, hx, Bool.not_true, Bool.false_eq_true, if_false]
            rfl
          show flowStep L (flow L (f + 1)) env' (.mk (.expr e) src {}) true false = _
          have hstep : flowStep L (flow L (f + 1)) env' (.mk (.expr e) src {}) true false =
            (match flowExpr L (.mk (.expr e) src {}) e env' true false none with
             | .inl r => .ok r
             | .inr (r, rep, fl, red, k) => .ok (override env' r true false rep red k fl)) := rfl
          rw [hstep, hfe]
          simp only
          congr 1
          unfold override
          rw [e1]
          simp [findInStubs]
        exact hflow _ (henv m1 k).1 (henv m1 k).2 rfl
  have pass2 : flow L (f + 3) env (.mk (.map m2) s bare) true false = .ok (.mk (.map m2) s bare) := by
    refine flow_fields L (f + 2) env fields s true (TField.result fields) (TField.result fields) hst hm hkeys (fun e he => ?_)
    rw [hreq e he]
    rcases hres e he with h | ⟨mk, body, src, h⟩
    · exact ⟨hplain _ m2 e.1 h (hd2 e he), (plain_flags h).2.2.2.2.2⟩
    · rw [h]; exact ⟨hkept _ src m2 e.1, rfl⟩
  -- the comparisons
  obtain ⟨ku, tu, su, nu, hmem⟩ := hu
  have hvu := hv _ hmem
  obtain ⟨g1, g2, sub, e, h1, h2, h3, -⟩ := hvu
  have hmidu : TField.mid L (.use tu su nu) = .mk (.expr e) su {} := by
    simp only [TField.mid, h1, Option.bind_some, h2]
  have hgetu : mget fields ku = some (.use tu su nu) := mget_of_mem hm hmem
  have hresu : ∃ v s', TField.result fields (.use tu su nu) = .mk (.map v) s' {} := by
    cases hb : bodyOf fields nu with
    | none => rw [hb] at g1; cases g1
    | some b => obtain ⟨body, sr⟩ := b; exact ⟨copyMap body, if sr ≠ "" then sr else su, by simp only [TField.result, hb]⟩
  obtain ⟨vu, su', hresu⟩ := hresu
  have d01 : deepEq (.mk (.map m0) s bare) (.mk (.map m1) s bare) = false := by
    have : deepEqM m0 m1 = false := deepEqM_false (k := ku) (n := .mk (.str tu) su {}) (n' := .mk (.expr e) su {})
      (List.mem_map.2 ⟨_, hmem, rfl⟩) (by show mget (fields.map (fun e => (e.1, TField.mid L e.2))) ku = _; rw [mget_fields, hgetu, Option.map_some, hmidu])
      (by simp [deepEq, deepEqV])
    simp [deepEq, deepEqV, this]
  have d12 : deepEq (.mk (.map m1) s bare) (.mk (.map m2) s bare) = false := by
    have : deepEqM m1 m2 = false := deepEqM_false (k := ku) (n := .mk (.expr e) su {}) (n' := .mk (.map vu) su' {})
      (List.mem_map.2 ⟨_, hmem, by simp only [hmidu]⟩) (by show mget (fields.map (fun e => (e.1, e.2.result fields))) ku = _; rw [mget_fields, hgetu, Option.map_some, hresu])
      (by simp [deepEq, deepEqV])
    simp [deepEq, deepEqV, this]
  have hrefl : ∀ e ∈ fields, deepEq (e.2.result fields) (e.2.result fields) = true := by
    intro e he
    rcases hres e he with h | ⟨mk, body, src, h⟩
    · exact deepEq_refl_plain _ h
    · have hve := hv e he
      rw [h] at hve ⊢
      have hpb : Plain L (.mk (.map body) src {}) := ⟨rfl, hve.1, hve.2.1⟩
      have := deepEq_refl_plain _ hpb
      simp only [TField.result]
      rw [deepEq]
      simp only [decide_true, Bool.true_and, deepEqV]
      exact this
  have d22 : deepEq (.mk (.map m2) s bare) (.mk (.map m2) s bare) = true := by
    have : deepEqM m2 m2 = true := by
      refine deepEqM_refl m2 m2 (fun x hx => ?_)
      obtain ⟨e, he, rfl⟩ := List.mem_map.1 hx
      refine ⟨?_, hrefl e he⟩
      show mget (fields.map (fun e => (e.1, e.2.result fields))) e.1 = _
      rw [mget_fields, mget_of_mem hm he]
      rfl
    simp [deepEq, deepEqV, this]
  -- the loop
  obtain ⟨q, rfl⟩ : ∃ q, passes = q + 1 + 1 + 1 := ⟨passes - 3, by omega⟩
  have hloop : flowLoop L (f + 3) env (.mk (.map m0) s bare) true (q + 1 + 1 + 1) (.mk (.map m0) s bare) = .ok (.mk (.map m2) s bare) := by
    have hpe : ∀ x, pass L (f + 3) env (.mk (.map m0) s bare) x true = flow L (f + 3) env x true false := fun x => rfl
    rw [flowLoop, hpe, pass0]
    simp only [bind, Except.bind, pure, Except.pure, Node.ann, show bare.undefined = false from rfl, Bool.false_eq_true, if_false, d01]
    rw [flowLoop, hpe, pass1]
    simp only [bind, Except.bind, pure, Except.pure, Node.ann, show bare.undefined = false from rfl, Bool.false_eq_true, if_false, d12]
    rw [flowLoop, hpe, pass2]
    simp only [bind, Except.bind, pure, Except.pure, Node.ann, show bare.undefined = false from rfl, Bool.false_eq_true, if_false, d22, if_true]
  have hunres : findUnresolved L [] (.mk (.map m2) s bare) = [] := by
    have : ∀ (items : List (String × TField E)), (∀ e ∈ items, e ∈ fields) → findUnresolvedM L [] (items.map (fun e => (e.1, e.2.result fields))) = [] := by
      intro items
      induction items with
      | nil => intro _; rfl
      | cons e r ih =>
        intro h
        simp only [List.map_cons, findUnresolvedM]
        rw [ih (fun e he => h e (by simp [he])), List.append_nil]
        rcases hres e (h e (by simp)) with hp | ⟨mk, body, src, hp⟩
        · exact plain_resolved _ hp _
        · rw [hp]; rfl
    have h0 : findUnresolvedM L [] m2 = [] := this fields (fun e he => he)
    simp only [findUnresolved, findUnresolvedV, h0, bare]
    rfl
  unfold flowDoc
  show (do let r ← flowLoop L (f + 3) env (.mk (.map m0) s bare) true (q + 1 + 1 + 1) (.mk (.map m0) s bare); pure (r, findUnresolved L [] r)) = _
  rw [hloop]
  simp only [bind, Except.bind, pure, Except.pure, hunres]
  rfl

/-! ### an example -/

/-- whether a document is plain does not depend on the meaning of expressions -/
theorem plain_lang {L L' : Lang E} (h1 : L.quote = L'.quote) (h2 : L.interpol = L'.interpol) (h3 : L.requireTemplate = L'.requireTemplate) (n : Node E) :
    Plain L n → Plain L' n := by
  refine Node.rec (motive_1 := fun v => ∀ a, PlainV L a v → PlainV L' a v) (motive_2 := fun n => Plain L n → Plain L' n)
    (motive_3 := fun l => PlainL L l → PlainL L' l) (motive_4 := fun m => PlainM L m → PlainM L' m)
    (motive_5 := fun e => Plain L e.2 → Plain L' e.2) ?_ ?_ ?_ ?_ ?_ ?_ ?_ ?_ ?_ ?_ ?_ ?_ ?_ ?_ ?_ ?_ n
  · exact fun a h => h
  · exact fun _ a h => h
  · exact fun _ a h => h
  · exact fun _ a h => h
  · intro s a h; simp only [PlainV, h1, h2] at h ⊢; exact h
  · exact fun l ih a h => ⟨h.1, ih h.2⟩
  · exact fun m ih a h => ⟨h.1, h.2.1, ih h.2.2⟩
  · exact fun _ a h => h
  · exact fun _ _ a h => h
  · exact fun _ a h => h
  · exact fun v s a ih h => ih a h
  · exact fun h => h
  · exact fun n r i1 i2 h => ⟨i1 h.1, i2 h.2⟩
  · exact fun h => h
  · rintro ⟨k, n⟩ r i1 i2 h
    refine ⟨?_, i1 h.2.1, i2 h.2.2⟩
    have := h.1
    simp only [PlainKey, h1, h2, h3] at this ⊢
    exact this
  · exact fun k n h => h

/-- the expressions `&template`, `name` and `*name` -/
inductive TExpr where
  | marker
  | ref (name : String)
  | use (name : String)
deriving DecidableEq

/-- the language for a given meaning of `*name` -/
def templBase (X : RefLib TExpr) (use : TExpr → Node TExpr → Env TExpr → Val TExpr × Info × Bool) : Lang TExpr where
  parse s _ _ := match s.toList.filter (· ≠ ' ') with
    | '&' :: _ => some .marker
    | '*' :: r => some (.use (String.ofList r))
    | r => some (.ref (String.ofList r))
  eval e env := match e with
    | .marker => (.nil, {}, false)
    | .ref name => match findReference X env [name] with
      | .found n => (n.val, { source := n.src }, true)
      | _ => (.expr e, {}, true)
    | .use name => match findReference X env [name] with
      | .found n => use e n env
      | _ => (.expr e, {}, true)
  marker e := if e = .marker then some { template := true } else none
  simpleMerge _ := false
  directMerge _ := false
  print _ := ""
  requireTemplate _ := false
  quote l := l
  interpol := false

/-- enough fuel for the body of a template -/
def bodyFuel (n : Node E) : Nat := match n.val with
  | .templ b => 20 + depth (instanceCopy b)
  | _ => 0

/-- the language with templates nested up to a depth -/
def templLang (X : RefLib TExpr) : Nat → Lang TExpr
  | 0 => templBase X (fun e _ _ => (.expr e, {}, true))
  | d + 1 => templBase X (fun e n env => match substitute (templLang X d) (bodyFuel n) 20 env e (n.val, {}, true) with
    | .ok r => r
    | .error _ => (.expr e, {}, true))

def templRefs : RefLib TExpr where
  ctl := false
  ctx _ := Node.new .nil ""
  resolver _ _ := .missing

/-- {a: 1, t: {<<: (( &template )), v: (( a )), w: 7}, u: (( *t )), in: {a: 2, u: (( *t ))}} -/
def templDoc : Node TExpr :=
  let str := fun s => Node.mk (.str s) "f" {}
  let int := fun i => Node.mk (.int i) "f" {}
  .mk (.map [("a", int 1), ("t", .mk (.map [("<<", str "(( &template ))"), ("v", str "(( a ))"), ("w", int 7)]) "f" {}), ("u", str "(( *t ))"),
    ("in", .mk (.map [("a", int 2), ("u", str "(( *t ))")]) "f" {})]) "f" {}

/-- number at a path -/
def numberAt : List String → Node E → Option Int
  | [], n => match n.val with | .int i => some i | _ => none
  | k :: r, n => match n.val with
    | .map m => (mget m k).bind (numberAt r)
    | _ => none

/-- The same template with an expression, used at two places: names in its body are resolved at the place of use. The template itself remains and is not resolved. -/
theorem template_example : (match flowDoc (templLang templRefs 2) 20 20 { path := [], stubPath := [], stubs := [], sourceName := "f", scopes := [], outer := [] } templDoc true with
    | .ok (r, u) => some (numberAt ["u", "v"] r, numberAt ["u", "w"] r, numberAt ["in", "u", "v"] r, numberAt ["t", "w"] r, u.length)
    | .error _ => none) = some (some 1, some 7, some 2, none, 0) := by
  decide +kernel

/-- {t: {<<: (( &template )), x: 7, y: [a, b]}, u: (( *t )), d: data} -/
def templFields : List (String × TField TExpr) :=
  [("t", .template "(( &template ))" [("x", .mk (.int 7) "f" {}), ("z", .mk (.list [.mk (.str "p") "f" {}, .mk (.str "q") "f" {}]) "f" {})] "f"),
   ("u", .use "(( *t ))" "f" "t"), ("d", .data (.mk (.str "data") "f" {}))]

theorem template_document_ok : MapOK templFields ∧ (∀ e ∈ templFields, PlainKey (templLang templRefs 1) e.1) ∧
    (∀ e ∈ templFields, e.2.Valid (templLang templRefs 1) templRefs templFields) ∧ ∃ k text src name, (k, TField.use text src name) ∈ templFields := by
  refine ⟨by simp [MapOK, mkeys, templFields], ?_, ?_, ⟨"u", _, _, _, by simp [templFields]; exact ⟨rfl, rfl, rfl⟩⟩⟩
  · intro e he
    simp only [templFields, List.mem_cons, List.not_mem_nil, or_false] at he
    rcases he with rfl | rfl | rfl <;> refine ⟨by decide, by decide, by decide +kernel, rfl⟩
  · intro e he
    simp only [templFields, List.mem_cons, List.not_mem_nil, or_false] at he
    rcases he with rfl | rfl | rfl
    · refine ⟨by simp [MapOK, mkeys], ?_, ?_⟩
      · rw [PlainM_iff]
        intro e he
        simp only [List.mem_cons, List.not_mem_nil, or_false] at he
        rcases he with rfl | rfl
        · exact ⟨⟨by decide, by decide, by decide +kernel, rfl⟩, rfl⟩
        · refine ⟨⟨by decide, by decide, by decide +kernel, rfl⟩, .inl rfl, ⟨rfl, by decide +kernel⟩, ⟨rfl, by decide +kernel⟩, trivial⟩
      · exact ⟨" &template ".toList, .marker, by decide +kernel,
          fun _ _ => (by decide +kernel : (templLang templRefs 1).parse (String.ofList " &template ".toList) [] [] = some .marker), by rfl⟩
    · refine ⟨by rfl, by decide, " *t ".toList, .use "t", by decide +kernel,
        fun _ _ => (by decide +kernel : (templLang templRefs 1).parse (String.ofList " *t ".toList) [] [] = some (.use "t")), by rfl, ?_⟩
      intro env n body h1 h2 h3 h4 h5
      refine ⟨20 + depth (instanceCopy body), 20, by omega, by omega, ?_⟩
      have h5' : Plain (templLang templRefs 0) (instanceCopy body) := plain_lang (L := templLang templRefs 1) (L' := templLang templRefs 0) rfl rfl rfl _ h5
      rw [h4, template_instance_plain _ _ h5 env h1 h2 _ (by omega) _ (by omega)]
      have : (templLang templRefs 1).eval (.use "t") env = match substitute (templLang templRefs 0) (bodyFuel n) 20 env (.use "t") (n.val, {}, true) with
        | .ok r => r
        | .error _ => (.expr (.use "t"), {}, true) := by
        show (match findReference templRefs env ["t"] with | .found n => _ | _ => _) = _
        rw [h3]
      rw [this, bodyFuel, h4]
      simp only
      rw [template_instance_plain _ _ h5' env h1 h2 _ (by omega) _ (by omega)]
    · exact ⟨rfl, by decide +kernel⟩

/-- a stub overrides the field `x` of the instance at `u` -/
theorem template_stub_example : (match substitute (templLang templRefs 1) 20 20
      { path := ["u"], stubPath := ["u"], stubs := [.mk (.map [("u", .mk (.map [("x", .mk (.int 8) "s" {})]) "s" {})]) "s" {}] } (.use "t")
      (.templ (.mk (.map [("x", .mk (.int 7) "f" {}), ("z", .mk (.int 9) "f" {})]) "f" {}), {}, true) with
    | .ok (v, _, ok) => some (numberAt ["x"] (Node.new v ""), numberAt ["z"] (Node.new v ""), ok)
    | .error _ => none) = some (some 8, some 9, true) := by
  decide +kernel

end Spiff
