import Verif.Model.Unresolved
import Verif.Spec.Positions
import Verif.Props.Merge
/-
C08: success if and only if nothing is left unresolved.
-/
namespace Spiff
variable {E : Type}

/-- Specification: a node is unresolved if it holds an expression, a `((...))` string the
parser rejects, or is marked as failed. -/
def IsUnresolved (L : Lang E) (n : Node E) : Bool :=
  match n.val with
  | .expr _ => true
  | .str s => parseIssue L s || n.ann.failed
  | _ => n.ann.failed

theorem groupUnres_perm (l : List (Unres E)) : (groupUnres l).Perm l := by
  unfold groupUnres
  induction l with
  | nil => exact List.Perm.refl _
  | cons x r ih =>
    simp only [List.filter_cons]
    cases x.node.ann.error <;> cases x.node.ann.failed <;> simp only [Bool.not_true, Bool.not_false, Bool.and_true,
      Bool.and_false, Bool.false_eq_true, if_true, if_false, Bool.false_and, Bool.true_and, List.cons_append]
    · refine List.Perm.trans ?_ (List.Perm.cons x ih)
      rw [List.append_assoc, List.append_assoc]
      exact List.perm_middle
    · refine List.Perm.trans ?_ (List.Perm.cons x ih)
      exact List.perm_middle
    · exact List.Perm.cons x ih
    · exact List.Perm.cons x ih

/-- What is reported about a node: its path, its value and where it comes from. -/
def report (u : Unres E) : List String × Val E × String := (u.context, u.node.val, u.node.src)
def reportOf (p : List String × Node E) : List String × Val E × String := (p.1, p.2.val, p.2.src)

/-- C08: the reported nodes are exactly the unresolved nodes of the document, each
reported once. -/
theorem unresolved_exact (L : Lang E) (n : Node E) : ∀ ctx,
    ((findUnresolved L ctx n).map report).Perm
      (((Spec.positions ctx n).filter (fun p => IsUnresolved L p.2)).map reportOf) := by
  refine Node.rec
    (motive_1 := fun v => ∀ ctx s a,
      ((findUnresolvedV L ctx s a v).1.map report).Perm
        ((((Spec.positionsV ctx v)).filter (fun p => IsUnresolved L p.2)).map reportOf ++
          (if (findUnresolvedV L ctx s a v).2 then [(ctx, v, s)] else [])) ∧
      IsUnresolved L (.mk v s a) = ((findUnresolvedV L ctx s a v).2 || a.failed))
    (motive_2 := fun n => ∀ ctx, ((findUnresolved L ctx n).map report).Perm
      (((Spec.positions ctx n).filter (fun p => IsUnresolved L p.2)).map reportOf))
    (motive_3 := fun l => ∀ ctx i, ((findUnresolvedL L ctx i l).map report).Perm
      (((Spec.positionsL ctx i l).filter (fun p => IsUnresolved L p.2)).map reportOf))
    (motive_4 := fun m => ∀ ctx, ((findUnresolvedM L ctx m).map report).Perm
      (((Spec.positionsM ctx m).filter (fun p => IsUnresolved L p.2)).map reportOf))
    (motive_5 := fun e => ∀ ctx, ((findUnresolved L ctx e.2).map report).Perm
      (((Spec.positions ctx e.2).filter (fun p => IsUnresolved L p.2)).map reportOf))
    ?_ ?_ ?_ ?_ ?_ ?_ ?_ ?_ ?_ ?_ ?_ ?_ ?_ ?_ ?_ ?_ n
  · intro ctx s a; exact ⟨List.Perm.refl _, rfl⟩
  · intro _ ctx s a; exact ⟨List.Perm.refl _, rfl⟩
  · intro _ ctx s a; exact ⟨List.Perm.refl _, rfl⟩
  · intro _ ctx s a; exact ⟨List.Perm.refl _, rfl⟩
  · intro x ctx s a
    have h1 : IsUnresolved L (.mk (.str x) s a) = (parseIssue L x || a.failed) := rfl
    rw [h1]
    cases hp : parseIssue L x <;>
      simp [findUnresolvedV, Spec.positionsV, hp, report, Node.issueNode, Node.withAnn, Node.val, Node.src]
  · intro l ih ctx s a
    refine ⟨?_, rfl⟩
    simpa [findUnresolvedV, Spec.positionsV] using ih ctx 0
  · intro m ih ctx s a
    refine ⟨?_, rfl⟩
    simpa [findUnresolvedV, Spec.positionsV] using ih ctx
  · intro e ctx s a
    exact ⟨List.Perm.refl _, by simp [IsUnresolved, Node.val, findUnresolvedV]⟩
  · intro e _ ctx s a; exact ⟨List.Perm.refl _, rfl⟩
  · intro e ctx s a; exact ⟨List.Perm.refl _, rfl⟩
  · intro v s a ih ctx
    obtain ⟨h1, h2⟩ := ih ctx s a
    simp only [findUnresolved, Spec.positions, List.filter_cons, h2]
    refine ((groupUnres_perm _).map report).trans ?_
    generalize hp : findUnresolvedV L ctx s a v = pr at *
    obtain ⟨nodes, found⟩ := pr
    simp only at *
    cases found <;> cases hf : a.failed <;>
      simp only [Bool.not_true, Bool.not_false, Bool.and_true, Bool.and_false, Bool.false_eq_true, if_true,
        if_false, Bool.or_true, Bool.or_false, List.append_nil, List.map_append, List.map_cons,
        List.map_nil] at *
    · exact h1
    · exact (List.Perm.append_right _ h1).trans List.perm_append_comm
    · exact h1.trans List.perm_append_comm
    · exact h1.trans List.perm_append_comm
  · intro ctx i; exact List.Perm.refl _
  · intro n l ih1 ih2 ctx i
    simp only [findUnresolvedL, Spec.positionsL, List.map_append, List.filter_append]
    exact (ih1 _).append (ih2 _ _)
  · intro ctx; exact List.Perm.refl _
  · intro e r ih1 ih2 ctx
    obtain ⟨k, n⟩ := e
    simp only [findUnresolvedM, Spec.positionsM, List.map_append, List.filter_append]
    exact (ih1 _).append (ih2 _)
  · intro k n ih ctx; exact ih ctx

/-- C08: no error is reported iff no node is unresolved. -/
theorem success_iff (L : Lang E) (n : Node E) :
    findUnresolved L [] n = [] ↔ ∀ p ∈ Spec.positions [] n, IsUnresolved L p.2 = false := by
  have h := unresolved_exact L n []
  constructor
  · intro he p hp
    rw [he, List.map_nil] at h
    have h' := h.symm.eq_nil
    rw [List.map_eq_nil_iff, List.filter_eq_nil_iff] at h'
    simpa using h' p hp
  · intro ha
    have : (Spec.positions [] n).filter (fun p => IsUnresolved L p.2) = [] := by
      rw [List.filter_eq_nil_iff]; intro p hp; simp [ha p hp]
    rw [this, List.map_nil] at h
    exact List.map_eq_nil_iff.1 h.eq_nil

/-- C08 for whole runs: `Flow` reports success iff the returned document is resolved. -/
theorem flowDoc_success [DecidableEq E] (L : Lang E) (fuel passes : Nat) (env : Env E) (source : Node E) (so : Bool)
    (r : Node E) (errs : List (Unres E)) (h : flowDoc L fuel passes env source so = .ok (r, errs)) :
    errs = [] ↔ ∀ p ∈ Spec.positions [] r, IsUnresolved L p.2 = false := by
  unfold flowDoc at h
  cases hl : flowLoop L fuel env source so passes source with
  | error e => rw [hl] at h; simp [bind, Except.bind] at h
  | ok x =>
    rw [hl] at h
    simp only [bind, Except.bind, pure, Except.pure, Except.ok.injEq, Prod.mk.injEq] at h
    obtain ⟨rfl, rfl⟩ := h
    exact success_iff L x

/-- Plain documents are resolved. -/
theorem plain_resolved {L : Lang E} (n : Node E) : Plain L n → ∀ ctx, findUnresolved L ctx n = [] := by
  refine Node.rec
    (motive_1 := fun v => ∀ ctx s a, PlainV L a v → findUnresolvedV L ctx s a v = ([], false) ∧ a.failed = false)
    (motive_2 := fun n => Plain L n → ∀ ctx, findUnresolved L ctx n = [])
    (motive_3 := fun l => PlainL L l → ∀ ctx i, findUnresolvedL L ctx i l = [])
    (motive_4 := fun m => PlainM L m → ∀ ctx, findUnresolvedM L ctx m = [])
    (motive_5 := fun e => Plain L e.2 → ∀ ctx, findUnresolved L ctx e.2 = [])
    ?_ ?_ ?_ ?_ ?_ ?_ ?_ ?_ ?_ ?_ ?_ ?_ ?_ ?_ ?_ ?_ n
  · intro ctx s a h; cases h; exact ⟨rfl, rfl⟩
  · intro _ ctx s a h; cases h; exact ⟨rfl, rfl⟩
  · intro _ ctx s a h; cases h; exact ⟨rfl, rfl⟩
  · intro _ ctx s a h; obtain ⟨rfl, _⟩ := h; exact ⟨rfl, rfl⟩
  · intro x ctx s a h
    simp only [PlainV] at h
    obtain ⟨rfl, h⟩ := h
    refine ⟨?_, rfl⟩
    have : embeddedDynaml L.quote false x.toList = none := by
      unfold embeddedDynaml at h ⊢
      cases hb : dynamlBody x.toList with
      | none => simp
      | some b => rw [hb] at h; exact h
    simp [findUnresolvedV, parseIssue, this]
  · intro l ih ctx s a h
    simp only [PlainV] at h
    refine ⟨by simp [findUnresolvedV, ih h.2], ?_⟩
    rcases h.1 with h | h <;> subst h <;> rfl
  · intro m ih ctx s a h
    simp only [PlainV] at h
    refine ⟨by simp [findUnresolvedV, ih h.2.2], ?_⟩
    rw [h.1]; rfl
  · intro e ctx s a h; exact h.elim
  · intro e _ ctx s a h; exact h.elim
  · intro e ctx s a h; exact h.elim
  · intro v s a ih h ctx
    obtain ⟨h1, h2⟩ := ih ctx s a h
    simp [findUnresolved, h1, h2, groupUnres]
  · intro _ ctx i; rfl
  · intro n l ih1 ih2 h ctx i
    simp only [PlainL] at h
    simp [findUnresolvedL, ih1 h.1, ih2 h.2]
  · intro _ ctx; rfl
  · intro e r ih1 ih2 h ctx
    obtain ⟨k, n⟩ := e
    simp only [PlainM] at h
    simp only [findUnresolvedM, ih2 h.2.2]
    rw [ih1 h.2.1]; rfl
  · intro k n ih h ctx; exact ih h ctx

/-- C01 for whole runs: success with exactly the template. -/
theorem plain_succeeds [DecidableEq E] (L : Lang E) (doc : Node E) (hp : Plain L doc) (env : Env E)
    (hs : env.stubs = []) (hp0 : env.stubPath = []) (hn : env.nomerge = false) (fuel : Nat) (hf : depth doc < fuel)
    (so : Bool) (passes : Nat) : flowDoc L fuel (passes + 1) env doc so = .ok (doc, []) := by
  unfold flowDoc
  rw [plain_unchanged L doc hp env hs hp0 hn fuel hf so passes]
  simp [bind, Except.bind, pure, Except.pure, plain_resolved doc hp]

/-- C02 for whole runs: success with the overlay as data. -/
theorem merge_plain_succeeds [DecidableEq E] (L : Lang E) (doc : Node E) (env : Env E)
    (hp : Plain L doc) (hsi : Simple (erase doc)) (hno : NamesOK (erase doc))
    (hs : ∀ s ∈ env.stubs, Plain L s) (hss : ∀ s ∈ env.stubs, Simple (erase s))
    (hp0 : env.stubPath = []) (hn : env.nomerge = false) :
    ∃ fuel₀, ∀ fuel ≥ fuel₀, ∀ passes, ∃ r, flowDoc L fuel (passes + 3) env doc true = .ok (r, []) ∧
      erase r = Spec.merge (env.stubs.map erase) (erase doc) := by
  obtain ⟨f0, h⟩ := merge_plain L doc env hp hsi hno hs hss hp0 hn
  refine ⟨f0, fun fuel hf passes => ?_⟩
  obtain ⟨r, h1, h2, h3⟩ := h fuel hf passes
  refine ⟨r, ?_, h3⟩
  unfold flowDoc
  rw [h1]
  simp [bind, Except.bind, pure, Except.pure, plain_resolved r h2]

/-! #### non-triviality -/

/-- a language whose only expression is `ok`, for examples; everything else is a syntax error -/
def tinyLang (interpol : Bool) : Lang Bool where
  parse s _ _ := if s = " ok " then some true else none
  eval _ _ := (.str "done", {}, true)
  marker _ := none
  simpleMerge _ := false
  directMerge _ := false
  print _ := "ok"
  requireTemplate _ := false
  quote s := '"' :: s ++ ['"']
  interpol := interpol

/-- two unresolved nodes at different depths are both reported with their paths -/
example : (findUnresolved (tinyLang false) []
    (.mk (.map [("a", .mk (.list [.mk (.int 1) "" {}, .mk (.str "((  bad ))") "" {}]) "" {}),
                ("b", .mk (.expr false) "" {}), ("c", .mk (.int 3) "" { failed := true })]) "" {})).map (·.context)
    = [["a", "[1]"], ["b"], ["c"]] := by rfl

/-- A disagreement with the property as documented: with interpolation enabled a string with
an embedded expression the parser rejects is returned as it is, and success is reported. -/
theorem interpolated_syntax_error_unreported :
    embeddedDynaml (tinyLang true).quote true "x (( bad )) y".toList ≠ none ∧
    flowDoc (tinyLang true) 5 5 {} (.mk (.str "x (( bad )) y") "" {}) true
      = .ok (.mk (.str "x (( bad )) y") "" {}, []) := by
  constructor
  · decide
  · rfl

end Spiff
