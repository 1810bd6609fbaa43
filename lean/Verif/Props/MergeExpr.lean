import Verif.Spec.Eval
import Verif.Props.Flow
import Verif.Props.Alternatives
/-
C55: `merge` expressions.
-/
namespace Spiff

/-- the first stub with a (non-implied) value at `path` has the node `n` there; stubs before it have none -/
def FirstStub (ctl : Bool) (stubs : List (Node Ex)) (path : List String) (n : Node Ex) : Prop :=
  ∃ pre s post, stubs = pre ++ s :: post ∧ find ctl s path = some n ∧ n.flags.isImplied = false ∧
    ∀ t ∈ pre, ∀ n', find ctl t path = some n' → n'.flags.isImplied = true

/-- no stub has a (non-implied) value at `path` -/
def NoStub (ctl : Bool) (stubs : List (Node Ex)) (path : List String) : Prop :=
  ∀ t ∈ stubs, ∀ n, find ctl t path = some n → n.flags.isImplied = true

theorem eval_merge (X : EvLib) (m : MergeSpec) (bd : Bind) (loc : Bool) : eval X (Ex.merge m) bd loc = mergeEv bd m := by
  simp [Ex.merge, eval, evalL, sem]

/-- the info of a successful merge -/
def mergeInfo (m : MergeSpec) (n : Node Ex) : Info :=
  { keyName := m.keyName, redirectPath := if m.redirect then some m.path else none, replace := m.replace, merged := true,
    source := n.src, flags := n.flags }

/-- C55: `merge` yields the value found in the first stub for the path of the merge, together with its source and flags, and
marks it as merged; with `replace` it is marked to be replaced completely, with an explicit path the rest of the
processing is redirected to that path. -/
theorem merge_value (X : EvLib) (R : RefLib Ex) (m : MergeSpec) (env : Env Ex) (loc : Bool) (n : Node Ex)
    (hm : m.none = false) (h : FirstStub R.ctl env.stubs m.path n) :
    ∃ i : Info, eval X (Ex.merge m) (bindOf R env) loc = .val n.val i ∧ i.merged = true ∧ i.replace = m.replace ∧
      i.source = n.src ∧ i.flags = n.flags ∧ i.keyName = m.keyName ∧
      i.redirectPath = (if m.redirect then some m.path else none) ∧ i.undefined = false := by
  have hf : findInStubs R.ctl env.stubs m.path = some n := (stub_lookup_some _ _ _ _).2 h
  rw [eval_merge]
  refine ⟨{ keyName := m.keyName, redirectPath := if m.redirect then some m.path else none, replace := m.replace, merged := true,
            source := n.src, flags := n.flags }, ?_, ?_⟩
  · simp only [mergeEv, hm, Bool.false_eq_true, if_false, bindOf, hf]
  · simp

/-- C55: `merge` fails iff no stub has a value for the path. -/
theorem merge_fails_iff (X : EvLib) (R : RefLib Ex) (m : MergeSpec) (env : Env Ex) (loc : Bool) :
    (∃ i, eval X (Ex.merge m) (bindOf R env) loc = .fail i) ↔ m.none = false ∧ NoStub R.ctl env.stubs m.path := by
  rw [eval_merge]
  unfold NoStub
  rw [← stub_lookup_none]
  unfold mergeEv bindOf Info.error
  cases m.none with
  | true => simp
  | false =>
    simp only [Bool.false_eq_true, if_false, true_and]
    cases findInStubs R.ctl env.stubs m.path <;> simp

/-- C55: `merge none` always yields nil, marked as merged. -/
theorem merge_none (X : EvLib) (m : MergeSpec) (bd : Bind) (loc : Bool) (hm : m.none = true) :
    ∃ i : Info, eval X (Ex.merge m) bd loc = .val .nil i ∧ i.merged = true := by
  rw [eval_merge]; simp [mergeEv, hm]

/-- C55: a `merge` never leaves an expression, unless the stub contains one, and never depends on the document. -/
theorem merge_document_independent (X : EvLib) (R : RefLib Ex) (m : MergeSpec) (env env' : Env Ex) (loc loc' : Bool)
    (h : env.stubs = env'.stubs) :
    eval X (Ex.merge m) (bindOf R env) loc = eval X (Ex.merge m) (bindOf R env') loc' := by
  rw [eval_merge, eval_merge]; simp [mergeEv, bindOf, h]

theorem Node.src_ite {E : Type} (c : Prop) [Decidable c] (a b : Node E) : (if c then a else b).src = if c then a.src else b.src := by
  split <;> rfl

theorem Node.replace_ite {E : Type} (c : Prop) [Decidable c] (a b : Node E) :
    (if c then a else b).ann.replace = if c then a.ann.replace else b.ann.replace := by
  split <;> rfl

theorem src_updateNode {E : Type} (n : Node E) (fl : Flags) (t : String) : (updateNode n fl t).src = n.src := by
  unfold updateNode; simp only; split <;> rfl

theorem replace_updateNode {E : Type} (n : Node E) (fl : Flags) (t : String) : (updateNode n fl t).ann.replace = n.ann.replace := by
  unfold updateNode; simp only; split <;> rfl

theorem Node.src_keyName {E : Type} (n : Node E) (k : String) : (n.keyNameNode k).src = n.src := rfl
theorem Node.src_issue {E : Type} (n : Node E) (a b i) : (n.issueNode a b i).src = n.src := rfl
theorem Node.src_undefined {E : Type} (n : Node E) : n.undefinedNode.src = n.src := rfl
theorem Node.src_preferred {E : Type} (n : Node E) : n.preferredNode.src = n.src := rfl
theorem Node.src_merged {E : Type} (n : Node E) : n.mergedNode.src = n.src := rfl
theorem Node.src_redirect {E : Type} (n : Node E) (v r) : (Node.redirectNode v n r).src = n.src := rfl
theorem Node.src_replace {E : Type} (n : Node E) (v r) : (Node.replaceNode v n r).src = n.src := rfl
theorem Node.rep_keyName {E : Type} (n : Node E) (k : String) : (n.keyNameNode k).ann.replace = n.ann.replace := by
  simp only [Node.keyNameNode, Node.ann_withAnn, Ann.addKeyName]; split <;> rfl
theorem Node.rep_issue {E : Type} (n : Node E) (a b i) : (n.issueNode a b i).ann.replace = n.ann.replace := rfl
theorem Node.rep_undefined {E : Type} (n : Node E) : n.undefinedNode.ann.replace = n.ann.replace := rfl
theorem Node.rep_preferred {E : Type} (n : Node E) : n.preferredNode.ann.replace = n.ann.replace := rfl
theorem Node.rep_merged {E : Type} (n : Node E) : n.mergedNode.ann.replace = n.ann.replace := rfl
theorem Node.rep_redirect {E : Type} (n : Node E) (v r) : (Node.redirectNode v n r).ann.replace = n.ann.replace := rfl
theorem Node.rep_replace {E : Type} (n : Node E) (v r) : (Node.replaceNode v n r).ann.replace = true := rfl

theorem val_exprAnn {E : Type} (r : Node E) (info : Info) (root : Node E) (fl : Flags) (red : Option (List String)) :
    (exprAnn r info root fl red).val = r.val ∧ (exprAnn r info root fl red).src = r.src ∧
    (exprAnn r info root fl red).ann.replace = (r.ann.replace || info.replace) := by
  unfold exprAnn
  refine ⟨?_, ?_, ?_⟩
  · simp
  · simp only [src_updateNode, Node.src_ite, Node.src_keyName, Node.src_issue, Node.src_undefined, Node.src_preferred,
      Node.src_merged, Node.src_redirect, Node.src_replace, ite_self]
  · simp only [replace_updateNode, Node.replace_ite, Node.rep_keyName, Node.rep_issue, Node.rep_undefined, Node.rep_preferred,
      Node.rep_merged, Node.rep_redirect, Node.rep_replace, ite_self]
    cases info.replace <;> simp

theorem merge_flowExpr (X : EvLib) (R : RefLib Ex) (base : Lang Ex) (env : Env Ex) (root : Node Ex) (m : MergeSpec)
    (so : Bool) (n : Node Ex) (hm : m.none = false) (h : FirstStub R.ctl env.stubs m.path n)
    (hstr : embedded (exLang X R base) n = none) (hs : n.src ≠ "") (red0 : Option (List String)) :
    ∃ r, r.val = n.val ∧ r.src = n.src ∧ r.ann.replace = m.replace ∧ (m.replace = false → r.ann.merged = true) ∧
      (flowExpr (exLang X R base) root (Ex.merge m) env so false red0 = .inl r ∨
       m.replace = true ∧ ∃ rep fl red k, flowExpr (exLang X R base) root (Ex.merge m) env so false red0 = .inr (r, rep, fl, red, k)) := by
  have hf : findInStubs R.ctl env.stubs m.path = some n := (stub_lookup_some _ _ _ _).2 h
  have hev : ∀ env' : Env Ex, env'.stubs = env.stubs →
      (exLang X R base).eval (Ex.merge m) env' = (n.val, mergeInfo m n, true) := by
    intro env' he
    simp only [exLang, eval_merge, mergeEv, hm, Bool.false_eq_true, if_false, bindOf, he, hf, Ev.triple, mergeInfo]
  obtain ⟨env2, hs2, henv2⟩ : ∃ env2 : Env Ex, env2.stubs = env.stubs ∧
      (if root.src ≠ env.sourceName then env.withSource root.src else env) = env2 :=
    ⟨_, by split <;> rfl, rfl⟩
  have hval : ∀ (i : Info), i.source = n.src → exprValue (exLang X R base) n.val i root env2 = Node.new n.val n.src := by
    intro i hi
    have hemb : flowString (exLang X R base) (Node.new n.val n.src) env2 = Node.new n.val n.src := by
      unfold flowString
      have : embedded (exLang X R base) (Node.new n.val n.src) = none := by
        rw [← hstr]; unfold embedded; simp
      rw [this]
    unfold exprValue
    simp only [hi, hs, ne_eq, not_false_eq_true, if_true, hemb, ite_self]
  obtain ⟨red, hred⟩ : ∃ red, (if (mergeInfo m n).redirectPath.isSome = true then
    (mergeInfo m n).redirectPath else red0) = red := ⟨_, rfl⟩
  obtain ⟨fl, hfl⟩ : ∃ fl, (root.flags.add {}).add (mergeInfo m n).flags = fl := ⟨_, rfl⟩
  have hir : (mergeInfo m n).replace = m.replace := rfl
  obtain ⟨a1, a2, a3⟩ := val_exprAnn (Node.new n.val n.src) (mergeInfo m n) root fl red
  have a4 : m.replace = false → (exprAnn (Node.new n.val n.src) (mergeInfo m n) root fl red).ann.merged = true := by
    intro h; exact merged_exprAnn _ _ _ _ _ rfl (hir.trans h)
  refine ⟨exprAnn (Node.new n.val n.src) (mergeInfo m n) root fl red, a1, a2, by rw [a3, hir]; rfl, a4, ?_⟩
  unfold flowExpr
  simp only [asTemplate, show (exLang X R base).marker (Ex.merge m) = none from rfl, Bool.false_eq_true, if_false, exprEval, exprRoot,
    henv2, hev env2 hs2, Bool.not_true, hred, hfl, hval (mergeInfo m n) rfl]
  generalize exprAnn (Node.new n.val n.src) (mergeInfo m n) root fl red = r at *
  cases hmr : m.replace with
  | false => left; simp [a4 hmr]
  | true =>
    split
    · exact .inl rfl
    · exact .inr ⟨rfl, _, _, _, _, rfl⟩

/-- C55: a node with a `merge` becomes the value of the stub, and is never overridden by later passes: neither
at its own path nor anything inside of it. (Strings of the stub that are expressions again are excluded.) -/
theorem merge_node (X : EvLib) (R : RefLib Ex) (base : Lang Ex) (fuel : Nat) (env : Env Ex) (root : Node Ex) (m : MergeSpec)
    (so : Bool) (n : Node Ex) (hv : root.val = .expr (Ex.merge m)) (hr : root.ann.replace = false)
    (hm : m.none = false) (h : FirstStub R.ctl env.stubs m.path n)
    (hstr : embedded (exLang X R base) n = none) (hne : n.val.isExpr = false) (hs : n.src ≠ "") :
    ∃ r, flow (exLang X R base) (fuel + 1) env root so false = .ok r ∧ r.val = n.val ∧ r.src = n.src ∧
      r.ann.replace = m.replace ∧ (m.replace = false → r.ann.merged = true) ∧
      ∀ (fuel' : Nat) (env' : Env Ex) (so' et : Bool), flow (exLang X R base) (fuel' + 1) env' r so' et = .ok r := by
  suffices hmain : ∃ r, flow (exLang X R base) (fuel + 1) env root so false = .ok r ∧ r.val = n.val ∧ r.src = n.src ∧
      r.ann.replace = m.replace ∧ (m.replace = false → r.ann.merged = true) by
    obtain ⟨r, h1, h2, h3, h4, h5⟩ := hmain
    refine ⟨r, h1, h2, h3, h4, h5, ?_⟩
    intro fuel' env' so' et
    cases hmr : m.replace with
    | false => exact merged_kept _ _ _ _ _ _ (h5 hmr) (by rw [h2]; exact hne)
    | true =>
      rw [hmr] at h4
      simp only [flow, flowStep, h4, Bool.not_true, Bool.false_eq_true, if_false]
      simp [override, Ann.standardOverride, h4]
  simp only [flow, flowStep, hr, hv, Val.isExpr, Bool.not_false, Bool.not_true, Bool.false_and, if_true, Bool.false_eq_true, if_false]
  cases hrp : root.ann.redirectPath with
  | none =>
    obtain ⟨r, b1, b2, b3, b4, b5⟩ := merge_flowExpr X R base env root m so n hm h hstr hs none
    refine ⟨r, ?_, b1, b2, b3, b4⟩
    rcases b5 with b5 | ⟨hmr, rep, fl, red, k, b5⟩
    · simp only [b5]
    · simp only [b5]; simp [override, Ann.standardOverride, b3, hmr]
  | some p =>
    have hst : (env.redirectOverwrite p).stubs = env.stubs := by unfold Env.redirectOverwrite; split <;> rfl
    obtain ⟨r, b1, b2, b3, b4, b5⟩ :=
      merge_flowExpr X R base (env.redirectOverwrite p) root m so n hm (hst ▸ h) hstr hs (some p)
    refine ⟨r, ?_, b1, b2, b3, b4⟩
    rcases b5 with b5 | ⟨hmr, rep, fl, red, k, b5⟩
    · simp only [b5]
    · simp only [b5]; simp [override, Ann.standardOverride, b3, hmr]

/-- C55: if no stub has a value for the path of the merge (and none at the path of the node itself), the expression is kept and
marked with an error. -/
theorem merge_missing (X : EvLib) (R : RefLib Ex) (base : Lang Ex) (fuel : Nat) (env : Env Ex) (root : Node Ex) (m : MergeSpec)
    (so : Bool) (hv : root.val = .expr (Ex.merge m)) (hr : root.ann.replace = false) (hrp : root.ann.redirectPath = none)
    (hm : m.none = false) (h : NoStub R.ctl env.stubs m.path) (hown : NoStub false env.stubs env.stubPath) :
    ∃ r, flow (exLang X R base) (fuel + 1) env root so false = .ok r ∧ r.val = .expr (Ex.merge m) ∧ r.ann.error = true := by
  have hf : findInStubs R.ctl env.stubs m.path = none := (stub_lookup_none _ _ _).2 h
  have hf' : findInStubs false env.stubs env.stubPath = none := (stub_lookup_none _ _ _).2 hown
  have hev : ∀ env' : Env Ex, env'.stubs = env.stubs → ((exLang X R base).eval (Ex.merge m) env').2.2 = false := by
    intro env' he
    simp only [exLang, eval_merge, mergeEv, hm, Bool.false_eq_true, if_false, bindOf, he, hf, Ev.triple, Info.error]
  simp only [flow, flowStep, hr, hv, hrp, Val.isExpr, Bool.not_false, Bool.not_true, Bool.false_and, if_true, Bool.false_eq_true, if_false]
  unfold flowExpr
  obtain ⟨env2, hs2, henv2⟩ : ∃ env2 : Env Ex, env2.stubs = env.stubs ∧
      (if root.src ≠ env.sourceName then env.withSource root.src else env) = env2 :=
    ⟨_, by split <;> rfl, rfl⟩
  simp only [asTemplate, show (exLang X R base).marker (Ex.merge m) = none from rfl, Bool.false_eq_true, if_false, exprEval, exprRoot,
    henv2, hev env2 hs2, Bool.not_false, if_true]
  generalize ((exLang X R base).eval (Ex.merge m) env2).2.1 = info
  refine ⟨root.issueNode true false info.issue, ?_, ?_, rfl⟩
  · cases so with
    | false => rfl
    | true =>
      simp only [Bool.not_true, Bool.false_eq_true, if_false]
      unfold override
      rw [hf']
      simp only [ite_self]
  · simpa using hv

/-! ### example: a document with `a: (( merge ))`, `b: (( merge x ))`, `c: (( merge replace ))`, `d: (( merge ))` -/

def mergeStubs : List (Node Ex) :=
  [Node.new (.map [("x", Node.new (.int 1) "s1")]) "s1",
   Node.new (.map [("x", Node.new (.int 2) "s2"), ("a", Node.new (.int 3) "s2"), ("c", Node.new (.list [Node.new (.int 4) "s2"]) "s2")]) "s2"]

def mergeEnv : Env Ex := { stubs := mergeStubs, sourceName := "t" }
def mergeRefs : RefLib Ex := { ctl := false, ctx := fun _ => Node.new .nil "", resolver := fun _ _ => .missing }

example : FirstStub false mergeEnv.stubs ["a"] (Node.new (.int 3) "s2") :=
  (stub_lookup_some _ _ _ _).1 rfl
example : FirstStub false mergeEnv.stubs ["x"] (Node.new (.int 1) "s1") :=
  (stub_lookup_some _ _ _ _).1 rfl
example : NoStub false mergeEnv.stubs ["d"] :=
  (stub_lookup_none _ _ _).1 rfl

example : (eval plainEvLib (Ex.merge { path := ["x"], redirect := true }) (bindOf mergeRefs mergeEnv) false).int? = some 1 ∧
    (eval plainEvLib (Ex.merge { path := ["a"] }) (bindOf mergeRefs mergeEnv) false).int? = some 3 ∧
    ((eval plainEvLib (Ex.merge { path := ["d"] }) (bindOf mergeRefs mergeEnv) false) matches .fail _) = true := by
  decide +kernel

end Spiff
