import Verif.Model.For
import Verif.Spec.Control
import Verif.Spec.Types
import Verif.Lemmas.Maps
import Verif.Props.Escape
import Verif.Props.Equiv
/-
C42: control maps are recognised, and if/switch/type/merge select and combine as described.
-/
namespace Spiff
open Spec
variable {E F : Type}

/-! ### pending values -/

theorem strEmbedded_iff (s : String) : strEmbedded s = true ↔ ExprString s := by
  unfold strEmbedded ExprString
  rw [embeddedDynaml]
  constructor
  · intro h
    cases hb : dynamlBody s.toList with
    | none => rw [hb] at h; simp at h
    | some b =>
      rw [hb] at h
      refine ⟨b, by simpa [Props.wrap] using Props.dynamlBody_some hb, ?_⟩
      cases b with
      | nil => simp
      | cons c r =>
        simp only [List.isPrefixOf] at h
        intro hc
        simp at hc
        subst hc
        simp at h
  · rintro ⟨b, hs, hb⟩
    have : dynamlBody s.toList = some b := by rw [hs]; exact Props.dynamlBody_wrap b
    rw [this]
    cases b with
    | nil => simp [List.isPrefixOf]
    | cons c r =>
      have : c ≠ '!' := fun h => hb (by simp [h])
      have h2 : ('!' == c) = false := by simpa using Ne.symm this
      simp [List.isPrefixOf, h2]

theorem doubleLess_iff (k : String) : hasPrefix k "<<" = true ↔ DoubleLess k := by
  unfold hasPrefix DoubleLess
  rw [List.isPrefixOf_iff_prefix]
  constructor
  · rintro ⟨r, h⟩; exact ⟨r, by rw [← h]; rfl⟩
  · rintro ⟨r, h⟩; exact ⟨r, by rw [h]; rfl⟩

theorem isMapResolvedCtl_iff (m : List (String × Node E)) : isMapResolved true m = true ↔ ∀ e ∈ m, ¬ DoubleLess e.1 := by
  unfold isMapResolved
  have h2 : ∀ k : String, DoubleLess k → (∀ e ∈ m, ¬ DoubleLess e.1) → (mget m k).isNone = true := by
    intro k hk h
    rw [Option.isNone_iff_eq_none, mget_none_iff]
    intro hm
    obtain ⟨e, he, rfl⟩ := List.mem_map.1 hm
    exact h e he hk
  constructor
  · intro h e he hd
    simp only [Bool.and_eq_true, Bool.true_and, Bool.not_eq_true', List.any_eq_false] at h
    exact absurd ((doubleLess_iff _).2 hd) (h.1.1 e he)
  · intro h
    simp only [Bool.and_eq_true, Bool.true_and, Bool.not_eq_true', List.any_eq_false]
    refine ⟨⟨fun e he hp => h e he ((doubleLess_iff _).1 hp), h2 _ ⟨[], rfl⟩ h⟩, h2 _ ⟨['<'], rfl⟩ h⟩

theorem pendingN_mk {accept : Bool} {v : Val E} {s : String} {a : Ann} :
    PendingN accept (.mk v s a) ↔ ¬ (accept = true ∧ (a.failed = true ∨ a.error = true)) ∧ PendingV accept v := by
  constructor
  · intro h; cases h with | intro _ _ _ h hv => exact ⟨h, hv⟩
  · rintro ⟨h, hv⟩; exact .intro _ _ _ h hv

/-- The model's test for resolved nodes: nothing is pending. -/
theorem resolvedN_iff (accept : Bool) (n : Node E) : resolvedN accept n = true ↔ ¬ PendingN accept n := by
  refine Node.rec (motive_1 := fun v => resolvedV accept v = true ↔ ¬ PendingV accept v)
    (motive_2 := fun n => resolvedN accept n = true ↔ ¬ PendingN accept n)
    (motive_3 := fun l => resolvedL accept l = true ↔ ∀ n ∈ l, ¬ PendingN accept n)
    (motive_4 := fun m => resolvedM accept m = true ↔ ∀ e ∈ m, ¬ PendingN accept e.2)
    (motive_5 := fun e => resolvedN accept e.2 = true ↔ ¬ PendingN accept e.2)
    ?_ ?_ ?_ ?_ ?_ ?_ ?_ ?_ ?_ ?_ ?_ ?_ ?_ ?_ ?_ ?_ n
  case refine_1 => simp only [resolvedV, true_iff]; intro h; cases h
  case refine_2 => intro b; simp only [resolvedV, true_iff]; intro h; cases h
  case refine_3 => intro b; simp only [resolvedV, true_iff]; intro h; cases h
  case refine_4 => intro b; simp only [resolvedV, true_iff]; intro h; cases h
  case refine_5 =>
    intro s
    simp only [resolvedV, Bool.not_eq_true']
    rw [← Bool.not_eq_true, strEmbedded_iff]
    constructor
    · intro h hp; cases hp with | str _ h' => exact h h'
    · intro h hp; exact h (.str _ hp)
  case refine_6 =>
    intro l ih
    simp only [resolvedV]
    rw [ih]
    constructor
    · intro h hp; cases hp with | entry _ n hn hp => exact h n hn hp
    · intro h n hn hp; exact h (.entry _ n hn hp)
  case refine_7 =>
    intro m ih
    simp only [resolvedV, Bool.and_eq_true]
    rw [ih, isMapResolvedCtl_iff]
    constructor
    · rintro ⟨h1, h2⟩ hp
      cases hp with
      | key _ k n hn hk => exact h1 (k, n) hn hk
      | field _ k n hn hp => exact h2 (k, n) hn hp
    · intro h
      exact ⟨fun e he hd => h (.key _ e.1 e.2 he hd), fun e he hp => h (.field _ e.1 e.2 he hp)⟩
  case refine_8 => intro e; simp only [resolvedV, Bool.false_eq_true, false_iff]; exact fun h => h (.expr e)
  case refine_9 => intro t _; simp only [resolvedV, true_iff]; intro h; cases h
  case refine_10 => intro s; simp only [resolvedV, true_iff]; intro h; cases h
  case refine_11 =>
    intro v s a ih
    rw [resolvedN, pendingN_mk, Bool.or_eq_true, ih]
    simp only [Bool.and_eq_true, Bool.or_eq_true]
    by_cases h : accept = true ∧ (a.failed = true ∨ a.error = true) <;> simp [h]
  case refine_12 => simp [resolvedL]
  case refine_13 =>
    intro a l iha ihl
    rw [resolvedL, Bool.and_eq_true, iha, ihl]; simp
  case refine_14 => simp [resolvedM]
  case refine_15 =>
    intro a l iha ihl
    obtain ⟨k, a⟩ := a
    rw [resolvedM, Bool.and_eq_true, ihl]
    simp only [List.mem_cons, forall_eq_or_imp]
    exact and_congr_left (fun _ => iha)
  case refine_16 => intro k n ih; exact ih

theorem resolvedV_iff (accept : Bool) (v : Val E) : resolvedV accept v = true ↔ ¬ PendingV accept v := by
  have h := resolvedN_iff accept (Node.mk v "" {})
  rw [resolvedN, pendingN_mk] at h
  simpa using h

theorem isResolvedNode_iff (n : Node E) : isResolvedNode n = true ↔ Settled n := by
  unfold isResolvedNode Settled
  rw [← resolvedV_iff]
  cases h1 : n.ann.failed <;> cases h2 : n.ann.undefined <;> simp

theorem controlValue_yields (n : Node E) : Yields (some n) (controlValue n) := by
  unfold Yields controlValue
  simp [Bool.or_eq_true, isResolvedNode_iff]

theorem branch_yields (ctx : CtlCtx F E) (b : Option (Node E)) : Yields b (branch ctx b) := by
  cases b with
  | none => exact ⟨rfl, rfl, rfl⟩
  | some n => exact controlValue_yields n

theorem controlIssue_isIssue (ctx : CtlCtx F E) (m : String) : IsIssue (controlIssue ctx m) := by
  simp [IsIssue, controlIssue, Node.issueNode, Node.withAnn, Node.ann, Ann.addIssue]

/-! ### readiness -/

/-- Specification: the value of the control is evaluated (or undefined), and nothing is pending in options and fields. -/
def CtlReady (ctx : CtlCtx F E) : Prop :=
  (ctx.value.ann.undefined = true ∨ Settled ctx.value) ∧
  (∀ e ∈ ctx.options, ¬ DoubleLess e.1 ∧ ¬ PendingN true e.2) ∧ (∀ e ∈ ctx.fields, ¬ DoubleLess e.1 ∧ ¬ PendingN true e.2)

theorem resolvedMap_iff (m : List (String × Node E)) :
    resolvedV true (.map m) = true ↔ ∀ e ∈ m, ¬ DoubleLess e.1 ∧ ¬ PendingN true e.2 := by
  rw [resolvedV_iff]
  constructor
  · intro h e he
    exact ⟨fun hd => h (.key _ e.1 e.2 he hd), fun hp => h (.field _ e.1 e.2 he hp)⟩
  · intro h hp
    cases hp with
    | key _ k n hn hk => exact (h _ hn).1 hk
    | field _ k n hn hp => exact (h _ hn).2 hp

theorem controlDone_iff (ctx : CtlCtx F E) : controlDone ctx = true ↔ CtlReady ctx := by
  unfold controlDone CtlReady
  rw [Bool.and_eq_true, Bool.and_eq_true, Bool.or_eq_true, isResolvedNode_iff, resolvedMap_iff, resolvedMap_iff]

theorem controlReady_none (ctx : CtlCtx F E) (acc : Bool) (hf : acc = true ∨ ctx.fields = []) (h : CtlReady ctx) :
    controlReady ctx acc = none := by
  unfold controlReady
  rw [(controlDone_iff ctx).2 h]
  rcases hf with hf | hf <;> simp [hf]

theorem controlReady_wait (ctx : CtlCtx F E) (acc : Bool) (hf : acc = true ∨ ctx.fields = []) (h : ¬ CtlReady ctx) :
    controlReady ctx acc = some (ctx.node, false) := by
  unfold controlReady
  rw [← controlDone_iff] at h
  rcases hf with hf | hf <;> simp [hf, h]

theorem controlReady_fields (ctx : CtlCtx F E) (hf : ctx.fields ≠ []) :
    ∃ r, controlReady ctx false = some r ∧ IsIssue r := by
  refine ⟨controlIssue ctx "no regular fields allowed", ?_, controlIssue_isIssue _ _⟩
  unfold controlReady
  simp [List.isEmpty_iff, hf]

/-! ### if -/

/-- **C42** (if): with regular fields the control is an error; while something in condition or branches is unresolved the
control map is kept; then a true condition selects `then`, a false or nil (or undefined) one `else`, any other condition is an error. -/
theorem if_spec (ctx : CtlCtx F E) :
    (ctx.fields ≠ [] → IsIssue (flowIf ctx)) ∧
    (ctx.fields = [] → ¬ CtlReady ctx → flowIf ctx = (ctx.node, false)) ∧
    (ctx.fields = [] → CtlReady ctx →
      (ctx.value.val = .bool true → Yields (mget ctx.options "then") (flowIf ctx)) ∧
      (ctx.value.val = .bool false ∨ ctx.value.val = .nil → Yields (mget ctx.options "else") (flowIf ctx)) ∧
      ((∀ b, ctx.value.val ≠ .bool b) → ctx.value.val ≠ .nil → IsIssue (flowIf ctx))) := by
  refine ⟨?_, ?_, ?_⟩
  · intro hf
    obtain ⟨r, hr, hi⟩ := controlReady_fields ctx hf
    rw [flowIf, hr]; exact hi
  · intro hf h
    rw [flowIf, controlReady_wait ctx false (.inr hf) h]
  · intro hf h
    rw [flowIf, controlReady_none ctx false (.inr hf) h]
    refine ⟨?_, ?_, ?_⟩
    · intro hv; simp only [ifBranch, hv]; exact branch_yields _ _
    · rintro (hv | hv) <;> simp only [ifBranch, hv] <;> exact branch_yields _ _
    · intro h1 h2
      simp only [ifBranch]
      cases hv : ctx.value.val with
      | nil => exact absurd hv h2
      | bool b => exact absurd hv (h1 b)
      | _ => exact controlIssue_isIssue _ _

/-- C42 (if): both branches have to be evaluated, even if only one of them is needed: an expression in the branch
which is not selected keeps the control unresolved. -/
theorem if_needs_both_branches : ∃ ctx : CtlCtx Unit Unit, ctx.value.val = .bool true ∧ ctx.fields = [] ∧
    (∃ n, mget ctx.options "then" = some n ∧ Settled n) ∧ (∃ n, mget ctx.options "else" = some n ∧ ¬ Settled n) ∧
    (flowIf ctx).2 = false := by
  refine ⟨⟨⟨"if", [("then", false), ("else", false)], ()⟩, Node.new (.bool true) "", Node.new (.map []) "", [],
    [("then", Node.new (.int 1) ""), ("else", Node.new (.expr ()) "")]⟩, rfl, rfl, ⟨_, rfl, ?_⟩, ⟨_, rfl, ?_⟩, rfl⟩
  · exact (isResolvedNode_iff _).1 rfl
  · intro h; exact absurd ((isResolvedNode_iff _).2 h) (by decide)

/-! ### switch and type -/

/-- **C42** (switch and type without cases): a string selects the field of that name or, if there is none, the default; nil
selects the default; otherwise it is an error. -/
theorem selected_spec (ctx : CtlCtx F E) (key : Val E) :
    (∀ s n, key = .str s → mget ctx.fields s = some n → Yields (some n) (selected ctx key)) ∧
    (∀ d, (key = .nil ∨ ∃ s, key = .str s ∧ mget ctx.fields s = none) → mget ctx.options "default" = some d →
      Yields (some d) (selected ctx key)) ∧
    ((key = .nil ∨ ∃ s, key = .str s ∧ mget ctx.fields s = none) → mget ctx.options "default" = none →
      IsIssue (selected ctx key)) ∧
    (key ≠ .nil → (∀ s, key ≠ .str s) → IsIssue (selected ctx key)) := by
  refine ⟨?_, ?_, ?_, ?_⟩
  · rintro s n rfl hn
    simp only [selected, selectResult, hn]
    exact controlValue_yields n
  · rintro d (rfl | ⟨s, rfl, hs⟩) hd
    · simp only [selected, selectResult, hd]; exact controlValue_yields d
    · simp only [selected, selectResult, hs, hd]; exact controlValue_yields d
  · rintro (rfl | ⟨s, rfl, hs⟩) hd
    · simp only [selected, selectResult, hd]; exact controlIssue_isIssue _ _
    · simp only [selected, selectResult, hs, hd]; exact controlIssue_isIssue _ _
  · intro h1 h2
    cases key with
    | nil => exact absurd rfl h1
    | str s => exact absurd rfl (h2 s)
    | _ => exact controlIssue_isIssue _ _

/-- Specification: the type name used by the type control: `undef` for an undefined node, otherwise the name of the type of the value -/
inductive NodeType : Node E → String → Prop
  | undef (v : Val E) (src : String) (a : Ann) (h : a.undefined = true) : NodeType (.mk v src a) "undef"
  | of (v : Val E) (src : String) (a : Ann) (h : a.undefined = false) (t : String) (ht : HasType v t) : NodeType (.mk v src a) t

theorem nodeType_iff {n : Node E} {t : String} (h : NodeType n t) : nodeType n = t := by
  cases h with
  | undef v src a h => simp [nodeType, Node.ann, h]
  | of v src a h t ht => simp only [nodeType, Node.ann, h, Node.val]; cases ht <;> rfl

/-- **C42** (type): the type control selects by the type name of the value. -/
theorem type_spec (ctx : CtlCtx F E) (t : String) (ht : NodeType ctx.value t) :
    (¬ CtlReady ctx → flowType ctx = (ctx.node, false)) ∧
    (CtlReady ctx → (∀ n, mget ctx.fields t = some n → Yields (some n) (flowType ctx)) ∧
      (∀ d, mget ctx.fields t = none → mget ctx.options "default" = some d → Yields (some d) (flowType ctx)) ∧
      (mget ctx.fields t = none → mget ctx.options "default" = none → IsIssue (flowType ctx))) := by
  have ht := nodeType_iff ht
  subst ht
  constructor
  · intro h; rw [flowType, controlReady_wait ctx true (.inl rfl) h]
  · intro h
    rw [flowType, controlReady_none ctx true (.inl rfl) h]
    obtain ⟨h1, h2, h3, _⟩ := selected_spec ctx (.str (nodeType ctx.value))
    exact ⟨fun n hn => h1 _ n rfl hn, fun d hf hd => h2 d (.inr ⟨_, rfl, hf⟩) hd, fun hf hd => h3 (.inr ⟨_, rfl, hf⟩) hd⟩

/-- Specification: a case consists of the fields case, match and value only, and has one of the first two. -/
def CaseForm (m : List (String × Node E)) : Prop :=
  (∀ e ∈ m, e.1 = "case" ∨ e.1 = "match" ∨ e.1 = "value") ∧ ((mget m "case").isSome ∨ (mget m "match").isSome)

/-- Specification: the match field of a case: no lambda, or a lambda that could be evaluated to a bool, or failed -/
def MatchDecided (lib : CtlLib E) (x : Val E) (m : List (String × Node E)) : Prop :=
  ∀ n f, mget m "match" = some n → n.val = .lambda f → lib.call f x = .fail ∨ ∃ b, lib.call f x = .value (.bool b)

/-- Specification: the case applies to the value: it is equivalent to the case field, and the lambda in the match field yields true. -/
def CaseApplies [DecidableEq E] (lib : CtlLib E) (v : Node E) (m : List (String × Node E)) : Prop :=
  (∀ n, mget m "case" = some n → equivN n v = true) ∧
  (∀ n f, mget m "match" = some n → n.val = .lambda f → lib.call f v.val = .value (.bool true))

/-- the final state for the fields of a case -/
def caseEnd [DecidableEq E] (lib : CtlLib E) (ctx : CtlCtx F E) (s : CaseSt E) (m : List (String × Node E)) : CaseSt E where
  value := match mget m "value" with | some n => some n | none => s.value
  found := s.found || (mget m "case").isSome || (mget m "match").isSome
  reject := s.reject || (match mget m "case" with | some n => !equivN n ctx.value | none => false) ||
    (match mget m "match" with
     | some n => (match n.val with
        | .lambda f => (match lib.call f ctx.value.val with | .value (.bool b) => !b | _ => true)
        | _ => false)
     | none => false)

theorem caseFields_end [DecidableEq E] (lib : CtlLib E) (ctx : CtlCtx F E) (m : List (String × Node E)) (hm : MapOK m) :
    ∀ s, (∀ e ∈ m, e.1 = "case" ∨ e.1 = "match" ∨ e.1 = "value") → MatchDecided lib ctx.value.val m →
      caseFields lib ctx s m = .inl (caseEnd lib ctx s m) := by
  induction m with
  | nil => intro s _ _; simp [caseFields, caseEnd, mget]
  | cons e r ih =>
    intro s hk hmd
    obtain ⟨k, v⟩ := e
    have hm' : MapOK r := (List.nodup_cons.1 hm).2
    have hkr : mget r k = none := mget_none_iff.2 (List.nodup_cons.1 hm).1
    have hk' : ∀ e ∈ r, e.1 = "case" ∨ e.1 = "match" ∨ e.1 = "value" := fun e he => hk e (List.mem_cons_of_mem _ he)
    have hmd' : MatchDecided lib ctx.value.val r := by
      intro n f hn hf
      refine hmd n f ?_ hf
      rw [mget]
      split
      · next h => subst h; rw [hkr] at hn; simp at hn
      · exact hn
    rw [caseFields]
    rcases hk _ List.mem_cons_self with h | h | h
    · have h : k = "case" := h
      subst h
      simp only [caseField, if_true]
      rw [ih hm' _ hk' hmd']
      simp only [caseEnd, mget, hkr, Bool.or_true, Bool.true_or, Option.isSome_some, Option.isSome_none, Bool.or_false, if_true,
        show ¬ ("case" = "match") by decide, show ¬ ("case" = "value") by decide, if_false, Bool.or_false]
    · have h : k = "match" := h
      subst h
      simp only [caseField, show ¬ ("match" = "case") by decide, if_true, if_false]
      have hdec : matchField lib ctx s v = .inl { s with found := true, reject := s.reject ||
          (match v.val with
            | .lambda f => (match lib.call f ctx.value.val with | .value (.bool b) => !b | _ => true)
            | _ => false) } := by
        unfold matchField
        cases hv : v.val with
        | lambda f =>
          rcases hmd v f (by simp [mget]) hv with hc | ⟨b, hc⟩ <;> simp [hc]
        | _ => simp
      rw [hdec]
      simp only
      rw [ih hm' _ hk' hmd']
      simp only [caseEnd, mget, hkr, Option.isSome_some, Option.isSome_none, Bool.or_false, if_true,
        show ¬ ("match" = "case") by decide, show ¬ ("match" = "value") by decide, if_false, Bool.or_true, Bool.true_or]
      congr 1
      simp only [CaseSt.mk.injEq, true_and, and_true]
      cases s.reject <;> simp [Bool.or_comm]
    · have h : k = "value" := h
      subst h
      simp only [caseField, show ¬ ("value" = "match") by decide, show ¬ ("value" = "case") by decide, if_true, if_false]
      rw [ih hm' _ hk' hmd']
      simp only [caseEnd, mget, hkr, if_true, show ¬ ("value" = "match") by decide, show ¬ ("value" = "case") by decide, if_false]

/-- A case that applies yields its value. -/
theorem switchCase_applies [DecidableEq E] (lib : CtlLib E) (ctx : CtlCtx F E) (c : Node E) (m : List (String × Node E))
    (hc : c.val = .map m) (hm : MapOK m) (hf : CaseForm m) (ha : CaseApplies lib ctx.value m) :
    ∃ r, switchCase lib ctx c = some r ∧ Yields (mget m "value") r := by
  have hmd : MatchDecided lib ctx.value.val m := fun n f hn hv => .inr ⟨true, ha.2 n f hn hv⟩
  refine ⟨branch ctx (mget m "value"), ?_, branch_yields _ _⟩
  simp only [switchCase, hc]
  rw [caseFields_end lib ctx m hm {} hf.1 hmd]
  have hfound : (caseEnd lib ctx {} m).found = true := by
    simp only [caseEnd, Bool.false_or, Bool.or_eq_true]; exact hf.2
  have hrej : (caseEnd lib ctx {} m).reject = false := by
    simp only [caseEnd, Bool.false_or, Bool.or_eq_false_iff]
    constructor
    · cases h : mget m "case" with
      | none => rfl
      | some n => simp [ha.1 n h]
    · cases h : mget m "match" with
      | none => rfl
      | some n =>
        simp only
        cases hv : n.val with
        | lambda f => simp [ha.2 n f h hv]
        | _ => rfl
  have hval : (caseEnd lib ctx {} m).value = mget m "value" := by
    simp only [caseEnd]; cases mget m "value" <;> rfl
  simp [caseDone, hfound, hrej, hval]

/-- A case that does not apply is skipped. -/
theorem switchCase_skips [DecidableEq E] (lib : CtlLib E) (ctx : CtlCtx F E) (c : Node E) (m : List (String × Node E))
    (hc : c.val = .map m) (hm : MapOK m) (hf : CaseForm m) (hmd : MatchDecided lib ctx.value.val m)
    (ha : ¬ CaseApplies lib ctx.value m) : switchCase lib ctx c = none := by
  simp only [switchCase, hc]
  rw [caseFields_end lib ctx m hm {} hf.1 hmd]
  have hfound : (caseEnd lib ctx {} m).found = true := by
    simp only [caseEnd, Bool.false_or, Bool.or_eq_true]; exact hf.2
  have hrej : (caseEnd lib ctx {} m).reject = true := by
    by_contra hr
    rw [Bool.not_eq_true] at hr
    simp only [caseEnd, Bool.false_or, Bool.or_eq_false_iff] at hr
    apply ha
    constructor
    · intro n hn
      have := hr.1
      simpa [hn] using this
    · intro n f hn hv
      have h2 := hr.2
      rw [hn] at h2
      simp only [hv] at h2
      rcases hmd n f hn hv with hcall | ⟨b, hcall⟩
      · simp [hcall] at h2
      · rw [hcall] at h2
        simp at h2
        rw [hcall, h2]
  simp [caseDone, hfound, hrej]

/-- Specification: a well-formed case that can be decided. -/
def CaseOK (lib : CtlLib E) (v : Node E) (c : Node E) : Prop :=
  ∃ m, c.val = .map m ∧ MapOK m ∧ CaseForm m ∧ MatchDecided lib v.val m

/-- Specification: the fields of a case node. -/
def caseMap (c : Node E) : List (String × Node E) := match c.val with | .map m => m | _ => []

theorem switchCases_skip [DecidableEq E] (lib : CtlLib E) (ctx : CtlCtx F E) (pre r : List (Node E))
    (hok : ∀ c ∈ pre, CaseOK lib ctx.value c) (hna : ∀ c ∈ pre, ¬ CaseApplies lib ctx.value (caseMap c)) :
    switchCases lib ctx (pre ++ r) = switchCases lib ctx r := by
  induction pre with
  | nil => rfl
  | cons c p ih =>
    obtain ⟨m, hc, hm, hf, hmd⟩ := hok c List.mem_cons_self
    have hna' := hna c List.mem_cons_self
    have : caseMap c = m := by simp [caseMap, hc]
    rw [this] at hna'
    rw [List.cons_append, switchCases, switchCase_skips lib ctx c m hc hm hf hmd hna']
    exact ih (fun c hc => hok c (List.mem_cons_of_mem _ hc)) (fun c hc => hna c (List.mem_cons_of_mem _ hc))

/-- **C42** (switch): an undefined value yields nothing. With cases, regular fields are an error; otherwise, when everything is resolved,
the first case that applies is selected, and if no case applies the default, without default it is an error. Without cases, the
value selects a field. -/
theorem switch_spec [DecidableEq E] (lib : CtlLib E) (ctx : CtlCtx F E) :
    (ctx.value.ann.undefined = true → Yields none (flowSwitch lib ctx)) ∧
    (ctx.value.ann.undefined = false →
      (∀ cs, mget ctx.options "cases" = some cs → ctx.fields ≠ [] → IsIssue (flowSwitch lib ctx)) ∧
      ((mget ctx.options "cases").isNone ∨ ctx.fields = [] → ¬ CtlReady ctx → flowSwitch lib ctx = (ctx.node, false)) ∧
      (mget ctx.options "cases" = none → CtlReady ctx → flowSwitch lib ctx = selected ctx ctx.value.val) ∧
      (∀ cs, mget ctx.options "cases" = some cs → ctx.fields = [] → CtlReady ctx →
        (∀ l, cs.val ≠ .list l) → IsIssue (flowSwitch lib ctx)) ∧
      (∀ cs pre c post, mget ctx.options "cases" = some cs → ctx.fields = [] → CtlReady ctx → cs.val = .list (pre ++ c :: post) →
        (∀ c ∈ pre, CaseOK lib ctx.value c ∧ ¬ CaseApplies lib ctx.value (caseMap c)) →
        CaseOK lib ctx.value c → CaseApplies lib ctx.value (caseMap c) → Yields (mget (caseMap c) "value") (flowSwitch lib ctx)) ∧
      (∀ cs l, mget ctx.options "cases" = some cs → ctx.fields = [] → CtlReady ctx → cs.val = .list l →
        (∀ c ∈ l, CaseOK lib ctx.value c ∧ ¬ CaseApplies lib ctx.value (caseMap c)) →
        (∀ d, mget ctx.options "default" = some d → Yields (some d) (flowSwitch lib ctx)) ∧
        (mget ctx.options "default" = none → IsIssue (flowSwitch lib ctx)))) := by
  refine ⟨?_, ?_⟩
  · intro h; simp only [flowSwitch, h, if_true]; exact ⟨rfl, rfl, rfl⟩
  intro hu
  refine ⟨?_, ?_, ?_, ?_, ?_, ?_⟩
  · intro cs hcs hf
    obtain ⟨r, hr, hi⟩ := controlReady_fields ctx hf
    simp only [flowSwitch, hu, hcs, Option.isNone_some, hr]; exact hi
  · intro hf h
    have := controlReady_wait ctx (mget ctx.options "cases").isNone hf h
    simp [flowSwitch, hu, this]
  · intro hc h
    have := controlReady_none ctx true (.inl rfl) h
    simp [flowSwitch, hu, hc, this, switchBody]
  · intro cs hc hf h hl
    have := controlReady_none ctx false (.inr hf) h
    simp only [flowSwitch, hu, hc, Option.isNone_some, this, switchBody]
    cases hv : cs.val with
    | list l => exact absurd hv (hl l)
    | _ => exact controlIssue_isIssue _ _
  · intro cs pre c post hc hf h hl hpre hok ha
    have := controlReady_none ctx false (.inr hf) h
    simp only [flowSwitch, hu, hc, Option.isNone_some, this, switchBody, hl, Bool.false_eq_true, if_false]
    rw [switchCases_skip lib ctx pre _ (fun c hc => (hpre c hc).1) (fun c hc => (hpre c hc).2)]
    obtain ⟨m, hcv, hm, hform, _⟩ := hok
    have hcm : caseMap c = m := by simp [caseMap, hcv]
    rw [hcm] at ha ⊢
    obtain ⟨r, hr, hy⟩ := switchCase_applies lib ctx c m hcv hm hform ha
    rw [switchCases, hr]; exact hy
  · intro cs l hc hf h hl hall
    have := controlReady_none ctx false (.inr hf) h
    simp only [flowSwitch, hu, hc, Option.isNone_some, this, switchBody, hl, Bool.false_eq_true, if_false]
    have hs := switchCases_skip lib ctx l [] (fun c hc => (hall c hc).1) (fun c hc => (hall c hc).2)
    rw [List.append_nil] at hs
    rw [hs, switchCases]
    constructor
    · intro d hd; rw [hd]; exact controlValue_yields d
    · intro hd; rw [hd]; exact controlIssue_isIssue _ _

/-- A case with an unknown field, without case and match field, or which is no map, is never skipped or selected: it ends the control unresolved
(an error, or waiting for an unresolved match). -/
theorem caseFields_bad [DecidableEq E] (lib : CtlLib E) (ctx : CtlCtx F E) (m : List (String × Node E))
    (h : ∃ e ∈ m, e.1 ≠ "case" ∧ e.1 ≠ "match" ∧ e.1 ≠ "value") :
    ∀ s, ∃ o, caseFields lib ctx s m = .inr o ∧ o.2 = false := by
  induction m with
  | nil => simp at h
  | cons e r ih =>
    intro s
    obtain ⟨k, v⟩ := e
    rw [caseFields]
    by_cases hk : k ≠ "case" ∧ k ≠ "match" ∧ k ≠ "value"
    · simp only [caseField, hk.1, hk.2.1, hk.2.2, if_false]
      exact ⟨_, rfl, rfl⟩
    · have hr : ∃ e ∈ r, e.1 ≠ "case" ∧ e.1 ≠ "match" ∧ e.1 ≠ "value" := by
        obtain ⟨e, he, hne⟩ := h
        rcases List.mem_cons.1 he with rfl | he
        · exact absurd hne hk
        · exact ⟨e, he, hne⟩
      cases hc : caseField lib ctx s k v with
      | inl s' => exact ih hr s'
      | inr o =>
        refine ⟨o, rfl, ?_⟩
        unfold caseField at hc
        split at hc
        · simp at hc
        split at hc
        · unfold matchField at hc
          split at hc
          · split at hc <;> simp at hc
            · subst hc; rfl
            · subst hc; rfl
          · simp at hc
        split at hc
        · simp at hc
        · simp at hc; subst hc; rfl

/-- **C42** (switch): surplus fields of a case and cases without condition are not accepted. -/
theorem switch_malformed [DecidableEq E] (lib : CtlLib E) (ctx : CtlCtx F E) (cs : Node E) (pre post : List (Node E)) (c : Node E)
    (hu : ctx.value.ann.undefined = false)
    (hc : mget ctx.options "cases" = some cs) (hf : ctx.fields = []) (hr : CtlReady ctx) (hl : cs.val = .list (pre ++ c :: post))
    (hpre : ∀ c ∈ pre, CaseOK lib ctx.value c ∧ ¬ CaseApplies lib ctx.value (caseMap c))
    (hbad : (∀ m, c.val ≠ .map m) ∨ ∃ m, c.val = .map m ∧ MapOK m ∧ ¬ CaseForm m) :
    (flowSwitch lib ctx).2 = false := by
  have := controlReady_none ctx false (.inr hf) hr
  simp only [flowSwitch, hu, hc, Option.isNone_some, this, switchBody, hl, Bool.false_eq_true, if_false]
  rw [switchCases_skip lib ctx pre _ (fun c hc => (hpre c hc).1) (fun c hc => (hpre c hc).2), switchCases]
  suffices h : ∃ o, switchCase lib ctx c = some o ∧ o.2 = false by
    obtain ⟨o, ho, h2⟩ := h; rw [ho]; exact h2
  rcases hbad with hbad | ⟨m, hm, hok, hnf⟩
  · refine ⟨controlIssue ctx "requires field 'case'", ?_, rfl⟩
    unfold switchCase
    cases hv : c.val with
    | map m => exact absurd hv (hbad m)
    | _ => rfl
  · simp only [switchCase, hm]
    by_cases hk : ∃ e ∈ m, e.1 ≠ "case" ∧ e.1 ≠ "match" ∧ e.1 ≠ "value"
    · obtain ⟨o, ho, h2⟩ := caseFields_bad lib ctx m hk {}
      rw [ho]; exact ⟨o, rfl, h2⟩
    · have hk' : ∀ e ∈ m, e.1 = "case" ∨ e.1 = "match" ∨ e.1 = "value" := by
        intro e he
        by_contra hne
        simp only [not_or] at hne
        exact hk ⟨e, he, hne⟩
      have hnone : mget m "case" = none ∧ mget m "match" = none := by
        unfold CaseForm at hnf
        simp only [not_and, not_or, Bool.not_eq_true, Option.isSome_eq_false_iff, Option.isNone_iff_eq_none] at hnf
        exact hnf hk'
      have hmd : MatchDecided lib ctx.value.val m := by intro n f hn; rw [hnone.2] at hn; simp at hn
      rw [caseFields_end lib ctx m hok {} hk' hmd]
      refine ⟨controlIssue ctx "requires case or match field", ?_, rfl⟩
      simp [caseDone, caseEnd, hnone.1, hnone.2]

/-- C42 (switch): a match field which is no lambda is ignored, so such a case always applies. -/
theorem switch_match_no_lambda [DecidableEq E] (lib : CtlLib E) (v : Node E) (x y : Node E) (hx : ∀ f, x.val ≠ .lambda f) :
    CaseApplies lib v [("match", x), ("value", y)] ∧ CaseForm [("match", x), ("value", y)] := by
  refine ⟨⟨?_, ?_⟩, ?_, ?_⟩
  · intro n hn; simp [mget] at hn
  · intro n f hn hf
    simp [mget] at hn
    subst hn; exact absurd hf (hx f)
  · intro e he; simp at he; rcases he with rfl | rfl <;> simp
  · right; simp [mget]

/-! ### merge control -/

/-- Specification: the maps combined by the merge control: nil entries of a list are ignored. -/
inductive MergeArgs : Val E → List (List (String × Node E)) → Prop
  | nil : MergeArgs .nil []
  | map (m) : MergeArgs (.map m) [m]
  | list (l : List (Node E)) (ms : List (List (String × Node E)))
      (h : (l.filter (fun n => !n.val.isNil)).map Node.val = ms.map Val.map) : MergeArgs (.list l) ms

theorem mget_overlayMap (f v : List (String × Node E)) (hv : MapOK v) (k : String) :
    mget (overlayMap f v) k = (mget v k).or (mget f k) := by
  unfold overlayMap
  induction v generalizing f with
  | nil => simp [mget]
  | cons e r ih =>
    obtain ⟨k', n⟩ := e
    rw [List.foldl_cons, ih _ (List.nodup_cons.1 hv).2, mget]
    split
    · next h =>
      subst h
      have : mget r k' = none := mget_none_iff.2 (List.nodup_cons.1 hv).1
      simp [this, mget_mset]
    · next h => rw [mget_mset_ne _ _ (Ne.symm h)]

theorem mergeMaps_some (l : List (Node E)) : ∀ (ms : List (List (String × Node E))) (f : List (String × Node E)),
    (l.filter (fun n => !n.val.isNil)).map Node.val = ms.map Val.map → mergeMaps f l = some (ms.foldl overlayMap f) := by
  induction l with
  | nil => intro ms f h; simp at h; subst h; rfl
  | cons n r ih =>
    intro ms f h
    rw [mergeMaps]
    cases hv : n.val with
    | nil =>
      simp only
      apply ih
      rw [List.filter_cons] at h
      simpa [hv, Val.isNil] using h
    | map m =>
      simp only
      rw [List.filter_cons] at h
      simp only [hv, Val.isNil, Bool.not_false, if_true, List.map_cons] at h
      cases ms with
      | nil => simp at h
      | cons m' ms' =>
        simp only [List.map_cons, List.cons.injEq, Val.map.injEq] at h
        obtain ⟨h1, h2⟩ := h
        subst h1
        rw [ih ms' _ h2]; rfl
    | _ =>
      rw [List.filter_cons] at h
      simp only [hv, Val.isNil, Bool.not_false, if_true, List.map_cons] at h
      cases ms with
      | nil => simp at h
      | cons m' ms' => simp at h

theorem mergeMaps_none (l : List (Node E)) : ∀ (f : List (String × Node E)),
    (∃ n ∈ l, n.val ≠ .nil ∧ ∀ m, n.val ≠ .map m) → mergeMaps f l = none := by
  induction l with
  | nil => intro f h; simp at h
  | cons n r ih =>
    intro f h
    rw [mergeMaps]
    have : (n.val = .nil ∨ ∃ m, n.val = .map m) → ∃ n ∈ r, n.val ≠ .nil ∧ ∀ m, n.val ≠ .map m := by
      intro hn
      obtain ⟨x, hx, h1, h2⟩ := h
      rcases List.mem_cons.1 hx with rfl | hx
      · rcases hn with hn | ⟨m, hn⟩
        · exact absurd hn h1
        · exact absurd hn (h2 m)
      · exact ⟨x, hx, h1, h2⟩
    cases hv : n.val with
    | nil => exact ih _ (this (.inl hv))
    | map m => exact ih _ (this (.inr ⟨m, hv⟩))
    | _ => rfl

/-- Specification: the value of a key is the one of the last map that has it. -/
def lastOf (ms : List (List (String × Node E))) (k : String) : Option (Node E) :=
  (ms.reverse.findSome? (fun m => mget m k))

theorem mget_foldl_overlay (ms : List (List (String × Node E))) (hms : ∀ m ∈ ms, MapOK m) (f : List (String × Node E)) (k : String) :
    mget (ms.foldl overlayMap f) k = (lastOf ms k).or (mget f k) := by
  unfold lastOf
  induction ms generalizing f with
  | nil => simp
  | cons m r ih =>
    rw [List.foldl_cons, ih (fun m hm => hms m (List.mem_cons_of_mem _ hm)), mget_overlayMap f m (hms m List.mem_cons_self),
      List.reverse_cons, List.findSome?_append]
    cases List.findSome? (fun m => mget m k) r.reverse <;> simp

/-- **C42** (merge control): the result is a map; every key has the value of the last map of the argument that has it,
otherwise the one of the (defined) regular fields. Other arguments are errors. -/
theorem merge_control_spec (ctx : CtlCtx F E) :
    (¬ CtlReady ctx → flowMerge ctx = (ctx.node, false)) ∧
    (CtlReady ctx → ∀ ms, MergeArgs ctx.value.val ms → (∀ m ∈ ms, MapOK m) →
      ∃ n m, flowMerge ctx = (n, true) ∧ n.val = .map m ∧
        ∀ k, mget m k = (lastOf ms k).or (mget (ctx.fields.filter (fun e => !e.2.ann.undefined)) k)) ∧
    (CtlReady ctx → ctx.value.val ≠ .nil → (∀ m, ctx.value.val ≠ .map m) →
      (∀ l, ctx.value.val = .list l → ∃ n ∈ l, n.val ≠ .nil ∧ ∀ m, n.val ≠ .map m) → IsIssue (flowMerge ctx)) := by
  refine ⟨?_, ?_, ?_⟩
  · intro h; rw [flowMerge, controlReady_wait ctx true (.inl rfl) h]
  · intro h ms hms hok
    rw [flowMerge, controlReady_none ctx true (.inl rfl) h]
    simp only [mergeBody]
    generalize ctx.value.val = v at hms
    cases hms with
    | nil => exact ⟨_, _, rfl, rfl, fun k => by simp [lastOf, definedFields]⟩
    | map m =>
      refine ⟨_, _, rfl, rfl, fun k => ?_⟩
      rw [mget_overlayMap _ _ (hok m List.mem_cons_self)]
      simp only [lastOf, List.reverse_singleton, List.findSome?_cons, List.findSome?_nil]
      cases mget m k <;> simp [definedFields]
    | list l ms hl =>
      simp only [mergeMaps_some l ms _ hl]
      exact ⟨_, _, rfl, rfl, fun k => mget_foldl_overlay ms hok _ k⟩
  · intro h h1 h2 h3
    rw [flowMerge, controlReady_none ctx true (.inl rfl) h]
    simp only [mergeBody]
    cases hv : ctx.value.val with
    | nil => exact absurd hv h1
    | map m => exact absurd hv (h2 m)
    | list l =>
      simp only
      rw [mergeMaps_none l _ (h3 l hv)]
      exact controlIssue_isIssue _ _
    | _ => exact controlIssue_isIssue _ _

/-! ### recognition -/

theorem controlName_iff (k n : String) : controlName k = some n ↔ ControlKey k n := by
  unfold controlName ControlKey
  split
  · next r hk =>
    rw [hk]
    split
    · next h =>
      simp only [Option.some.injEq, List.cons.injEq, true_and]
      constructor
      · intro hn; subst hn; simp only [String.toList_ofList, true_and]; exact h
      · rintro ⟨hr, _⟩; rw [hr]; simp
    · next h =>
      simp only [reduceCtorEq, false_iff, List.cons.injEq, true_and]
      rintro ⟨hr, h1, h2, h3⟩
      exact h (by rw [hr]; exact ⟨h1, h2, h3⟩)
  · next hne =>
    simp only [reduceCtorEq, false_iff]
    rintro ⟨h, _⟩
    exact hne _ h

theorem controlName_prefix {k n : String} (h : controlName k = some n) : hasPrefix k "<<" = true := by
  rw [doubleLess_iff]
  exact ⟨_, ((controlName_iff k n).1 h).1⟩

/-- the controls named by the keys -/
def ctlOf (cs : Controls F) (l : List (String × Node E)) : List (Control F × Node E) :=
  l.filterMap (fun e => match controlName e.1 with
    | some n => (match cs.lookup n with | some (some c) => some (c, e.2) | _ => none)
    | none => none)
/-- the options named by the keys -/
def optsOf (cs : Controls F) (l : List (String × Node E)) : List (String × Node E) :=
  l.filterMap (fun e => match controlName e.1 with
    | some n => (match cs.lookup n with | some none => some (n, e.2) | _ => none)
    | none => none)
/-- the regular fields -/
def fieldsOf (l : List (String × Node E)) : List (String × Node E) := l.filter (fun e => !hasPrefix e.1 "<<")
/-- all control keys are known -/
def knownKeys (cs : Controls F) (l : List (String × Node E)) : Prop :=
  ∀ e ∈ l, ∀ n, controlName e.1 = some n → (cs.lookup n).isSome = true

theorem controlName_inj {k k' n : String} (h : controlName k = some n) (h' : controlName k' = some n) : k = k' := by
  have h1 := ((controlName_iff k n).1 h).1
  have h2 := ((controlName_iff k' n).1 h').1
  exact String.toList_inj.1 (h1.trans h2.symm)

theorem scanEntries_spec (cs : Controls F) (l : List (String × Node E)) (hl : MapOK l) : ∀ s : CtlScan F E,
    (∀ e ∈ l, mget s.fields e.1 = none) → (∀ e ∈ l, ∀ n, controlName e.1 = some n → mget s.opts n = none) →
    (knownKeys cs l → (s.control.toList ++ ctlOf cs l).length ≤ 1 →
      scanEntries cs s l = .ok ⟨(s.control.toList ++ ctlOf cs l).head?, s.opts ++ optsOf cs l, s.fields ++ fieldsOf l⟩) ∧
    (∀ s', scanEntries cs s l = .ok s' → knownKeys cs l ∧ ((s.control.toList ++ ctlOf cs l).length ≤ 1)) := by
  induction l with
  | nil =>
    intro s _ _
    refine ⟨fun _ _ => ?_, fun s' _ => ⟨by intro e he; simp at he, ?_⟩⟩
    · obtain ⟨c, o, f⟩ := s
      cases c <;> simp [scanEntries, ctlOf, optsOf, fieldsOf]
    · cases s.control <;> simp [ctlOf]
  | cons e r ih =>
    intro s hf ho
    obtain ⟨k, v⟩ := e
    have hl' := (List.nodup_cons.1 hl)
    have hkr : ∀ e ∈ r, e.1 ≠ k := fun e he h => hl'.1 (by rw [← h]; exact List.mem_map.2 ⟨e, he, rfl⟩)
    have hfr : ∀ e ∈ r, mget s.fields e.1 = none := fun e he => hf e (List.mem_cons_of_mem _ he)
    have hor : ∀ e ∈ r, ∀ n, controlName e.1 = some n → mget s.opts n = none := fun e he => ho e (List.mem_cons_of_mem _ he)
    rw [scanEntries, scanEntry]
    by_cases hp : hasPrefix k "<<" = true
    · rw [if_pos hp]
      have hfo : fieldsOf ((k, v) :: r) = fieldsOf r := by simp [fieldsOf, hp]
      cases hn : controlName k with
      | none =>
        have h1 : ctlOf cs ((k, v) :: r) = ctlOf cs r := by simp [ctlOf, hn]
        have h2 : optsOf cs ((k, v) :: r) = optsOf cs r := by simp [optsOf, hn]
        have h3 : knownKeys cs ((k, v) :: r) ↔ knownKeys cs r := by simp [knownKeys, hn]
        rw [hfo, h1, h2, h3]
        exact ih hl'.2 s hfr hor
      | some n =>
        cases hlk : cs.lookup n with
        | none =>
          refine ⟨fun hk => ?_, fun s' h => ?_⟩
          · have := hk (k, v) List.mem_cons_self n hn
            rw [hlk] at this; simp at this
          · simp [hlk] at h
        | some oc =>
          have h3 : knownKeys cs ((k, v) :: r) ↔ knownKeys cs r := by
            unfold knownKeys
            simp only [List.mem_cons, forall_eq_or_imp, hn, Option.some.injEq]
            constructor
            · exact fun h => h.2
            · intro h; refine ⟨?_, h⟩
              rintro n' rfl; rw [hlk]; rfl
          cases oc with
          | none =>
            have h1 : ctlOf cs ((k, v) :: r) = ctlOf cs r := by simp [ctlOf, hn, hlk]
            have h2 : optsOf cs ((k, v) :: r) = (n, v) :: optsOf cs r := by simp [optsOf, hn, hlk]
            rw [hfo, h1, h2, h3]
            have hno := ho (k, v) List.mem_cons_self n hn
            have := ih hl'.2 { s with opts := mset s.opts n v } hfr (by
              intro e he n' hn'
              have hne : n' ≠ n := by
                rintro rfl
                exact hkr e he (controlName_inj hn' hn)
              simp only
              rw [mget_mset_ne _ _ hne]; exact hor e he n' hn')
            simp only at this ⊢
            rw [mset_of_none hno] at this ⊢
            simpa [hlk] using this
          | some c =>
            have h1 : ctlOf cs ((k, v) :: r) = (c, v) :: ctlOf cs r := by simp [ctlOf, hn, hlk]
            have h2 : optsOf cs ((k, v) :: r) = optsOf cs r := by simp [optsOf, hn, hlk]
            rw [hfo, h1, h2, h3]
            simp only [hlk]
            cases hc : s.control with
            | some c' => simp
            | none =>
              have := ih hl'.2 { s with control := some (c, v) } hfr hor
              simpa [hc] using this
    · rw [if_neg hp]
      have hn : controlName k = none := by
        cases h : controlName k with
        | none => rfl
        | some n => exact absurd (controlName_prefix h) hp
      have h1 : ctlOf cs ((k, v) :: r) = ctlOf cs r := by simp [ctlOf, hn]
      have h2 : optsOf cs ((k, v) :: r) = optsOf cs r := by simp [optsOf, hn]
      have h3 : knownKeys cs ((k, v) :: r) ↔ knownKeys cs r := by simp [knownKeys, hn]
      have hfo : fieldsOf ((k, v) :: r) = (k, v) :: fieldsOf r := by simp [fieldsOf, hp]
      rw [hfo, h1, h2, h3]
      have hno := hf (k, v) List.mem_cons_self
      have := ih hl'.2 { s with fields := mset s.fields k v } (by
        intro e he
        simp only
        rw [mget_mset_ne _ _ (hkr e he)]; exact hfr e he) hor
      simp only at this ⊢
      rw [mset_of_none hno] at this ⊢
      simpa using this

/-- Specification: the map is the description of a control: exactly one key (`k`) names a control, all other control keys name options of it. -/
def ControlMap (cs : Controls F) (l : List (String × Node E)) (k : String) (v : Node E) (c : Control F) : Prop :=
  (k, v) ∈ l ∧ (∃ n, ControlKey k n ∧ cs.lookup n = some (some c)) ∧
  ∀ e ∈ l, e.1 ≠ k → ∀ n, ControlKey e.1 n → cs.lookup n = some none ∧ (mget c.options n).isSome = true

theorem ctlOf_single {cs : Controls F} {l : List (String × Node E)} (hl : MapOK l) {k : String} {v : Node E} {c : Control F}
    (h : ControlMap cs l k v c) : ctlOf cs l = [(c, v)] := by
  obtain ⟨hmem, ⟨n, hk, hc⟩, ho⟩ := h
  obtain ⟨l1, l2, rfl⟩ := List.append_of_mem hmem
  have hnd : (mkeys l1 ++ k :: mkeys l2).Nodup := by simpa [MapOK, mkeys] using hl
  have hne : ∀ e ∈ l1 ++ l2, e.1 ≠ k := by
    intro e he hek
    rw [List.nodup_append] at hnd
    rcases List.mem_append.1 he with he | he
    · exact hnd.2.2 e.1 (List.mem_map.2 ⟨e, he, rfl⟩) k (by simp) hek
    · exact (List.nodup_cons.1 hnd.2.1).1 (by rw [← hek]; exact List.mem_map.2 ⟨e, he, rfl⟩)
  have hnil : ∀ l', (∀ e ∈ l', e ∈ l1 ++ l2) → ctlOf cs l' = [] := by
    intro l' hl'
    unfold ctlOf
    rw [List.filterMap_eq_nil_iff]
    intro e he
    have hm := hl' e he
    cases hn : controlName e.1 with
    | none => rfl
    | some n' =>
      have := (ho e (by rcases List.mem_append.1 hm with h | h <;> simp [h]) (hne e hm) n' ((controlName_iff _ _).1 hn)).1
      simp [this]
  have e1 : ctlOf cs l1 = [] := hnil l1 (fun e he => List.mem_append_left _ he)
  have e2 : ctlOf cs l2 = [] := hnil l2 (fun e he => List.mem_append_right _ he)
  unfold ctlOf at e1 e2 ⊢
  rw [List.filterMap_append, e1, List.filterMap_cons, e2]
  rw [← controlName_iff] at hk
  simp [hk, hc]

theorem mem_ctlOf {cs : Controls F} {l : List (String × Node E)} {c : Control F} {v : Node E} :
    (c, v) ∈ ctlOf cs l ↔ ∃ k n, (k, v) ∈ l ∧ ControlKey k n ∧ cs.lookup n = some (some c) := by
  unfold ctlOf
  rw [List.mem_filterMap]
  constructor
  · rintro ⟨e, he, h⟩
    cases hn : controlName e.1 with
    | none => simp [hn] at h
    | some n =>
      simp only [hn] at h
      cases hlk : cs.lookup n with
      | none => simp [hlk] at h
      | some oc =>
        cases oc with
        | none => simp [hlk] at h
        | some c' =>
          simp only [hlk, Option.some.injEq, Prod.mk.injEq] at h
          obtain ⟨rfl, rfl⟩ := h
          exact ⟨e.1, n, he, (controlName_iff _ _).1 hn, hlk⟩
  · rintro ⟨k, n, he, hk, hlk⟩
    rw [← controlName_iff] at hk
    exact ⟨(k, v), he, by simp [hk, hlk]⟩

theorem mem_optsOf {cs : Controls F} {l : List (String × Node E)} {n : String} {v : Node E} :
    (n, v) ∈ optsOf cs l ↔ ∃ k, (k, v) ∈ l ∧ ControlKey k n ∧ cs.lookup n = some none := by
  unfold optsOf
  rw [List.mem_filterMap]
  constructor
  · rintro ⟨e, he, h⟩
    cases hn : controlName e.1 with
    | none => simp [hn] at h
    | some n' =>
      simp only [hn] at h
      cases hlk : cs.lookup n' with
      | none => simp [hlk] at h
      | some oc =>
        cases oc with
        | some c' => simp [hlk] at h
        | none =>
          simp only [hlk, Option.some.injEq, Prod.mk.injEq] at h
          obtain ⟨rfl, rfl⟩ := h
          exact ⟨e.1, he, (controlName_iff _ _).1 hn, hlk⟩
  · rintro ⟨k, he, hk, hlk⟩
    rw [← controlName_iff] at hk
    exact ⟨(k, v), he, by simp [hk, hlk]⟩

theorem mem_fieldsOf {l : List (String × Node E)} {e : String × Node E} : e ∈ fieldsOf l ↔ e ∈ l ∧ ¬ DoubleLess e.1 := by
  unfold fieldsOf
  rw [List.mem_filter, ← doubleLess_iff]
  simp

theorem getControl_cases (cs : Controls F) (node : Node E) (m undef : List (String × Node E)) (hv : node.val = .map m)
    (hm : MapOK (m ++ undef)) :
    (knownKeys cs (m ++ undef) ∧ (ctlOf cs (m ++ undef)).length ≤ 1 ∧
      getControl cs node undef = scanResult node m undef
        ⟨(ctlOf cs (m ++ undef)).head?, optsOf cs (m ++ undef), fieldsOf (m ++ undef)⟩) ∨
    (¬ (knownKeys cs (m ++ undef) ∧ (ctlOf cs (m ++ undef)).length ≤ 1) ∧ ∃ e, getControl cs node undef = .error e) := by
  obtain ⟨h1, h2⟩ := scanEntries_spec cs (m ++ undef) hm {} (fun _ _ => rfl) (fun _ _ _ _ => rfl)
  simp only [Option.toList_none, List.nil_append] at h1 h2
  by_cases h : knownKeys cs (m ++ undef) ∧ (ctlOf cs (m ++ undef)).length ≤ 1
  · left
    refine ⟨h.1, h.2, ?_⟩
    simp only [getControl, hv]
    rw [h1 h.1 h.2]
  · right
    refine ⟨h, ?_⟩
    simp only [getControl, hv]
    cases hs : scanEntries cs {} (m ++ undef) with
    | error e => exact ⟨e, rfl⟩
    | ok s => exact absurd (h2 s hs) h

/-- **C42** (recognition): a map without control keys is no control; a map with exactly one control and only options of it is that control, with the value of
the control key, the other `<<` keys as options and all remaining entries as fields; every other map with control keys is an error. -/
theorem control_recognition (cs : Controls F) (node : Node E) (m undef : List (String × Node E)) (hv : node.val = .map m)
    (hm : MapOK (m ++ undef)) :
    (getControl cs node undef = .ok none ↔ ∀ e ∈ m ++ undef, ∀ n, ¬ ControlKey e.1 n) ∧
    (∀ k v c, ControlMap cs (m ++ undef) k v c → ∃ ctx, getControl cs node undef = .ok (some ctx) ∧ ctx.control = c ∧ ctx.value = v) ∧
    (∀ ctx, getControl cs node undef = .ok (some ctx) →
      (∃ k, ControlMap cs (m ++ undef) k ctx.value ctx.control) ∧
      (∀ n v, (n, v) ∈ ctx.options ↔ ∃ k, (k, v) ∈ m ++ undef ∧ ControlKey k n ∧ cs.lookup n = some none) ∧
      (∀ e, e ∈ ctx.fields ↔ e ∈ m ++ undef ∧ ¬ DoubleLess e.1) ∧
      (∃ m', ctx.node = node.withVal (.map m') ∧ ∀ k, mget m' k = mget (m ++ undef) k)) := by
  have hc := getControl_cases cs node m undef hv hm
  refine ⟨⟨?_, ?_⟩, ?_, ?_⟩
  · intro hg e he n hk
    rcases hc with ⟨hkn, hlen, hr⟩ | ⟨_, x, hx⟩
    · rw [hr, scanResult] at hg
      simp only at hg
      have hkk := hkn e he n ((controlName_iff _ _).2 hk)
      cases hlk : cs.lookup n with
      | none => rw [hlk] at hkk; simp at hkk
      | some oc =>
        cases oc with
        | some c =>
          have : (c, e.2) ∈ ctlOf cs (m ++ undef) := mem_ctlOf.2 ⟨e.1, n, he, hk, hlk⟩
          cases hh : ctlOf cs (m ++ undef) with
          | nil => rw [hh] at this; simp at this
          | cons x y =>
            rw [hh] at hg
            simp only [List.head?_cons] at hg
            split at hg <;> simp at hg
        | none =>
          have ho : (n, e.2) ∈ optsOf cs (m ++ undef) := mem_optsOf.2 ⟨e.1, he, hk, hlk⟩
          split at hg
          · split at hg <;> simp at hg
          · split at hg
            · next hem => rw [List.isEmpty_iff] at hem; rw [hem] at ho; simp at ho
            · simp at hg
    · rw [hx] at hg; simp at hg
  · intro h
    have hn : ∀ e ∈ m ++ undef, controlName e.1 = none := by
      intro e he
      cases hk : controlName e.1 with
      | none => rfl
      | some n => exact absurd ((controlName_iff _ _).1 hk) (h e he n)
    have h1 : ctlOf cs (m ++ undef) = [] := by
      unfold ctlOf; rw [List.filterMap_eq_nil_iff]; intro e he; simp [hn e he]
    have h2 : optsOf cs (m ++ undef) = [] := by
      unfold optsOf; rw [List.filterMap_eq_nil_iff]; intro e he; simp [hn e he]
    rcases hc with ⟨hkn, hlen, hr⟩ | ⟨hno, _⟩
    · rw [hr, h1, h2]; rfl
    · exact absurd ⟨fun e he n hk => by rw [hn e he] at hk; simp at hk, by rw [h1]; simp⟩ hno
  · intro k v c hcm
    have hsingle := ctlOf_single hm hcm
    obtain ⟨hmem, ⟨n, hk, hlk⟩, ho⟩ := hcm
    rcases hc with ⟨hkn, hlen, hr⟩ | ⟨hno, _⟩
    · rw [hr, hsingle]
      simp only [scanResult, List.head?_cons]
      rw [if_pos]
      · exact ⟨_, rfl, rfl, rfl⟩
      · rw [List.all_eq_true]
        intro o hoo
        obtain ⟨k', hk'm, hk', hlk'⟩ := mem_optsOf.1 (show (o.1, o.2) ∈ _ from hoo)
        have hne : k' ≠ k := by
          rintro rfl
          have : n = o.1 := by
            have h1 := (controlName_iff _ _).2 hk
            have h2 := (controlName_iff _ _).2 hk'
            rw [h1] at h2; simpa using h2
          rw [this, hlk'] at hlk; simp at hlk
        exact (ho _ hk'm hne _ hk').2
    · refine absurd ⟨?_, by rw [hsingle]; simp⟩ hno
      intro e he n' hn'
      rw [controlName_iff] at hn'
      by_cases hek : e.1 = k
      · have : n' = n := by
          have h1 := (controlName_iff _ _).2 hk
          have h2 := (controlName_iff _ _).2 hn'
          rw [hek, h1] at h2; simpa using h2.symm
        rw [this, hlk]; rfl
      · rw [(ho e he hek n' hn').1]; rfl
  · intro ctx hg
    rcases hc with ⟨hkn, hlen, hr⟩ | ⟨_, x, hx⟩
    swap
    · rw [hx] at hg; simp at hg
    rw [hr, scanResult] at hg
    simp only at hg
    cases hh : ctlOf cs (m ++ undef) with
    | nil =>
      rw [hh] at hg; simp only [List.head?_nil] at hg
      split at hg <;> simp at hg
    | cons x y =>
      have hy : y = [] := by
        rw [hh] at hlen
        simp only [List.length_cons] at hlen
        cases y with
        | nil => rfl
        | cons a b => simp only [List.length_cons] at hlen; omega
      subst hy
      obtain ⟨c, v⟩ := x
      rw [hh] at hg
      simp only [List.head?_cons] at hg
      split at hg
      · next hall =>
        simp only [Except.ok.injEq, Option.some.injEq] at hg
        subst hg
        rw [List.all_eq_true] at hall
        obtain ⟨k, n, hkm, hk, hlk⟩ := mem_ctlOf.1 (show (c, v) ∈ ctlOf cs (m ++ undef) by rw [hh]; simp)
        refine ⟨⟨k, hkm, ⟨n, hk, hlk⟩, ?_⟩, ?_, ?_, ?_⟩
        · intro e he hek n' hn'
          have hkk := hkn e he n' ((controlName_iff _ _).2 hn')
          cases hlk' : cs.lookup n' with
          | none => rw [hlk'] at hkk; simp at hkk
          | some oc =>
            cases oc with
            | none =>
              refine ⟨rfl, ?_⟩
              exact hall (n', e.2) (mem_optsOf.2 ⟨e.1, he, hn', hlk'⟩)
            | some c' =>
              exfalso
              -- two different entries that name controls
              obtain ⟨l1, l2, hl12⟩ := List.append_of_mem hkm
              rw [hl12] at hh he
              have he' : e ∈ l1 ++ l2 := by
                rcases List.mem_append.1 he with h | h
                · exact List.mem_append_left _ h
                · rcases List.mem_cons.1 h with h | h
                  · rw [h] at hek; exact absurd rfl hek
                  · exact List.mem_append_right _ h
              have hx : (c', e.2) ∈ ctlOf cs (l1 ++ l2) := mem_ctlOf.2 ⟨e.1, n', he', hn', hlk'⟩
              have hlen2 : (ctlOf cs (l1 ++ (k, v) :: l2)).length = (ctlOf cs (l1 ++ l2)).length + 1 := by
                have hk2 := (controlName_iff _ _).2 hk
                simp [ctlOf, List.filterMap_append, hk2, hlk, List.filterMap_cons]
                omega
              rw [hh] at hlen2
              simp only [List.length_cons, List.length_nil] at hlen2
              cases hz : ctlOf cs (l1 ++ l2) with
              | nil => rw [hz] at hx; simp at hx
              | cons a b => rw [hz] at hlen2; simp only [List.length_cons] at hlen2; omega
        · intro n v; exact mem_optsOf
        · intro e; exact mem_fieldsOf
        · refine ⟨_, rfl, fun k => ?_⟩
          have hu : MapOK undef := by
            have := hm
            simp only [MapOK, mkeys, List.map_append] at this ⊢
            exact (List.nodup_append.1 this).2.1
          have hdis : ∀ k, mget undef k ≠ none → mget m k = none := by
            intro k hk
            cases hk2 : mget undef k with
            | none => exact absurd hk2 hk
            | some x =>
              rw [mget_none_iff]
              intro hmk
              have := hm
              simp only [MapOK, mkeys, List.map_append] at this hmk
              have hd := (List.nodup_append.1 this).2.2 k hmk k (List.mem_map.2 ⟨(k, x), mget_some_mem hk2, rfl⟩)
              exact hd rfl
          have := mget_overlayMap m undef hu k
          unfold overlayMap at this
          rw [this]
          cases hk2 : mget undef k with
          | none =>
            simp only [Option.none_or]
            cases hk3 : mget m k with
            | none => rw [mget_append_of_none hk3, hk2]
            | some x =>
              symm
              exact mget_of_mem hm (List.mem_append_left _ (mget_some_mem hk3))
          | some x =>
            rw [mget_append_of_none (hdis k (by rw [hk2]; simp)), hk2]
            rfl
      · simp at hg

/-- C42: the test whether a map is a control and the execution of the control agree, unless keys are added in between: then a map that is no correct
control crashes (a nil context is dereferenced). -/
theorem flowControl_invalid [DecidableEq E] (lib : CtlLib E) (fuel : Nat) (cs : Controls CtlFn) (node : Node E)
    (undef : List (String × Node E)) (e : String) (h : getControl cs node undef = .error e) :
    flowControl lib fuel cs node undef = .error .panic := by
  rw [flowControl, h]

/-- C42: a map that is no control is not changed by the execution of controls. -/
theorem flowControl_none [DecidableEq E] (lib : CtlLib E) (fuel : Nat) (cs : Controls CtlFn) (node : Node E) (m undef : List (String × Node E))
    (hv : node.val = .map m) (hm : MapOK (m ++ undef)) (h : ∀ e ∈ m ++ undef, ∀ n, ¬ ControlKey e.1 n) :
    flowControl lib fuel cs node undef = .ok node := by
  rw [flowControl, (control_recognition cs node m undef hv hm).1.2 h]

/-- C42: the result of a control that is done carries the flags of the control map. -/
theorem flowControl_flags [DecidableEq E] (lib : CtlLib E) (fuel : Nat) (cs : Controls CtlFn) (node : Node E) (undef : List (String × Node E))
    (ctx : CtlCtx CtlFn E) (n : Node E) (h : getControl cs node undef = .ok (some ctx)) (hr : ctlFunction lib fuel ctx = .ok (n, true)) :
    ∃ r, flowControl lib fuel cs node undef = .ok r ∧ r.val = n.val ∧ r.flags = n.flags.add node.flags := by
  refine ⟨n.addFlags node.flags, ?_, rfl, rfl⟩
  rw [flowControl, h]
  simp only [hr]
  rfl

/-! ### examples -/

/-- the hypotheses are met by `{<<if: true, <<then: 1, <<else: 2}` with the default registry, the control yields 1 -/
def exIf : Node Unit :=
  Node.new (.map [("<<if", Node.new (.bool true) ""), ("<<then", Node.new (.int 1) ""), ("<<else", Node.new (.int 2) "")]) ""

def exLib : CtlLib Unit where
  call := fun _ v => .value (match v with | .int i => .bool (i == 5) | _ => .bool false)
  subst := fun t _ => (t.val, {}, true)

example : (match flowControl exLib 10 defaultControls exIf [] with
    | .ok n => (match n.val with | .int i => i == 1 | _ => false)
    | _ => false) = true := by decide +kernel

example : (match getControl defaultControls exIf [] with
    | .ok (some ctx) => ctx.control.name == "if" && ctx.options.length == 2 && ctx.fields.length == 0 && controlDone ctx
    | _ => false) = true := by decide +kernel

/-- `{<<switch: 5, <<cases: [{case: 4, value: 1}, {match: lambda, value: 2}], <<default: 3}`: the second case applies -/
def exSwitch : Node Unit :=
  Node.new (.map [("<<switch", Node.new (.int 5) ""), ("<<default", Node.new (.int 3) ""),
    ("<<cases", Node.new (.list [
      Node.new (.map [("case", Node.new (.int 4) ""), ("value", Node.new (.int 1) "")]) "",
      Node.new (.map [("value", Node.new (.int 2) ""), ("match", Node.new (.lambda "f") "")]) ""]) "")]) ""

example : (match flowControl exLib 10 defaultControls exSwitch [] with
    | .ok n => (match n.val with | .int i => i == 2 | _ => false)
    | _ => false) = true := by decide +kernel

/-- an unknown control that is injected crashes -/
example : (match flowControl exLib 10 defaultControls (Node.new (.map [("<<foo", Node.new .nil "")]) "") [] with
    | .error .panic => true
    | _ => false) = true := by decide +kernel

end Spiff
