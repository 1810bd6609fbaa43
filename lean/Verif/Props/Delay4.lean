import Verif.Props.Delay3
/-
C56, continued: evaluation of ordinary expressions.
-/
namespace Spiff

theorem Bind.Clean.withLocal {b : Bind} (h : b.Clean) (X : EvLib) (m : List (String × Node Ex)) : (b.withLocal X m).Clean := h

/-! ### references in local scopes -/

theorem refLook_local (X : EvLib) (m : List (String × Node Ex)) (p : List String) :
    (∃ f : Nat → Look (Node Ex), ∀ b₀ : Bind, refLook (b₀.withLocal X m) p = f) ∨
    (∀ b₀ : Bind, refLook (b₀.withLocal X m) p = refLook b₀ p) := by
  cases p with
  | nil => exact .inl ⟨fun _ => .panic, fun b₀ => by funext i; simp [refLook, Bind.withLocal]⟩
  | cons name rest =>
    by_cases hn : name = ""
    · subst hn; exact .inr (fun b₀ => by funext i; simp [refLook, Bind.withLocal])
    · cases hm : (if name = "__ctx" then none else mget m name) with
      | none =>
        refine .inr (fun b₀ => ?_)
        funext i
        simp only [refLook, List.head?_cons, Option.some.injEq, hn, if_false, Bind.withLocal, List.take_succ_cons, hm]
      | some n =>
        refine .inl ⟨fun i => if rest.take i ≠ [] ∧ name = SELF then .panic else findR X.ctl true n (rest.take i), fun b₀ => ?_⟩
        funext i
        simp only [refLook, List.head?_cons, Option.some.injEq, hn, if_false, Bind.withLocal, List.take_succ_cons, hm]

theorem eval_ref (X : EvLib) (p : List String) (b : Bind) (loc : Bool) :
    eval X (Ex.ref p) b loc = refFind X.ctl (Ex.ref p) p.length (refLook b p) loc := by
  simp only [eval, evalL, sem]

theorem Ev.Le.refl (o : Ev) : Ev.Le o o := by
  cases o with
  | crash => exact .crash
  | fail => exact .fail
  | val v i =>
    cases hv : v.isExpr with
    | true => obtain ⟨e, rfl⟩ := Val.isExpr_true hv; exact .later
    | false => exact .value hv

theorem Bind.Le.withLocal {X : EvLib} {b b' : Bind} (h : Bind.Le X b b') (m : List (String × Node Ex)) :
    Bind.Le X (b.withLocal X m) (b'.withLocal X m) := by
  refine ⟨fun p => ?_, h.stub, h.path, h.source⟩
  rcases refLook_local X m p with ⟨f, hf⟩ | hf
  · rw [eval_ref, eval_ref, hf b, hf b']; exact Ev.Le.refl _
  · rw [eval_ref, eval_ref, hf b, hf b', ← eval_ref, ← eval_ref]; exact h.ref p

/-! ### arguments -/

theorem argEv_eq (X : EvLib) (b : Bind) (loc : Bool) (l : List Ex) : argEv b loc l (evalL X l) = l.map (fun e => (e, eval X e b loc)) := by
  induction l with
  | nil => rfl
  | cons a r ih =>
    simp only [argEv, evalL, List.map_cons, List.zip_cons_cons, List.cons.injEq, true_and] at ih ⊢
    exact ih

/-! ### invariants of ordinary expressions -/

/-- what holds for the evaluation of an ordinary expression -/
structure OrdEval (X : EvLib) (e : Ex) (b : Bind) : Prop where
  inv : ∀ s, (s = true → noMerge e = true) → EvInv s (eval X e b false)
  left : ∀ e' i, eval X e b false = .val (.expr e') i → Ordinary e' ∧ (srcOk e = true → noMerge e' = true)

theorem OrdEval.good {X : EvLib} {e : Ex} {b : Bind} (h : OrdEval X e b) : Good (eval X e b false) := (h.inv false (by simp)).good

theorem noExp_args {X : EvLib} {b : Bind} {l : List Ex} (h : ∀ a ∈ l, Ordinary a) (h' : ∀ a ∈ l, OrdEval X a b) :
    NoExp (l.map (fun e => (e, eval X e b false))) := by
  intro x hx
  obtain ⟨a, ha, rfl⟩ := List.mem_map.1 hx
  exact ⟨(h a ha).noExpand, fun e i he => ((h' a ha).left e i he).1.noExpand⟩

theorem inv_args {X : EvLib} {b : Bind} {l : List Ex} (h' : ∀ a ∈ l, OrdEval X a b) (s : Bool) (hs : s = true → noMergeL l = true) :
    ∀ x ∈ l.map (fun e => (e, eval X e b false)), EvInv s x.2 := by
  intro x hx
  obtain ⟨a, ha, rfl⟩ := List.mem_map.1 hx
  exact (h' a ha).inv s (fun h => (noMergeL_iff l).1 (hs h) a ha)

/-- the remaining arguments are ordinary -/
theorem left_args {X : EvLib} {b : Bind} {l es : List Ex} (h : ∀ a ∈ l, Ordinary a) (h' : ∀ a ∈ l, OrdEval X a b)
    (hl : Left (l.map (fun e => (e, eval X e b false))) es) :
    (∀ a ∈ es, Ordinary a) ∧ (noMergeL l = true → noMergeL es = true) := by
  unfold Left at hl
  induction l generalizing es with
  | nil => cases hl; simp [noMergeL]
  | cons a r ih =>
    simp only [List.map_cons] at hl
    cases hl with
    | cons hx ht =>
      rename_i y es
      obtain ⟨h1, h2⟩ := ih (fun x hx => h x (List.mem_cons_of_mem _ hx)) (fun x hx => h' x (List.mem_cons_of_mem _ hx)) ht
      have hy : Ordinary y ∧ (noMerge a = true → noMerge y = true) := by
        rcases hx with rfl | ⟨i, hi⟩
        · exact ⟨h _ (List.mem_cons_self ..), fun x => x⟩
        · obtain ⟨q1, q2⟩ := (h' a (List.mem_cons_self ..)).left _ _ hi
          exact ⟨q1, fun hn => q2 (srcOk_of_noMerge hn)⟩
      refine ⟨?_, ?_⟩
      · intro x hx
        rcases List.mem_cons.1 hx with rfl | hx
        · exact hy.1
        · exact h1 x hx
      · simp only [noMergeL, Bool.and_eq_true]
        exact fun ⟨q1, q2⟩ => ⟨hy.2 q1, h2 q2⟩

theorem srcOk_noMerge {op : Op} {l : List Ex} (h1 : ∀ m, op ≠ .merge m) (h2 : op ≠ .or) (h : srcOk (.node op l) = true) :
    noMergeL l = true := by
  have : noMerge (.node op l) = true := by
    unfold srcOk at h
    split at h
    · rename_i m hm; simp only [Ex.node.injEq] at hm; exact absurd hm.1 (h1 m)
    · rename_i hm; simp only [Ex.node.injEq] at hm; exact absurd hm.1 h2
    · exact h
  simp only [noMerge, Bool.and_eq_true] at this
  exact this.2

theorem noMerge_node {op : Op} {l : List Ex} (h1 : ∀ m, op ≠ .merge m) (h : noMergeL l = true) : noMerge (.node op l) = true := by
  simp only [noMerge, Bool.and_eq_true, h, and_true]

theorem noMerge_args {op : Op} {l : List Ex} (h : noMerge (.node op l) = true) : noMergeL l = true := by
  simp only [noMerge, Bool.and_eq_true] at h
  exact h.2

theorem noMergeL_two {a b : Ex} (h : noMergeL [a, b] = true) : noMerge a = true ∧ noMerge b = true := by
  simpa [noMergeL] using h

theorem mergeEv_noexpr {b : Bind} (hc : b.Clean) (m : MergeSpec) (e : Ex) (i : Info) : mergeEv b m ≠ .val (.expr e) i := by
  intro h
  unfold mergeEv at h
  simp only at h
  split at h
  · cases h
  · cases hs : b.stub m.path with
    | none => rw [hs] at h; cases h
    | some n =>
      rw [hs] at h
      simp only [Ev.val.injEq] at h
      have := hc _ _ hs
      rw [h.1] at this; cases this

theorem mergeEv_inv (b : Bind) (m : MergeSpec) : EvInv false (mergeEv b m) := by
  unfold mergeEv
  simp only
  split
  · exact ⟨rfl, rfl, by simp⟩
  · split
    · exact ⟨rfl, rfl, by simp⟩
    · exact ⟨rfl, rfl, by simp⟩

theorem findSteps_expr {ctl : Bool} {e : Ex} {look : Nat → Look (Node Ex)} : ∀ {n k : Nat} {last : Node Ex} {e' : Ex} {i : Info},
    findSteps ctl e look k n last = .inr (.val (.expr e') i) → e' = e := by
  intro n
  induction n with
  | zero => intro k last e' i h; simp [findSteps] at h
  | succ n ih =>
    intro k last e' i h
    simp only [findSteps] at h
    split at h
    · cases h
    · simp [Info.error] at h
    · split at h
      · exact ih h
      · simp only [Sum.inr.injEq, Ev.val.injEq, Val.expr.injEq] at h; exact h.1.symm

theorem refFind_left {ctl : Bool} {e : Ex} {len : Nat} {look : Nat → Look (Node Ex)} {e' : Ex} {i : Info}
    (h : refFind ctl e len look false = .val (.expr e') i) : e' = e := by
  unfold refFind at h
  split at h
  · cases h
  · split at h
    · rename_i o ho; subst h; exact findSteps_expr ho
    · rename_i step hs
      unfold refResult at h
      split at h
      · simp only [Ev.val.injEq, Val.expr.injEq] at h; exact h.1.symm
      · rename_i hc
        simp only [Ev.val.injEq] at h
        simp [h.1, completeV] at hc

theorem litVal_noexpr (l : Lit) (e : Ex) : litVal l ≠ .expr e := by cases l <;> simp [litVal]

theorem ordinary_eval {X : EvLib} (hX : X.Plain) {e : Ex} (h : Ordinary e) : ∀ b : Bind, b.Clean → OrdEval X e b := by
  induction h with
  | lit l =>
    intro b hb
    refine ⟨fun s _ => ?_, fun e' i he => ?_⟩
    · simp only [eval, evalL, sem]; exact Info.inv_default s
    · simp only [eval, evalL, sem, Ev.val.injEq] at he; exact absurd he.1 (litVal_noexpr _ _)
  | ref p =>
    intro b hb
    refine ⟨fun s _ => ?_, fun e' i he => ?_⟩
    · rw [eval_ref]; exact refFind_inv _ _ _ _ _
    · rw [eval_ref] at he; rw [refFind_left he]; exact ⟨.ref p, fun _ => rfl⟩
  | merge m =>
    intro b hb
    refine ⟨fun s hs => ?_, fun e' i he => ?_⟩
    · cases s with
      | true => simp [noMerge] at hs
      | false => simp only [eval, evalL, sem]; exact mergeEv_inv b m
    · simp only [eval, evalL, sem] at he; exact absurd he (mergeEv_noexpr hb _ _ _)
  | @group a ha ih =>
    intro b hb
    have ih := ih b hb
    have h0 : eval X (.node .group [a]) b false = eval X a b false := by simp only [eval, evalL, sem]
    refine ⟨fun s hs => ?_, fun e' i he => ?_⟩
    · rw [h0]; exact ih.inv s (fun h => by have := noMerge_args (hs h); simpa [noMergeL] using this)
    · rw [h0] at he
      obtain ⟨q1, q2⟩ := ih.left _ _ he
      refine ⟨q1, fun hs => q2 (srcOk_of_noMerge ?_)⟩
      have := srcOk_noMerge (by simp) (by simp) hs
      simpa [noMergeL] using this
  | @prefer a ha ih =>
    intro b hb
    have ih := ih b hb
    refine ⟨fun s hs => ?_, fun e' i he => ?_⟩
    · have := ih.inv s (fun h => by have := noMerge_args (hs h); simpa [noMergeL] using this)
      simp only [eval, evalL, sem]
      split <;> rename_i heq <;> rw [heq] at this
      · exact ⟨this.1, this.2.1, this.2.2⟩
      · exact ⟨this.1, this.2.1, this.2.2⟩
      · trivial
    · simp only [eval, evalL, sem] at he
      split at he
      · rename_i v j heq
        simp only [Ev.val.injEq] at he
        rw [he.1] at heq
        obtain ⟨q1, q2⟩ := ih.left _ _ heq
        refine ⟨q1, fun hs => q2 (srcOk_of_noMerge ?_)⟩
        have := srcOk_noMerge (by simp) (by simp) hs
        simpa [noMergeL] using this
      · cases he
      · cases he
  | @not a ha ih =>
    intro b hb
    have ih := ih b hb
    have h0 : eval X (.node .not [a]) b false = notEv a (eval X a b false) := by simp only [eval, evalL, sem]
    refine ⟨fun s hs => ?_, fun e' i he => ?_⟩
    · rw [h0]; exact notEv_inv _ (ih.inv s (fun h => by have := noMerge_args (hs h); simpa [noMergeL] using this))
    · rw [h0] at he
      obtain ⟨x, rfl, k, hk⟩ := notEv_left ha.noExpand he
      obtain ⟨q1, q2⟩ := ih.left _ _ hk
      refine ⟨.not q1, fun hs => noMerge_node (by simp) ?_⟩
      have := srcOk_noMerge (by simp) (by simp) hs
      simp only [noMergeL, Bool.and_true] at this ⊢
      exact q2 (srcOk_of_noMerge this)
  | @bin o a c hsrc ha hc iha ihc =>
    intro b hb
    have iha := iha b hb
    have ihc := ihc b hb
    have h0 : eval X (Ex.bin o a c) b false = binEv X o a c (eval X a b false) (eval X c b false) := by simp only [eval, evalL, sem]
    refine ⟨fun s hs => ?_, fun e' i he => ?_⟩
    · rw [h0]
      exact binEv_inv X o a c (iha.inv s (fun h => (noMergeL_two (noMerge_args (hs h))).1))
        (ihc.inv s (fun h => (noMergeL_two (noMerge_args (hs h))).2))
    · rw [h0] at he
      obtain ⟨x, y, rfl, hx, hy⟩ := binEv_left ha.noExpand hc.noExpand he
      have qx : Ordinary x ∧ (srcOk a = true → srcOk x = true) ∧ (noMerge a = true → noMerge x = true) := by
        rcases hx with rfl | ⟨k, hk⟩
        · exact ⟨ha, fun h => h, fun h => h⟩
        · obtain ⟨q1, q2⟩ := iha.left _ _ hk
          exact ⟨q1, fun h => srcOk_of_noMerge (q2 h), fun h => q2 (srcOk_of_noMerge h)⟩
      have qy : Ordinary y ∧ (noMerge c = true → noMerge y = true) := by
        rcases hy with rfl | ⟨k, hk⟩
        · exact ⟨hc, fun h => h⟩
        · obtain ⟨q1, q2⟩ := ihc.left _ _ hk
          exact ⟨q1, fun h => q2 (srcOk_of_noMerge h)⟩
      refine ⟨.bin (fun h => qx.2.1 (hsrc h)) qx.1 qy.1, fun hs => noMerge_node (by simp) ?_⟩
      obtain ⟨h1, h2⟩ := noMergeL_two (srcOk_noMerge (by simp) (by simp) hs)
      simp [noMergeL, qx.2.2 h1, qy.2 h2]
  | @land a c ha hc iha ihc =>
    intro b hb
    have iha := iha b hb
    have ihc := ihc b hb
    have h0 : eval X (.node .land [a, c]) b false = logEv (.node .land [a, c]) logAnd (eval X a b false) (eval X c b false) := by
      simp only [eval, evalL, sem]
    refine ⟨fun s hs => ?_, fun e' i he => ?_⟩
    · rw [h0]
      exact logEv_inv _ _ (iha.inv s (fun h => (noMergeL_two (noMerge_args (hs h))).1))
        (ihc.inv s (fun h => (noMergeL_two (noMerge_args (hs h))).2))
    · rw [h0] at he
      rw [logEv_left logAnd_noexpr he]
      exact ⟨.land ha hc, fun hs => noMerge_node (by simp) (srcOk_noMerge (by simp) (by simp) hs)⟩
  | @lor a c ha hc iha ihc =>
    intro b hb
    have iha := iha b hb
    have ihc := ihc b hb
    have h0 : eval X (.node .lor [a, c]) b false = logEv (.node .lor [a, c]) logOr (eval X a b false) (eval X c b false) := by
      simp only [eval, evalL, sem]
    refine ⟨fun s hs => ?_, fun e' i he => ?_⟩
    · rw [h0]
      exact logEv_inv _ _ (iha.inv s (fun h => (noMergeL_two (noMerge_args (hs h))).1))
        (ihc.inv s (fun h => (noMergeL_two (noMerge_args (hs h))).2))
    · rw [h0] at he
      rw [logEv_left logOr_noexpr he]
      exact ⟨.lor ha hc, fun hs => noMerge_node (by simp) (srcOk_noMerge (by simp) (by simp) hs)⟩
  | @or a c ha hc iha ihc =>
    intro b hb
    have iha := iha b hb
    have ihc := ihc b hb
    have h0 : eval X (Ex.or a c) b false = orEv (Ex.or a c) (eval X a b false) (eval X c b false) := by
      simp only [eval, evalL, sem]
    refine ⟨fun s hs => ?_, fun e' i he => ?_⟩
    · rw [h0]
      exact orEv_inv _ (iha.inv s (fun h => (noMergeL_two (noMerge_args (hs h))).1))
        (ihc.inv s (fun h => (noMergeL_two (noMerge_args (hs h))).2))
    · rw [h0] at he
      have hsrc : srcOk (Ex.or a c) = true → (noMerge a = true ∨ ∃ m, a = Ex.merge m) ∧ noMerge c = true := by
        intro h
        unfold srcOk at h
        split at h
        · rename_i hm; simp at hm
        · rename_i m hm; simp only [Ex.node.injEq, List.cons.injEq, and_true, true_and] at hm; exact ⟨.inr ⟨_, hm.1⟩, hm.2 ▸ h⟩
        · obtain ⟨h1, h2⟩ := noMergeL_two (noMerge_args h); exact ⟨.inl h1, h2⟩
      rcases orEv_left iha.good he with ⟨rfl, x, k, hk⟩ | ⟨_, k, hk⟩
      · refine ⟨.or ha hc, fun hs => ?_⟩
        obtain ⟨h1 | ⟨m, rfl⟩, h2⟩ := hsrc hs
        · exact noMerge_node (by simp) (by simp [noMergeL, h1, h2])
        · simp only [eval, evalL, sem] at hk; exact absurd hk (mergeEv_noexpr hb _ _ _)
      · obtain ⟨q1, q2⟩ := ihc.left _ _ hk
        exact ⟨q1, fun hs => q2 (srcOk_of_noMerge (hsrc hs).2)⟩
  | @cond c t f hc ht hf ihc iht ihf =>
    intro b hb
    have ihc := ihc b hb
    have iht := iht b hb
    have ihf := ihf b hb
    have h0 : eval X (Ex.cond c t f) b false = condEv c t f (eval X c b false) (eval X t b false) (eval X f b false) := by
      simp only [eval, evalL, sem]
    have h3 : ∀ {a b c : Ex}, noMergeL [a, b, c] = true → noMerge a = true ∧ noMerge b = true ∧ noMerge c = true := by
      intro a b c h; simpa [noMergeL] using h
    refine ⟨fun s hs => ?_, fun e' i he => ?_⟩
    · rw [h0]
      exact condEv_inv _ _ _ (ihc.inv s (fun h => (h3 (noMerge_args (hs h))).1)) (iht.inv s (fun h => (h3 (noMerge_args (hs h))).2.1))
        (ihf.inv s (fun h => (h3 (noMerge_args (hs h))).2.2))
    · rw [h0] at he
      rcases condEv_left hc.noExpand he with ⟨x, k, rfl, hk⟩ | ⟨v, k, _, _, _, j, hj⟩ | ⟨v, k, _, _, _, j, hj⟩
      · obtain ⟨q1, q2⟩ := ihc.left _ _ hk
        refine ⟨.cond q1 ht hf, fun hs => noMerge_node (by simp) ?_⟩
        obtain ⟨h1, h2, h4⟩ := h3 (srcOk_noMerge (by simp) (by simp) hs)
        simp [noMergeL, h2, h4, q2 (srcOk_of_noMerge h1)]
      · obtain ⟨q1, q2⟩ := iht.left _ _ hj
        exact ⟨q1, fun hs => q2 (srcOk_of_noMerge (h3 (srcOk_noMerge (by simp) (by simp) hs)).2.1)⟩
      · obtain ⟨q1, q2⟩ := ihf.left _ _ hj
        exact ⟨q1, fun hs => q2 (srcOk_of_noMerge (h3 (srcOk_noMerge (by simp) (by simp) hs)).2.2)⟩
  | @list l hl ih =>
    intro b hb
    have ih := fun a ha => ih a ha b hb
    have h0 : eval X (Ex.list l) b false = listEv b (l.map (fun e => (e, eval X e b false))) := by
      simp only [eval, sem]; rw [argEv_eq]
    refine ⟨fun s hs => ?_, fun e' i he => ?_⟩
    · rw [h0]; exact listEv_inv b (noExp_args hl ih) (inv_args ih s (fun h => noMerge_args (hs h)))
    · rw [h0] at he
      obtain ⟨es, rfl, hes⟩ := listEv_left (noExp_args hl ih) he
      obtain ⟨q1, q2⟩ := left_args hl ih hes
      exact ⟨.list q1, fun hs => noMerge_node (by simp) (q2 (srcOk_noMerge (by simp) (by simp) hs))⟩
  | @map l hl ih =>
    intro b hb
    have ih := fun a ha => ih a ha b hb
    have h0 : eval X (.node .map l) b false = mapEv (.node .map l) b (l.map (fun e => (e, eval X e b false))) := by
      simp only [eval, sem]; rw [argEv_eq]
    refine ⟨fun s hs => ?_, fun e' i he => ?_⟩
    · rw [h0]; exact mapEv_inv _ b (inv_args ih s (fun h => noMerge_args (hs h)))
    · rw [h0] at he
      rw [mapEv_left he]
      exact ⟨.map hl, fun hs => noMerge_node (by simp) (srcOk_noMerge (by simp) (by simp) hs)⟩
  | @scope a l ha hl iha ih =>
    intro b hb
    have ih := fun a ha => ih a ha b hb
    have h0 : eval X (.node .scope (a :: l)) b false =
        scopeEv X (.node .scope (a :: l)) b (l.map (fun e => (e, eval X e b false))) (fun b' => eval X a b' false) := by
      simp only [eval, evalL, sem]; rw [argEv_eq]
    refine ⟨fun s hs => ?_, fun e' i he => ?_⟩
    · rw [h0]
      refine scopeEv_inv X _ b (inv_args ih s (fun h => ?_)) _ (fun m => (iha (b.withLocal X m) (hb.withLocal X m)).inv s (fun h => ?_))
      · have := noMerge_args (hs h); simp only [noMergeL, Bool.and_eq_true] at this; exact this.2
      · have := noMerge_args (hs h); simp only [noMergeL, Bool.and_eq_true] at this; exact this.1
    · rw [h0] at he
      rw [scopeEv_left he]
      exact ⟨.scope ha hl, fun hs => noMerge_node (by simp) (srcOk_noMerge (by simp) (by simp) hs)⟩
  | @range s t hs ht ihs iht =>
    intro b hb
    have ihs := ihs b hb
    have iht := iht b hb
    have h0 : eval X (.node .range [s, t]) b false = rangeEv (.node .range [s, t]) s t b (eval X s b false) (eval X t b false) := by
      simp only [eval, evalL, sem]
    refine ⟨fun q hq => ?_, fun e' i he => ?_⟩
    · rw [h0]
      exact rangeEv_inv _ _ _ b (ihs.inv q (fun h => (noMergeL_two (noMerge_args (hq h))).1))
        (iht.inv q (fun h => (noMergeL_two (noMerge_args (hq h))).2))
    · rw [h0] at he
      rw [rangeEv_left he]
      exact ⟨.range hs ht, fun hs => noMerge_node (by simp) (srcOk_noMerge (by simp) (by simp) hs)⟩
  | @slice r s t hr hs ht ihr ihs iht =>
    intro b hb
    have ihr := ihr b hb
    have h0 : eval X (.node (.slice true true) [r, s, t]) b false =
        sliceEv X (.node (.slice true true) [r, s, t]) s t (eval X r b false) (some (eval X s b false)) (some (eval X t b false)) false := by
      simp only [eval, evalL, sem]
    refine ⟨fun q hq => ?_, fun e' i he => ?_⟩
    · rw [h0]
      refine sliceEv_inv X _ _ _ _ _ (ihr.inv q (fun h => ?_))
      have := noMerge_args (hq h); simp only [noMergeL, Bool.and_eq_true] at this; exact this.1
    · rw [h0] at he
      rw [sliceEv_left he]
      exact ⟨.slice hr hs ht, fun hs => noMerge_node (by simp) (srcOk_noMerge (by simp) (by simp) hs)⟩
  | @sliceFrom r s hr hs ihr ihs =>
    intro b hb
    have ihr := ihr b hb
    have h0 : eval X (.node (.slice true false) [r, s]) b false =
        sliceEv X (.node (.slice true false) [r, s]) s s (eval X r b false) (some (eval X s b false)) none false := by
      simp only [eval, evalL, sem]
    refine ⟨fun q hq => ?_, fun e' i he => ?_⟩
    · rw [h0]
      refine sliceEv_inv X _ _ _ _ _ (ihr.inv q (fun h => ?_))
      have := noMerge_args (hq h); simp only [noMergeL, Bool.and_eq_true] at this; exact this.1
    · rw [h0] at he
      rw [sliceEv_left he]
      exact ⟨.sliceFrom hr hs, fun hs => noMerge_node (by simp) (srcOk_noMerge (by simp) (by simp) hs)⟩
  | @sliceTo r t hr ht ihr iht =>
    intro b hb
    have ihr := ihr b hb
    have h0 : eval X (.node (.slice false true) [r, t]) b false =
        sliceEv X (.node (.slice false true) [r, t]) t t (eval X r b false) none (some (eval X t b false)) false := by
      simp only [eval, evalL, sem]
    refine ⟨fun q hq => ?_, fun e' i he => ?_⟩
    · rw [h0]
      refine sliceEv_inv X _ _ _ _ _ (ihr.inv q (fun h => ?_))
      have := noMerge_args (hq h); simp only [noMergeL, Bool.and_eq_true] at this; exact this.1
    · rw [h0] at he
      rw [sliceEv_left he]
      exact ⟨.sliceTo hr ht, fun hs => noMerge_node (by simp) (srcOk_noMerge (by simp) (by simp) hs)⟩
  | @qual p r hr ihr =>
    intro b hb
    have ihr := ihr b hb
    have h0 : eval X (.node (.qual p) [r]) b false = qualEv X (.node (.qual p) [r]) p (eval X r b false) false := by
      simp only [eval, evalL, sem]
    refine ⟨fun q hq => ?_, fun e' i he => ?_⟩
    · rw [h0]
      refine qualEv_inv X _ _ (ihr.inv q (fun h => ?_))
      have := noMerge_args (hq h); simpa [noMergeL] using this
    · rw [h0] at he
      rcases qualEv_left ihr.good he with rfl | ⟨x, k, rfl, hk⟩
      · exact ⟨.qual hr, fun hs => noMerge_node (by simp) (srcOk_noMerge (by simp) (by simp) hs)⟩
      · obtain ⟨q1, q2⟩ := ihr.left _ _ hk
        refine ⟨.qual q1, fun hs => noMerge_node (by simp) ?_⟩
        have := srcOk_noMerge (by simp) (by simp) hs
        simp only [noMergeL, Bool.and_true] at this ⊢
        exact q2 (srcOk_of_noMerge this)
  | @call fn l hl ih =>
    intro b hb
    have ih := fun a ha => ih a ha b hb
    have h0 : eval X (Ex.call fn l) b false = callEv X b fn (l.map (fun e => (e, eval X e b false))) := by
      simp only [eval, sem]; rw [argEv_eq]
    refine ⟨fun s hs => ?_, fun e' i he => ?_⟩
    · rw [h0]; exact callEv_inv X hX b fn (noExp_args hl ih) (inv_args ih s (fun h => noMerge_args (hs h)))
    · rw [h0] at he
      obtain ⟨es, rfl, hes⟩ := callEv_left (noExp_args hl ih) he
      obtain ⟨q1, q2⟩ := left_args hl ih hes
      exact ⟨.call q1, fun hs => noMerge_node (by simp) (q2 (srcOk_noMerge (by simp) (by simp) hs))⟩

end Spiff
