import Verif.Props.Delay5
/-
C56: delayed evaluation, the results.
-/
namespace Spiff

/-- C56: a result obtained while other parts of the document are still undecided is the result obtained later: a value found in an
earlier pass is the value of the expression in every later state, and a failure remains a failure. -/
theorem early_result_final {X : EvLib} (hX : X.Plain) {e : Ex} (he : Ordinary e) {b b' : Bind} (hb : b.Clean) (hl : Bind.Le X b b') :
    Ev.Le (eval X e b false) (eval X e b' false) :=
  (eval_mono_rel hX he b b' hb hl).le

/-- C56: the remaining expression stands for the original one: its evaluation in a later state agrees with the evaluation of the
original expression in that state (unless that one crashes). -/
theorem residual_equivalent {X : EvLib} (hX : X.Plain) {e e' : Ex} {i : Info} (he : Ordinary e) {b b' : Bind} (hb : b.Clean) (hl : Bind.Le X b b')
    (h : eval X e b false = .val (.expr e') i) :
    eval X e b' false = .crash ∨ Ev.Agree (eval X e' b' false) (eval X e b' false) := by
  have hb' : b'.Clean := by intro p n; rw [hl.stub]; exact hb p n
  have h1 := residual_rel hX he b b' hb hl e' i h
  have g1 := (ordinary_eval hX ((ordinary_eval hX he b hb).left _ _ h).1 b' hb').good
  have g2 := (ordinary_eval hX he b' hb').good
  generalize eval X e' b' false = o at h1 g1
  generalize eval X e b' false = o' at h1 g2
  cases h1 with
  | value hv => exact .inr (.value (by intro e he; rw [he] at hv; cases hv) (g1.1.trans g2.1.symm))
  | later => exact .inr (.later (g1.1.trans g2.1.symm))
  | undecided h => cases h
  | fail => exact .inr .fail
  | crash => exact .inl rfl
  | crashed h => cases h

theorem Bind.Le.refl (X : EvLib) (b : Bind) : Bind.Le X b b := ⟨fun _ => Ev.Le.refl _, rfl, rfl, rfl⟩

theorem Bind.last_cons (b b' : Bind) (r : List Bind) : Bind.last b (b' :: r) = Bind.last b' r := by
  cases r with
  | nil => rfl
  | cons c r => simp only [Bind.last, List.getLast?_cons_cons]; cases h : (c :: r).getLast? <;> simp at h ⊢

theorem Bind.last_mem (b : Bind) (bs : List Bind) : Bind.last b bs ∈ b :: bs := by
  unfold Bind.last
  cases h : bs.getLast? with
  | none => exact List.mem_cons_self ..
  | some x => exact List.mem_cons_of_mem _ (List.mem_of_getLast? h)

theorem Rel.trans {o1 o2 o3 : Ev} (h : Rel false o1 o2) (h' : Rel false o2 o3) : Rel false o1 o3 := by
  cases h with
  | value hv =>
    cases h' with
    | value _ => exact .value hv
    | later => cases hv
    | undecided h => cases h
    | crash => exact .crash
  | later =>
    cases h' with
    | value h => cases h
    | later => exact .later
    | undecided h => cases h
    | crash => exact .crash
  | undecided h => cases h
  | fail =>
    cases h' with
    | fail => exact .fail
    | crash => exact .crash
  | crash =>
    cases h' with
    | crash => exact .crash
    | crashed h => cases h
  | crashed h => cases h

theorem evalPasses_rel {X : EvLib} (hX : X.Plain) {e : Ex} (he : Ordinary e) : ∀ (bs : List Bind) (b : Bind) (f : Ex), Ordinary f →
    b.Clean → Bind.chain X b bs → (∀ b' ∈ b :: bs, eval X e b' false ≠ .crash) →
    (∀ b' ∈ b :: bs, Rel false (eval X f b' false) (eval X e b' false)) →
    Rel false (evalPasses X f b bs) (eval X e (Bind.last b bs) false) := by
  intro bs
  induction bs with
  | nil => intro b f _ _ _ _ hr; exact hr b (List.mem_cons_self ..)
  | cons c r ih =>
    intro b f hf hb hc hn hr
    have hle : ∀ x ∈ c :: r, Bind.Le X b x := (List.pairwise_cons.1 hc).1
    have hbc : c.Clean := by intro p n; rw [(hle c (List.mem_cons_self ..)).stub]; exact hb p n
    rw [Bind.last_cons]
    have stay : ∀ o, eval X f b false = o → (∀ e' i, o ≠ .val (.expr e') i) → Rel false o (eval X e (Bind.last c r) false) := by
      intro o ho hx
      have h0 := hr b (List.mem_cons_self ..)
      have h1 := eval_mono_rel hX he b _ hb (hle _ (Bind.last_mem c r))
      rw [ho] at h0
      have hcr := hn b (List.mem_cons_self ..)
      generalize eval X e b false = o1 at h0 h1 hcr
      generalize eval X e (Bind.last c r) false = o2 at h1
      cases h0 with
      | value hv =>
        cases h1 with
        | value _ => exact .value hv
        | later => cases hv
        | undecided => cases hv
        | crash => exact .crash
      | later => exact absurd rfl (hx _ _)
      | undecided h => cases h
      | fail =>
        cases h1 with
        | fail => exact .fail
        | crash => exact .crash
      | crash => exact absurd rfl hcr
      | crashed h => cases h
    cases ho : eval X f b false with
    | crash => have := stay .crash ho (by simp); simpa only [evalPasses, ho] using this
    | fail i => have := stay (.fail i) ho (by simp); simpa only [evalPasses, ho] using this
    | val v i =>
      cases hv : v.isExpr with
      | false =>
        have hp : evalPasses X f b (c :: r) = .val v i := by
          simp only [evalPasses, ho]
          split
          · rename_i heq; simp only [Ev.val.injEq] at heq; rw [heq.1] at hv; cases hv
          · rfl
        rw [hp]
        exact stay _ ho (by intro e' i' h; simp only [Ev.val.injEq] at h; rw [h.1] at hv; cases hv)
      | true =>
        obtain ⟨f', rfl⟩ := Val.isExpr_true hv
        simp only [evalPasses, ho]
        have hf' := ((ordinary_eval hX hf b hb).left _ _ ho).1
        exact ih c f' hf' hbc (List.pairwise_cons.1 hc).2 (fun b' hb' => hn b' (List.mem_cons_of_mem _ hb'))
          (fun b' hb' => (residual_rel hX hf b b' hb (hle b' hb') _ _ ho).trans (hr b' (List.mem_cons_of_mem _ hb')))

theorem evalPasses_good {X : EvLib} (hX : X.Plain) : ∀ (bs : List Bind) (b : Bind) (f : Ex), Ordinary f →
    b.Clean → Bind.chain X b bs → Good (evalPasses X f b bs) := by
  intro bs
  induction bs with
  | nil => intro b f hf hb _; exact (ordinary_eval hX hf b hb).good
  | cons c r ih =>
    intro b f hf hb hc
    have hle : ∀ x ∈ c :: r, Bind.Le X b x := (List.pairwise_cons.1 hc).1
    have hbc : c.Clean := by intro p n; rw [(hle c (List.mem_cons_self ..)).stub]; exact hb p n
    simp only [evalPasses]
    have := ordinary_eval hX hf b hb
    split
    · rename_i e' i heq; exact ih c e' (this.left _ _ heq).1 hbc (List.pairwise_cons.1 hc).2
    · exact this.good

/-- C56: the number of passes does not matter: evaluating an expression in several passes, where the remaining expression of one pass
is evaluated in the next one with more of the document being decided, yields the same value as evaluating it once at the end (or
both fail, or both are left for later), if the expression does not crash in one of the states. -/
theorem delayed_evaluation {X : EvLib} (hX : X.Plain) {e : Ex} (he : Ordinary e) (b : Bind) (bs : List Bind) (hb : b.Clean)
    (hc : Bind.chain X b bs) (hn : ∀ b' ∈ b :: bs, eval X e b' false ≠ .crash) :
    Ev.Agree (evalPasses X e b bs) (eval X e (Bind.last b bs) false) := by
  have h1 := evalPasses_rel hX he bs b e he hb hc hn (fun _ _ => Rel.refl _ _)
  have h2 := evalPasses_good hX bs b e he hb hc
  have hl := Bind.last_mem b bs
  have hcl : (Bind.last b bs).Clean := by
    rcases List.mem_cons.1 hl with h | h
    · rw [h]; exact hb
    · intro p n; rw [((List.pairwise_cons.1 hc).1 _ h).stub]; exact hb p n
  have h3 := (ordinary_eval hX he _ hcl).good
  have h4 := hn _ hl
  generalize evalPasses X e b bs = o at h1 h2
  generalize eval X e (Bind.last b bs) false = o' at h1 h3 h4
  cases h1 with
  | value hv => exact .value (by intro e he; rw [he] at hv; cases hv) (h2.1.trans h3.1.symm)
  | later => exact .later (h2.1.trans h3.1.symm)
  | undecided h => cases h
  | fail => exact .fail
  | crash => exact absurd rfl h4
  | crashed h => cases h

/-! ### something is left only because of an undecided reference -/

/-- an expression is left -/
def Pend (o : Ev) : Prop := ∃ e i, o = .val (.expr e) i

theorem resolve_pend' {e e' : Ex} {o : Ev} {i : Option Info} {j : Info} (h : resolve e i o = .pend e' j) : Pend o := by
  cases o with
  | crash => cases h
  | fail k => cases h
  | val v k =>
    cases hv : v.isExpr with
    | true => obtain ⟨x, rfl⟩ := Val.isExpr_true hv; exact ⟨x, k, rfl⟩
    | false => rw [resolve_val _ _ _ _ hv] at h; cases h

theorem binEv_pend {X : EvLib} {op : BinOp} {ea eb : Ex} {oa ob : Ev} (h : Pend (binEv X op ea eb oa ob)) : Pend oa ∨ Pend ob := by
  obtain ⟨e', i, h⟩ := h
  unfold binEv at h
  cases hr : resolve ea none oa with
  | crash => rw [hr] at h; cases h
  | fail => rw [hr] at h; cases h
  | pend => exact .inl (resolve_pend' hr)
  | done va k =>
    rw [hr] at h
    simp only at h
    split at h
    · cases h
    · cases hr2 : resolve eb (some k) ob with
      | crash => rw [hr2] at h; cases h
      | fail => rw [hr2] at h; cases h
      | pend => exact .inr (resolve_pend' hr2)
      | done vb j =>
        rw [hr2] at h
        simp only at h
        split at h
        · cases h
        · exact absurd h (binVals_noexpr _ _ _ _ _ _ _)

theorem notEv_pend {ea : Ex} {oa : Ev} (h : Pend (notEv ea oa)) : Pend oa := by
  obtain ⟨e', i, h⟩ := h
  unfold notEv at h
  cases hr : resolve ea none oa with
  | crash => rw [hr] at h; cases h
  | fail => rw [hr] at h; cases h
  | pend => exact resolve_pend' hr
  | done va k => rw [hr] at h; simp at h

theorem logEv_pend {e : Ex} {f : Val Ex → Option (Val Ex) → Out (Val Ex)} (hf : ∀ a b, NoExprOut (f a b)) {oa ob : Ev}
    (h : Pend (logEv e f oa ob)) : Pend oa ∨ Pend ob := by
  obtain ⟨e', i, h⟩ := h
  unfold logEv at h
  cases oa with
  | crash => cases h
  | fail => cases h
  | val va k =>
    simp only at h
    split at h
    · rename_i hv; obtain ⟨x, rfl⟩ := Val.isExpr_true hv; exact .inl ⟨x, k, rfl⟩
    · cases ob with
      | crash => cases h
      | fail j => exact absurd h (outEv_noexpr (hf _ _) _ _)
      | val vb j =>
        simp only at h
        split at h
        · rename_i hv; obtain ⟨x, rfl⟩ := Val.isExpr_true hv; exact .inr ⟨x, j, rfl⟩
        · exact absurd h (outEv_noexpr (hf _ _) _ _)

theorem condEv_pend {ec et ef : Ex} {c t f : Ev} (h : Pend (condEv ec et ef c t f)) : Pend c ∨ Pend t ∨ Pend f := by
  obtain ⟨e', i, h⟩ := h
  unfold condEv at h
  cases hr : resolve ec none c with
  | crash => rw [hr] at h; cases h
  | fail => rw [hr] at h; cases h
  | pend => exact .inl (resolve_pend' hr)
  | done v k =>
    rw [hr] at h
    simp only at h
    cases hb : toBool v <;> simp only [hb, if_true, Bool.false_eq_true, if_false] at h
    · cases f with
      | crash => cases h
      | fail => cases h
      | val w j => simp only [Ev.val.injEq] at h; exact .inr (.inr ⟨e', j, by rw [h.1]⟩)
    · cases t with
      | crash => cases h
      | fail => cases h
      | val w j => simp only [Ev.val.injEq] at h; exact .inr (.inl ⟨e', j, by rw [h.1]⟩)

theorem resolveArgs_pend : ∀ {A : List (Ex × Ev)} {q : Option Info} {vs es i}, resolveArgs q A = .ok vs es false i → ∃ x ∈ A, Pend x.2 := by
  intro A
  induction A with
  | nil => intro q vs es i h; simp [resolveArgs] at h
  | cons x t ih =>
    obtain ⟨e, o⟩ := x
    intro q vs es i h
    simp only [resolveArgs] at h
    cases hr : resolve e q o with
    | crash => rw [hr] at h; cases h
    | fail => rw [hr] at h; cases h
    | pend => exact ⟨_, List.mem_cons_self .., resolve_pend' hr⟩
    | done v k =>
      rw [hr] at h
      simp only at h
      cases hc : resolveArgs (some k) t with
      | crash => rw [hc] at h; cases h
      | fail => rw [hc] at h; cases h
      | ok vs' es' r' i' =>
        rw [hc] at h
        simp only [ResL.cons, ResL.ok.injEq, Bool.true_and] at h
        obtain ⟨_, _, rfl, _⟩ := h
        obtain ⟨x, hx, hp⟩ := ih hc
        exact ⟨x, List.mem_cons_of_mem _ hx, hp⟩

theorem resolveList_pend {A : List (Ex × Ev)} {vs es i} (h : resolveList A = .ok vs es false i) : ∃ x ∈ A, Pend x.2 := by
  unfold resolveList at h
  cases hr : resolveArgs none A with
  | crash => rw [hr] at h; cases h
  | fail => rw [hr] at h; cases h
  | ok vs' es' r i' =>
    rw [hr] at h
    simp only at h
    split at h
    · simp only [ResL.ok.injEq] at h
      obtain ⟨_, _, rfl, _⟩ := h
      exact resolveArgs_pend hr
    · cases h

theorem listEv_pend {b : Bind} {A : List (Ex × Ev)} (h : Pend (listEv b A)) : ∃ x ∈ A, Pend x.2 := by
  obtain ⟨e', i, h⟩ := h
  unfold listEv at h
  cases hr : resolveList A with
  | crash => rw [hr] at h; cases h
  | fail => rw [hr] at h; cases h
  | ok vs es r i =>
    rw [hr] at h
    cases r with
    | false => exact resolveList_pend hr
    | true => simp at h

theorem callEv_pend {X : EvLib} (hX : X.Final) {b : Bind} {fn : String} {A : List (Ex × Ev)} (h : Pend (callEv X b fn A)) :
    ∃ x ∈ A, Pend x.2 := by
  obtain ⟨e', i, h⟩ := h
  unfold callEv at h
  cases hr : resolveList A with
  | crash => rw [hr] at h; cases h
  | fail => rw [hr] at h; cases h
  | ok vs es r i =>
    rw [hr] at h
    cases r with
    | false => exact resolveList_pend hr
    | true =>
      exfalso
      simp only [if_true] at h
      cases hf : X.fn fn with
      | none => rw [hf] at h; simp [Info.error] at h
      | some f =>
        rw [hf] at h
        simp only at h
        split at h
        · simp at h
        · cases ho : f vs b.source with
          | ok p =>
            obtain ⟨v, sub⟩ := p
            rw [ho] at h
            simp only [hX fn f vs b.source v sub hf ho, Bool.false_eq_true, if_false, Ev.val.injEq] at h
            have := hX fn f vs b.source v sub hf ho
            rw [h.1] at this; cases this
          | err => rw [ho] at h; cases h
          | undet => rw [ho] at h; cases h
          | panic => rw [ho] at h; cases h

theorem assignEv_pend {b : Bind} : ∀ (n : Nat) (A : List (Ex × Ev)), A.length ≤ n → ∀ acc i, assignEv b A acc = .pend i →
    ∃ x ∈ A, Pend x.2 := by
  intro n
  induction n with
  | zero =>
    intro A hl acc i h
    cases A with
    | nil => simp [assignEv] at h
    | cons => simp at hl
  | succ n ih =>
    intro A hl acc i h
    match A with
    | [] => simp [assignEv] at h
    | [x] => simp [assignEv] at h
    | (ek, k) :: (ev, v) :: rest =>
      simp only [assignEv] at h
      cases hr : resolve ek (some {}) k with
      | crash => rw [hr] at h; cases h
      | fail => rw [hr] at h; cases h
      | pend => exact ⟨_, List.mem_cons_self .., resolve_pend' hr⟩
      | done key j =>
        rw [hr] at h
        simp only at h
        split at h
        · rename_i s
          cases hr2 : resolve ev (some j) v with
          | crash => rw [hr2] at h; cases h
          | fail => rw [hr2] at h; cases h
          | pend => exact ⟨(ev, v), by simp, resolve_pend' hr2⟩
          | done w q =>
            rw [hr2] at h
            simp only at h
            obtain ⟨x, hx, hp⟩ := ih rest (by simp at hl; omega) _ _ h
            exact ⟨x, List.mem_cons_of_mem _ (List.mem_cons_of_mem _ hx), hp⟩
        · cases h

theorem mapEv_pend {e : Ex} {b : Bind} {A : List (Ex × Ev)} (h : Pend (mapEv e b A)) : ∃ x ∈ A, Pend x.2 := by
  obtain ⟨e', i, h⟩ := h
  unfold mapEv at h
  cases hr : assignEv b A [] with
  | crash => rw [hr] at h; cases h
  | fail => rw [hr] at h; cases h
  | done => rw [hr] at h; simp at h
  | pend => exact assignEv_pend _ A (Nat.le_refl _) _ _ hr

theorem resolveInt_pend {e : Ex} {o : Ev} (h : resolveInt e o = .pend) : Pend o := by
  unfold resolveInt at h
  cases hr : resolve e (some {}) o with
  | crash => rw [hr] at h; cases h
  | fail => rw [hr] at h; cases h
  | pend => exact resolve_pend' hr
  | done v i => rw [hr] at h; simp only at h; split at h <;> cases h

theorem rangeEv_pend {e es et : Ex} {b : Bind} {s t : Ev} (h : Pend (rangeEv e es et b s t)) : Pend s ∨ Pend t := by
  obtain ⟨e', i, h⟩ := h
  unfold rangeEv at h
  cases h1 : resolveInt es s with
  | pend => exact .inl (resolveInt_pend h1)
  | crash => rw [h1] at h; simp [boundsEv] at h
  | fail => rw [h1] at h; simp [boundsEv] at h
  | done x =>
    cases h2 : resolveInt et t with
    | pend => exact .inr (resolveInt_pend h2)
    | crash => rw [h1, h2] at h; simp [boundsEv] at h
    | fail => rw [h1, h2] at h; simp [boundsEv] at h
    | done y =>
      rw [h1, h2] at h
      simp only [boundsEv] at h
      split at h <;> simp at h

theorem refsOfL_mem {l : List Ex} {a : Ex} (ha : a ∈ l) {p : List String} (hp : p ∈ refsOf a) : p ∈ refsOfL l := by
  induction l with
  | nil => simp at ha
  | cons x r ih =>
    simp only [refsOfL, List.mem_append]
    rcases List.mem_cons.1 ha with rfl | ha
    · exact .inl hp
    · exact .inr (ih ha)

theorem directL_mem {l : List Ex} (h : directL l = true) {a : Ex} (ha : a ∈ l) : direct a = true := by
  induction l with
  | nil => simp at ha
  | cons x r ih =>
    simp only [directL, Bool.and_eq_true] at h
    rcases List.mem_cons.1 ha with rfl | ha
    · exact h.1
    · exact ih h.2 ha

/-- C56: nothing is left without a reason: if an expression is left, one of the references occurring in the expression is not yet
decided. So as soon as all the references of an expression are decided, one evaluation finishes it. -/
theorem residual_has_cause {X : EvLib} (hX : X.Plain) (hF : X.Final) {e : Ex} (he : Ordinary e) (hd : direct e = true) {b : Bind} (hb : b.Clean)
    (h : (eval X e b false).Later) : ∃ p ∈ refsOf e, (eval X (Ex.ref p) b false).Later := by
  suffices hs : ∀ {e : Ex}, Ordinary e → direct e = true → Pend (eval X e b false) → ∃ p ∈ refsOf e, Pend (eval X (Ex.ref p) b false) by
    obtain ⟨x, i, hx, _⟩ := h
    obtain ⟨p, hp, y, j, hy⟩ := hs he hd ⟨x, i, hx⟩
    have := (ordinary_eval hX (.ref p) b hb).good
    rw [hy] at this
    exact ⟨p, hp, y, j, hy, this.1⟩
  intro e he hd h
  have args : ∀ {op : Op} {l : List Ex}, direct (.node op l) = true → directL l = true := by
    intro op l h; simp only [direct, Bool.and_eq_true] at h; exact h.2
  have sub : ∀ {op : Op} {l : List Ex} {a : Ex}, a ∈ l → (∃ p ∈ refsOf a, Pend (eval X (Ex.ref p) b false)) →
      ∃ p ∈ refsOf (.node op l), Pend (eval X (Ex.ref p) b false) := by
    rintro op l a ha ⟨p, hp, h⟩
    refine ⟨p, ?_, h⟩
    have := refsOfL_mem ha hp
    cases op <;> simp only [refsOf, List.nil_append, List.mem_append, this, or_true]
  have mapped : ∀ {l : List Ex}, (∃ x ∈ l.map (fun e => (e, eval X e b false)), Pend x.2) → ∃ a ∈ l, Pend (eval X a b false) := by
    rintro l ⟨x, hx, hp⟩
    obtain ⟨a, ha, rfl⟩ := List.mem_map.1 hx
    exact ⟨a, ha, hp⟩
  induction he with
  | lit l => obtain ⟨x, i, h⟩ := h; simp only [eval, evalL, sem, Ev.val.injEq] at h; exact absurd h.1 (litVal_noexpr _ _)
  | ref p => exact ⟨p, by simp [refsOf], h⟩
  | merge m => obtain ⟨x, i, h⟩ := h; rw [eval_merge] at h; exact absurd h (mergeEv_noexpr hb _ _ _)
  | @group a ha ih =>
    simp only [eval, evalL, sem] at h
    exact sub (List.mem_cons_self ..) (ih (directL_mem (args hd) (by simp)) h)
  | @prefer a ha ih =>
    obtain ⟨x, i, h⟩ := h
    simp only [eval, evalL, sem] at h
    split at h
    · rename_i v j heq
      simp only [Ev.val.injEq] at h
      exact sub (List.mem_cons_self ..) (ih (directL_mem (args hd) (by simp)) ⟨x, j, by rw [heq, h.1]⟩)
    · cases h
    · cases h
  | @not a ha ih =>
    simp only [eval, evalL, sem] at h
    exact sub (List.mem_cons_self ..) (ih (directL_mem (args hd) (by simp)) (notEv_pend h))
  | @bin o a c hsrc ha hc iha ihc =>
    simp only [eval, evalL, sem] at h
    rcases binEv_pend h with h | h
    · exact sub (by simp) (iha (directL_mem (args hd) (by simp)) h)
    · exact sub (by simp) (ihc (directL_mem (args hd) (by simp)) h)
  | @land a c ha hc iha ihc =>
    simp only [eval, evalL, sem] at h
    rcases logEv_pend logAnd_noexpr h with h | h
    · exact sub (by simp) (iha (directL_mem (args hd) (by simp)) h)
    · exact sub (by simp) (ihc (directL_mem (args hd) (by simp)) h)
  | @lor a c ha hc iha ihc =>
    simp only [eval, evalL, sem] at h
    rcases logEv_pend logOr_noexpr h with h | h
    · exact sub (by simp) (iha (directL_mem (args hd) (by simp)) h)
    · exact sub (by simp) (ihc (directL_mem (args hd) (by simp)) h)
  | @or a c ha hc iha ihc =>
    rw [eval_or] at h
    obtain ⟨x, i, h⟩ := h
    rcases orEv_left (ordinary_eval hX ha b hb).good h with ⟨_, h⟩ | ⟨_, k, h⟩
    · exact sub (by simp) (iha (directL_mem (args hd) (by simp)) h)
    · exact sub (by simp) (ihc (directL_mem (args hd) (by simp)) ⟨_, _, h⟩)
  | @cond c t f hc ht hf ihc iht ihf =>
    simp only [eval, evalL, sem] at h
    rcases condEv_pend h with h | h | h
    · exact sub (by simp) (ihc (directL_mem (args hd) (by simp)) h)
    · exact sub (by simp) (iht (directL_mem (args hd) (by simp)) h)
    · exact sub (by simp) (ihf (directL_mem (args hd) (by simp)) h)
  | @list l hl ih =>
    simp only [eval, sem] at h
    rw [argEv_eq] at h
    obtain ⟨a, ha, h⟩ := mapped (listEv_pend h)
    exact sub ha (ih a ha (directL_mem (args hd) ha) h)
  | @map l hl ih =>
    simp only [eval, sem] at h
    rw [argEv_eq] at h
    obtain ⟨a, ha, h⟩ := mapped (mapEv_pend h)
    exact sub ha (ih a ha (directL_mem (args hd) ha) h)
  | @scope a l ha hl iha ih => simp [direct] at hd
  | @range s t hs ht ihs iht =>
    simp only [eval, evalL, sem] at h
    rcases rangeEv_pend h with h | h
    · exact sub (by simp) (ihs (directL_mem (args hd) (by simp)) h)
    · exact sub (by simp) (iht (directL_mem (args hd) (by simp)) h)
  | @slice r s t => simp [direct] at hd
  | @sliceFrom r s => simp [direct] at hd
  | @sliceTo r t => simp [direct] at hd
  | @qual p r => simp [direct] at hd
  | @call fn l hl ih =>
    simp only [eval, sem] at h
    rw [argEv_eq] at h
    obtain ⟨a, ha, h⟩ := mapped (callEv_pend hF h)
    exact sub ha (ih a ha (directL_mem (args hd) ha) h)

/-! ### defects -/

/-- `{k = [~~, e]}` -/
abbrev undefMap (k : String) (e : Ex) : Ex := .node .map [Ex.lit (.str k), Ex.list [.node .undef [], e]]

theorem undefMap_eval (X : EvLib) (k : String) (e : Ex) (b : Bind) :
    eval X (undefMap k e) b false = mapEv (undefMap k e) b [(Ex.lit (.str k), .val (.str k) {}),
      (Ex.list [.node .undef [], e], listEv b [(.node .undef [], .val .nil { undefined := true }), (e, eval X e b false)])] := by
  have h1 : eval X (Ex.list [.node .undef [], e]) b false = listEv b ([.node .undef [], e].map (fun e => (e, eval X e b false))) := by
    rw [← argEv_eq]; simp only [eval, sem]
  have h2 : eval X (.node .undef []) b false = .val .nil { undefined := true } := by simp only [eval, evalL, sem]
  have h3 : eval X (Ex.lit (.str k)) b false = .val (.str k) {} := by simp only [eval, evalL, sem, litVal]
  have h4 : eval X (undefMap k e) b false =
      mapEv (undefMap k e) b ([Ex.lit (.str k), Ex.list [.node .undef [], e]].map (fun e => (e, eval X e b false))) := by
    rw [← argEv_eq]; simp only [eval, sem]
  rw [h4]
  simp only [List.map_cons, List.map_nil, h1, h2, h3]

/-- C56, defect: `undefined` of a part leaks, as long as a reference is undecided: `{k = [~~, x]} || y` selects `y`, if `x` is not yet
decided, but it is the map, if `x` has a value. -/
theorem partial_undefined_defect (X : EvLib) (k : String) (p : List String) (y : Ex) (b : Bind) :
    ((eval X (Ex.ref p) b false).Later → Ev.SameVal (eval X (Ex.or (undefMap k (Ex.ref p)) y) b false) (eval X y b false)) ∧
    (∀ v i, eval X (Ex.ref p) b false = .val v i → v.isExpr = false → ∃ m, (eval X (Ex.or (undefMap k (Ex.ref p)) y) b false).Is (.map m)) := by
  constructor
  · rintro ⟨e, i, h, _⟩
    have he := ref_later_self X p b false e i h
    have h1 : ∃ f j, eval X (undefMap k (Ex.ref p)) b false = .val (.expr f) j ∧ j.undefined = true := by
      rw [undefMap_eval, h]
      refine ⟨undefMap k (Ex.ref p), (Info.join (Info.join {} {}) (({ undefined := true } : Info).join i)), ?_, by simp [Info.join]⟩
      simp [mapEv, assignEv, listEv, resolveList, resolveArgs, resolve, joinInfo, ResL.cons, keepWrapper, isExpand, expandArgs, he]
    obtain ⟨f, j, h1, h2⟩ := h1
    rw [eval_or, h1]
    simp only [orEv, h2, Bool.not_true, Bool.false_eq_true, if_false]
    cases eval X y b false with
    | crash => exact .crash
    | fail => exact .fail
    | val v k => exact .value rfl
  · intro v i h hv
    have h1 : ∃ m, eval X (undefMap k (Ex.ref p)) b false = .val (.map m) {} := by
      rw [undefMap_eval, h]
      refine ⟨[(k, Node.new (.list [Node.new .nil (dynSource b.source), Node.new v (dynSource b.source)]) (dynSource b.source))], ?_⟩
      cases v <;> first | (cases hv; done) |
        simp [mapEv, assignEv, listEv, resolveList, resolveArgs, resolve, joinInfo, ResL.cons, isExpand, expandArgs, mset]
    obtain ⟨m, h1⟩ := h1
    refine ⟨m, {}, ?_, rfl, by simp⟩
    rw [eval_or, h1]
    rfl

/-- C56, defect: expanding a list that is not yet known is an error, so `|| y` selects `y` at once. -/
theorem expansion_defect (X : EvLib) (p : List String) (y : Ex) (b : Bind) (h : (eval X (Ex.ref p) b false).Later) :
    Ev.SameVal (eval X (Ex.or (Ex.list [Ex.expand (Ex.ref p)]) y) b false) (eval X y b false) := by
  obtain ⟨e, i, h, _⟩ := h
  have h1 : ∃ j, eval X (Ex.list [Ex.expand (Ex.ref p)]) b false = .fail j := by
    have he := ref_later_self X p b false e i h
    have hl : eval X (Ex.list [Ex.expand (Ex.ref p)]) b false = listEv b ([Ex.expand (Ex.ref p)].map (fun e => (e, eval X e b false))) := by
      rw [← argEv_eq]; simp only [eval, sem]
    have hu : eval X (Ex.expand (Ex.ref p)) b false = eval X (Ex.ref p) b false := by simp only [eval, evalL, sem]
    rw [hl]
    simp only [List.map_cons, List.map_nil, hu, h]
    simp only [listEv, resolveList, resolveArgs, resolve, ResL.cons, he]
    simp [expandArgs, keepWrapper, isExpand]
  obtain ⟨j, h1⟩ := h1
  rw [eval_or, h1]
  simp only [orEv]
  cases eval X y b false with
  | crash => exact .crash
  | fail => exact .fail
  | val v k => exact .value rfl

/-! ### example -/

theorem plainEvLib_plain : plainEvLib.Plain := by intro fn f vs src v i h; simp [plainEvLib] at h
theorem plainEvLib_final : plainEvLib.Final := by intro fn f vs src v i h; simp [plainEvLib] at h

/-- a document with the fields `x` and `y` -/
def twoRefs (x : Val Ex) : Bind where
  ref := fun p => if p = ["x"] then .found (Node.new x "") else if p = ["y"] then .found (Node.new (.int 2) "") else .missing
  root := fun _ => .missing
  stub := fun _ => none
  path := []
  source := "example"

theorem twoRefs_clean (x : Val Ex) : (twoRefs x).Clean := by intro p n h; simp [twoRefs] at h

/-- the document is in a later state, when `x` has got a value -/
theorem twoRefs_le (z : Ex) (x : Val Ex) : Bind.Le plainEvLib (twoRefs (.expr z)) (twoRefs x) := by
  refine ⟨fun p => ?_, rfl, rfl, rfl⟩
  rw [eval_ref, eval_ref]
  cases p with
  | nil => simp only [refFind, List.length_nil, if_true]; exact .crash
  | cons a q =>
    by_cases h : a = "x"
    · subst h
      have : refFind plainEvLib.ctl (Ex.ref ("x" :: q)) ("x" :: q).length (refLook (twoRefs (.expr z)) ("x" :: q)) false =
          .val (.expr (Ex.ref ("x" :: q))) { issue := "unresolved", failed := false } := by
        simp [refFind, findSteps, refLook, twoRefs, localReady, Node.val_new]
        exact ⟨rfl, rfl⟩
      rw [this]
      exact .later
    · have : refLook (twoRefs (.expr z)) (a :: q) = refLook (twoRefs x) (a :: q) := by
        funext i
        simp [refLook, twoRefs, h]
      rw [this]
      exact Ev.Le.refl _

/-- `y == 2 ? [x + y] : n` -/
def exampleEx : Ex := Ex.cond (Ex.bin (.cmp .eq) (Ex.ref ["y"]) (Ex.lit (.int 2))) (Ex.bin .add (Ex.ref ["x"]) (Ex.ref ["y"])) (Ex.ref ["n"])

theorem exampleEx_ordinary : Ordinary exampleEx :=
  .cond (.bin (by simp) (.ref _) (.lit _)) (.bin (by simp) (.ref _) (.ref _)) (.ref _)

/-- the hypotheses of `delayed_evaluation` are met; the residual is `x + y`, which yields the value 7 in the second pass -/
example : Bind.chain plainEvLib (twoRefs (.expr (Ex.ref ["z"]))) [twoRefs (.int 5)] ∧
    (eval plainEvLib exampleEx (twoRefs (.expr (Ex.ref ["z"]))) false).isLater = true ∧
    (evalPasses plainEvLib exampleEx (twoRefs (.expr (Ex.ref ["z"]))) [twoRefs (.int 5)]).int? = some 7 ∧
    (eval plainEvLib exampleEx (twoRefs (.int 5)) false).int? = some 7 := by
  refine ⟨?_, by decide +kernel, by decide +kernel, by decide +kernel⟩
  simp only [Bind.chain, List.pairwise_cons, List.mem_cons, List.not_mem_nil, or_false, forall_eq, false_implies, implies_true, List.Pairwise.nil, and_true]
  exact twoRefs_le _ _

/-- the defects: `{k = [~~, x]} || y` and `[x...] || y` are 2, before the value of `x` is known, but not afterwards -/
example :
    (eval plainEvLib (Ex.or (undefMap "k" (Ex.ref ["x"])) (Ex.ref ["y"])) (twoRefs (.expr (Ex.ref ["z"]))) false).int? = some 2 ∧
    (eval plainEvLib (Ex.or (undefMap "k" (Ex.ref ["x"])) (Ex.ref ["y"])) (twoRefs (.int 5)) false).int? = none ∧
    (eval plainEvLib (Ex.or (Ex.list [Ex.expand (Ex.ref ["x"])]) (Ex.ref ["y"])) (twoRefs (.expr (Ex.ref ["z"]))) false).int? = some 2 ∧
    (eval plainEvLib (Ex.or (Ex.list [Ex.expand (Ex.ref ["x"])]) (Ex.ref ["y"])) (twoRefs (.list [])) false).int? = none := by
  decide +kernel

end Spiff
