import Verif.Props.Delay4
import Verif.Props.Alternatives
/-
C56: delayed evaluation. Main theorems.
-/
namespace Spiff

/-! ### the source determined by the first operand of a concatenation -/

theorem mergeEv_stub {b b' : Bind} (h : b'.stub = b.stub) (m : MergeSpec) : mergeEv b' m = mergeEv b m := by
  unfold mergeEv; rw [h]

theorem mergeEv_fail {b : Bind} {m : MergeSpec} {i : Info} (h : mergeEv b m = .fail i) : i.source = "" := by
  unfold mergeEv at h
  simp only at h
  split at h
  · cases h
  · split at h
    · cases h
    · simp only [Info.error, Ev.fail.injEq] at h; rw [← h]

theorem mergeEv_val {b : Bind} {m : MergeSpec} {v : Val Ex} {i : Info} (h : mergeEv b m = .val v i) : i.undefined = false := by
  unfold mergeEv at h
  simp only at h
  split at h
  · simp only [Ev.val.injEq] at h; rw [← h.2]
  · split at h
    · simp only [Ev.val.injEq] at h; rw [← h.2]
    · cases h

theorem orAlt_source {i j : Info} {o : Ev} {v : Val Ex} (h : orAlt i o = .val v j) : j.source = i.source := by
  cases o with
  | crash => cases h
  | fail => cases h
  | val w k => simp only [orAlt, Ev.val.injEq] at h; rw [← h.2]; rfl

/-- the three forms of a first operand -/
theorem srcOk_cases {a : Ex} (h : srcOk a = true) : noMerge a = true ∨ (∃ m, a = Ex.merge m) ∨ ∃ m c, a = Ex.or (Ex.merge m) c := by
  unfold srcOk at h
  split at h
  · exact .inr (.inl ⟨_, rfl⟩)
  · exact .inr (.inr ⟨_, _, rfl⟩)
  · exact .inl h

theorem eval_merge (X : EvLib) (m : MergeSpec) (b : Bind) (loc : Bool) : eval X (Ex.merge m) b loc = mergeEv b m := by
  simp only [eval, evalL, sem]

/-- the source of a value of `merge || c` is that of the value found in the stubs -/
theorem or_merge_source {X : EvLib} {m : MergeSpec} {c : Ex} {b : Bind} {v : Val Ex} {i : Info}
    (h : eval X (Ex.or (Ex.merge m) c) b false = .val v i) :
    (∃ w, mergeEv b m = .val w i) ∨ ((∃ k, mergeEv b m = .fail k) ∧ i.source = "") := by
  rw [eval_or, eval_merge] at h
  cases hm : mergeEv b m with
  | crash => rw [hm] at h; cases h
  | fail k =>
    rw [hm] at h
    refine .inr ⟨⟨k, rfl⟩, ?_⟩
    rw [orAlt_source h]
    have := mergeEv_fail hm
    exact this
  | val w k =>
    rw [hm] at h
    simp only [orEv, mergeEv_val hm, Bool.not_false, if_true] at h
    refine .inl ⟨w, ?_⟩
    split at h <;> simp only [Ev.val.injEq] at h <;> rw [h.2]

theorem source_same {X : EvLib} (hX : X.Plain) {a : Ex} (ha : Ordinary a) (hs : srcOk a = true) {b b' : Bind} (hb : b.Clean)
    (hb' : b'.Clean) (hst : b'.stub = b.stub) {v w : Val Ex} {i j : Info} (h : eval X a b false = .val v i)
    (h' : eval X a b' false = .val w j) : i.source = j.source := by
  rcases srcOk_cases hs with hn | ⟨m, rfl⟩ | ⟨m, c, rfl⟩
  · have h1 := (ordinary_eval hX ha b hb).inv true (fun _ => hn)
    have h2 := (ordinary_eval hX ha b' hb').inv true (fun _ => hn)
    rw [h] at h1; rw [h'] at h2
    rw [h1.2.2 rfl, h2.2.2 rfl]
  · rw [eval_merge] at h h'
    rw [mergeEv_stub hst, h] at h'
    simp only [Ev.val.injEq] at h'
    rw [h'.2]
  · rcases or_merge_source h with ⟨x, h1⟩ | ⟨⟨k, h1⟩, h2⟩ <;> rcases or_merge_source h' with ⟨y, h3⟩ | ⟨⟨k', h3⟩, h4⟩ <;>
      rw [mergeEv_stub hst, h1] at h3
    · simp only [Ev.val.injEq] at h3; rw [h3.2]
    · cases h3
    · cases h3
    · rw [h2, h4]

/-- if something was left of the first operand, later values have no source -/
theorem source_left {X : EvLib} (hX : X.Plain) {a : Ex} (ha : Ordinary a) (hs : srcOk a = true) {b b' : Bind} (hb : b.Clean)
    (hb' : b'.Clean) (hst : b'.stub = b.stub) {e : Ex} {w : Val Ex} {i j : Info} (h : eval X a b false = .val (.expr e) i)
    (h' : eval X a b' false = .val w j) : j.source = "" := by
  rcases srcOk_cases hs with hn | ⟨m, rfl⟩ | ⟨m, c, rfl⟩
  · have h2 := (ordinary_eval hX ha b' hb').inv true (fun _ => hn)
    rw [h'] at h2
    exact h2.2.2 rfl
  · rw [eval_merge] at h; exact absurd h (mergeEv_noexpr hb _ _ _)
  · rcases or_merge_source h' with ⟨y, h3⟩ | ⟨_, h4⟩
    · exfalso
      rw [mergeEv_stub hst] at h3
      rw [eval_or, eval_merge, h3] at h
      simp only [orEv, mergeEv_val h3, Bool.not_false, if_true] at h
      split at h
      · rename_i hx
        obtain ⟨q, rfl⟩ := Val.isExpr_true hx
        exact mergeEv_noexpr hb _ _ _ h3
      · rename_i hx; simp only [Ev.val.injEq] at h; rw [h.1] at hx; exact hx rfl
    · exact h4

/-! ### later evaluations agree with earlier results -/

theorem relA_args {l : Bool} {X : EvLib} {b b' : Bind} {L : List Ex} (h : ∀ a ∈ L, Rel l (eval X a b false) (eval X a b' false)) :
    RelA l (L.map (fun e => (e, eval X e b false))) (L.map (fun e => (e, eval X e b' false))) := by
  induction L with
  | nil => exact .nil
  | cons a r ih => exact .cons (h a (List.mem_cons_self ..)) (ih (fun x hx => h x (List.mem_cons_of_mem _ hx)))

theorem prefer_rel {X : EvLib} {l : Bool} {a a' : Ex} {b b' : Bind} (h : Rel l (eval X a b false) (eval X a' b' false)) :
    Rel l (eval X (.node .prefer [a]) b false) (eval X (.node .prefer [a']) b' false) := by
  simp only [eval, evalL, sem]
  generalize eval X a b false = o at h
  generalize eval X a' b' false = o' at h
  cases h with
  | value h => exact .value h
  | later => exact .later
  | undecided h => exact .undecided h
  | fail => exact .fail
  | crash => exact .crash
  | crashed h => exact .crashed h

theorem good_args {X : EvLib} {b : Bind} {L : List Ex} (h' : ∀ a ∈ L, OrdEval X a b) :
    ∀ x ∈ L.map (fun e => (e, eval X e b false)), Good x.2 := by
  intro x hx
  obtain ⟨a, ha, rfl⟩ := List.mem_map.1 hx
  exact (h' a ha).good

theorem eval_mono_rel {X : EvLib} (hX : X.Plain) {e : Ex} (h : Ordinary e) : ∀ b b' : Bind, b.Clean → Bind.Le X b b' →
    Rel true (eval X e b false) (eval X e b' false) := by
  have clean : ∀ {b b' : Bind}, b.Clean → Bind.Le X b b' → b'.Clean := by
    intro b b' hc hl p n; rw [hl.stub]; exact hc p n
  induction h with
  | lit l => intro b b' _ _; simp only [eval, evalL, sem]; exact Rel.refl _ _
  | ref p => intro b b' _ hl; exact (hl.ref p).rel
  | merge m => intro b b' _ hl; rw [eval_merge, eval_merge, mergeEv_stub hl.stub]; exact Rel.refl _ _
  | @group a ha ih => intro b b' hb hl; simpa only [eval, evalL, sem] using ih b b' hb hl
  | @prefer a ha ih => intro b b' hb hl; exact prefer_rel (ih b b' hb hl)
  | @not a ha ih => intro b b' hb hl; simp only [eval, evalL, sem]; exact notEv_rel _ _ _ (ih b b' hb hl)
  | @bin o a c hsrc ha hc iha ihc =>
    intro b b' hb hl
    simp only [eval, evalL, sem]
    exact binEv_rel _ X o _ _ _ _ (iha b b' hb hl) (ihc b b' hb hl)
      (fun ho v i j _ h1 h2 => source_same hX ha (hsrc ho) hb (clean hb hl) hl.stub h1 h2)
  | @land a c ha hc iha ihc => intro b b' hb hl; simp only [eval, evalL, sem]; exact logEv_rel _ _ _ _ (iha b b' hb hl) (ihc b b' hb hl)
  | @lor a c ha hc iha ihc => intro b b' hb hl; simp only [eval, evalL, sem]; exact logEv_rel _ _ _ _ (iha b b' hb hl) (ihc b b' hb hl)
  | @or a c ha hc iha ihc =>
    intro b b' hb hl
    rw [eval_or, eval_or]
    exact orEv_rel _ _ _ (iha b b' hb hl) (ihc b b' hb hl) (ordinary_eval hX ha b hb).good (ordinary_eval hX ha b' (clean hb hl)).good
  | @cond c t f hc ht hf ihc iht ihf =>
    intro b b' hb hl
    simp only [eval, evalL, sem]
    exact condEv_rel _ _ _ _ _ _ _ (ihc b b' hb hl) (iht b b' hb hl) (ihf b b' hb hl)
  | @list l hl ih =>
    intro b b' hb hle
    simp only [eval, sem]
    rw [argEv_eq, argEv_eq]
    exact listEv_rel _ hle.source (relA_args (fun a ha => ih a ha b b' hb hle)) (noExp_args hl (fun a ha => ordinary_eval hX (hl a ha) b hb))
      (noExp_args hl (fun a ha => ordinary_eval hX (hl a ha) b' (clean hb hle)))
  | @map l hl ih =>
    intro b b' hb hle
    simp only [eval, sem]
    rw [argEv_eq, argEv_eq]
    exact mapEv_rel _ hle.source _ _ (relA_args (fun a ha => ih a ha b b' hb hle))
  | @scope a l ha hl iha ih =>
    intro b b' hb hle
    simp only [eval, evalL, sem]
    rw [argEv_eq, argEv_eq]
    exact scopeEv_rel _ X hle.source _ _ (relA_args (fun a ha => ih a ha b b' hb hle)) _ _
      (fun m => iha _ _ (hb.withLocal X m) (hle.withLocal m))
  | @range s t hs ht ihs iht =>
    intro b b' hb hle
    simp only [eval, evalL, sem]
    exact rangeEv_rel _ hle.source _ _ _ _ _ _ (ihs b b' hb hle) (iht b b' hb hle)
  | @slice r s t hr hs ht ihr ihs iht =>
    intro b b' hb hle
    simp only [eval, evalL, sem]
    exact sliceEv_rel _ X _ _ _ _ _ _ (ihr b b' hb hle) (.some (ihs b b' hb hle)) (.some (iht b b' hb hle))
  | @sliceFrom r s hr hs ihr ihs =>
    intro b b' hb hle
    simp only [eval, evalL, sem]
    exact sliceEv_rel _ X _ _ _ _ _ _ (ihr b b' hb hle) (.some (ihs b b' hb hle)) .none
  | @sliceTo r t hr ht ihr iht =>
    intro b b' hb hle
    simp only [eval, evalL, sem]
    exact sliceEv_rel _ X _ _ _ _ _ _ (ihr b b' hb hle) .none (.some (iht b b' hb hle))
  | @qual p r hr ihr =>
    intro b b' hb hle
    simp only [eval, evalL, sem]
    exact qualEv_rel _ X _ _ _ (ihr b b' hb hle) (ordinary_eval hX hr b hb).good (ordinary_eval hX hr b' (clean hb hle)).good
  | @call fn l hl ih =>
    intro b b' hb hle
    simp only [eval, sem]
    rw [argEv_eq, argEv_eq]
    exact callEv_rel _ X fn hle.source (relA_args (fun a ha => ih a ha b b' hb hle))
      (noExp_args hl (fun a ha => ordinary_eval hX (hl a ha) b hb)) (noExp_args hl (fun a ha => ordinary_eval hX (hl a ha) b' (clean hb hle)))
      (good_args (fun a ha => ordinary_eval hX (hl a ha) b hb)) (good_args (fun a ha => ordinary_eval hX (hl a ha) b' (clean hb hle)))

/-! ### the remaining expression stands for the expression -/

theorem relA_left {X : EvLib} {b b' : Bind} {L es : List Ex}
    (ih : ∀ a ∈ L, ∀ e' i, eval X a b false = .val (.expr e') i → Rel false (eval X e' b' false) (eval X a b' false))
    (h : Left (L.map (fun e => (e, eval X e b false))) es) :
    RelA false (es.map (fun e => (e, eval X e b' false))) (L.map (fun e => (e, eval X e b' false))) := by
  unfold Left at h
  induction L generalizing es with
  | nil => cases h; exact .nil
  | cons a r ihr =>
    simp only [List.map_cons] at h
    cases h with
    | cons hx ht =>
      rename_i y es
      refine .cons ?_ (ihr (fun x hx => ih x (List.mem_cons_of_mem _ hx)) ht)
      rcases hx with rfl | ⟨i, hi⟩
      · exact Rel.refl _ _
      · exact ih a (List.mem_cons_self ..) _ _ hi

theorem rel_orAlt {i : Info} {o o' : Ev} (h : Rel false o o') : Rel false o (orAlt i o') := by
  cases h with
  | value h => exact .value h
  | later => exact .later
  | undecided h => cases h
  | fail => exact .fail
  | crash => exact .crash
  | crashed h => cases h

theorem rel_cond {ec et ef : Ex} {v : Val Ex} {k : Info} {t f o : Ev} (hv : v.isExpr = false) (h : Rel false o (if toBool v then t else f)) :
    Rel false o (condEv ec et ef (.val v k) t f) := by
  unfold condEv
  simp only [resolve_val _ _ _ _ hv]
  cases hb : toBool v <;> simp only [hb, if_true, Bool.false_eq_true, if_false] at h ⊢
  · cases h with
    | value h => exact .value h
    | later => exact .later
    | undecided h => cases h
    | fail => exact .fail
    | crash => exact .crash
    | crashed h => cases h
  · cases h with
    | value h => exact .value h
    | later => exact .later
    | undecided h => cases h
    | fail => exact .fail
    | crash => exact .crash
    | crashed h => cases h

theorem residual_rel {X : EvLib} (hX : X.Plain) {e : Ex} (h : Ordinary e) : ∀ b b' : Bind, b.Clean → Bind.Le X b b' →
    ∀ e' i, eval X e b false = .val (.expr e') i → Rel false (eval X e' b' false) (eval X e b' false) := by
  have clean : ∀ {b b' : Bind}, b.Clean → Bind.Le X b b' → b'.Clean := by
    intro b b' hc hl p n; rw [hl.stub]; exact hc p n
  induction h with
  | lit l => intro b b' _ _ e' i he; simp only [eval, evalL, sem, Ev.val.injEq] at he; exact absurd he.1 (litVal_noexpr _ _)
  | ref p => intro b b' _ hl e' i he; rw [eval_ref] at he; rw [refFind_left he]; exact Rel.refl _ _
  | merge m => intro b b' hb hl e' i he; rw [eval_merge] at he; exact absurd he (mergeEv_noexpr hb _ _ _)
  | @group a ha ih =>
    intro b b' hb hl e' i he
    have h0 : ∀ b, eval X (.node .group [a]) b false = eval X a b false := fun b => by simp only [eval, evalL, sem]
    rw [h0] at he ⊢
    exact ih b b' hb hl _ _ he
  | @prefer a ha ih =>
    intro b b' hb hl e' i he
    simp only [eval, evalL, sem] at he
    split at he
    · rename_i v j heq
      simp only [Ev.val.injEq] at he
      rw [he.1] at heq
      have h1 := ih b b' hb hl _ _ heq
      simp only [eval, evalL, sem]
      generalize eval X a b' false = o at h1
      generalize eval X e' b' false = o' at h1
      cases h1 with
      | value h => exact .value h
      | later => exact .later
      | undecided h => cases h
      | fail => exact .fail
      | crash => exact .crash
      | crashed h => cases h
    · cases he
    · cases he
  | @not a ha ih =>
    intro b b' hb hl e' i he
    simp only [eval, evalL, sem] at he
    obtain ⟨x, rfl, k, hk⟩ := notEv_left ha.noExpand he
    simp only [eval, evalL, sem]
    exact notEv_rel _ _ _ (ih b b' hb hl _ _ hk)
  | @bin o a c hsrc ha hc iha ihc =>
    intro b b' hb hl e' i he
    simp only [eval, evalL, sem] at he
    obtain ⟨x, y, rfl, hx, hy⟩ := binEv_left ha.noExpand hc.noExpand he
    simp only [eval, evalL, sem]
    have h1 : Rel false (eval X x b' false) (eval X a b' false) := by
      rcases hx with rfl | ⟨k, hk⟩
      · exact Rel.refl _ _
      · exact iha b b' hb hl _ _ hk
    have h2 : Rel false (eval X y b' false) (eval X c b' false) := by
      rcases hy with rfl | ⟨k, hk⟩
      · exact Rel.refl _ _
      · exact ihc b b' hb hl _ _ hk
    refine binEv_rel _ X o _ _ _ _ h1 h2 (fun ho v i j _ q1 q2 => ?_)
    rcases hx with rfl | ⟨k, hk⟩
    · rw [q1] at q2; simp only [Ev.val.injEq] at q2; rw [q2.2]
    · obtain ⟨p1, p2⟩ := (ordinary_eval hX ha b hb).left _ _ hk
      have p3 := (ordinary_eval hX p1 b' (clean hb hl)).inv true (fun _ => p2 (hsrc ho))
      rw [q1] at p3
      rw [p3.2.2 rfl, source_left hX ha (hsrc ho) hb (clean hb hl) hl.stub hk q2]
  | @land a c ha hc iha ihc =>
    intro b b' hb hl e' i he
    simp only [eval, evalL, sem] at he
    rw [logEv_left logAnd_noexpr he]; exact Rel.refl _ _
  | @lor a c ha hc iha ihc =>
    intro b b' hb hl e' i he
    simp only [eval, evalL, sem] at he
    rw [logEv_left logOr_noexpr he]; exact Rel.refl _ _
  | @or a c ha hc iha ihc =>
    intro b b' hb hl e' i he
    rw [eval_or] at he
    rcases orEv_left (ordinary_eval hX ha b hb).good he with ⟨rfl, _⟩ | ⟨⟨k, hk⟩, j, hj⟩
    · exact Rel.refl _ _
    · rw [eval_or]
      have h1 := eval_mono_rel hX ha b b' hb hl
      have h2 := ihc b b' hb hl _ _ hj
      rw [hk] at h1
      generalize eval X a b' false = o at h1
      cases h1 with
      | fail => exact rel_orAlt h2
      | crash => exact .crash
  | @cond c t f hc ht hf ihc iht ihf =>
    intro b b' hb hl e' i he
    simp only [eval, evalL, sem] at he
    rcases condEv_left hc.noExpand he with ⟨x, k, rfl, hk⟩ | ⟨v, k, q1, q2, q3, j, hj⟩ | ⟨v, k, q1, q2, q3, j, hj⟩
    · simp only [eval, evalL, sem]
      exact condEv_rel _ _ _ _ _ _ _ (ihc b b' hb hl _ _ hk) (Rel.refl _ _) (Rel.refl _ _)
    · have h1 := eval_mono_rel hX hc b b' hb hl
      have h2 := iht b b' hb hl _ _ hj
      rw [q1] at h1
      have h0 : eval X (Ex.cond c t f) b' false = condEv c t f (eval X c b' false) (eval X t b' false) (eval X f b' false) := by
        simp only [eval, evalL, sem]
      rw [h0]
      generalize eval X c b' false = o at h1
      cases h1 with
      | value h => exact rel_cond h (by rw [q3]; exact h2)
      | later => cases q2
      | undecided => cases q2
      | crash => exact .crash
    · have h1 := eval_mono_rel hX hc b b' hb hl
      have h2 := ihf b b' hb hl _ _ hj
      rw [q1] at h1
      have h0 : eval X (Ex.cond c t f) b' false = condEv c t f (eval X c b' false) (eval X t b' false) (eval X f b' false) := by
        simp only [eval, evalL, sem]
      rw [h0]
      generalize eval X c b' false = o at h1
      cases h1 with
      | value h => exact rel_cond h (by rw [q3]; exact h2)
      | later => cases q2
      | undecided => cases q2
      | crash => exact .crash
  | @list l hl ih =>
    intro b b' hb hle e' i he
    simp only [eval, sem] at he
    rw [argEv_eq] at he
    have hn := noExp_args hl (fun a ha => ordinary_eval hX (hl a ha) b hb)
    obtain ⟨es, rfl, hes⟩ := listEv_left hn he
    obtain ⟨q1, _⟩ := left_args hl (fun a ha => ordinary_eval hX (hl a ha) b hb) hes
    simp only [eval, sem]
    rw [argEv_eq, argEv_eq]
    exact listEv_rel _ rfl (relA_left (fun a ha => ih a ha b b' hb hle) hes)
      (noExp_args q1 (fun a ha => ordinary_eval hX (q1 a ha) b' (clean hb hle)))
      (noExp_args hl (fun a ha => ordinary_eval hX (hl a ha) b' (clean hb hle)))
  | @map l hl ih =>
    intro b b' hb hle e' i he
    simp only [eval, sem] at he
    rw [mapEv_left he]; exact Rel.refl _ _
  | @scope a l ha hl iha ih =>
    intro b b' hb hle e' i he
    simp only [eval, evalL, sem] at he
    rw [scopeEv_left he]; exact Rel.refl _ _
  | @range s t hs ht ihs iht =>
    intro b b' hb hle e' i he
    simp only [eval, evalL, sem] at he
    rw [rangeEv_left he]; exact Rel.refl _ _
  | @slice r s t hr hs ht ihr ihs iht =>
    intro b b' hb hle e' i he
    simp only [eval, evalL, sem] at he
    rw [sliceEv_left he]; exact Rel.refl _ _
  | @sliceFrom r s hr hs ihr ihs =>
    intro b b' hb hle e' i he
    simp only [eval, evalL, sem] at he
    rw [sliceEv_left he]; exact Rel.refl _ _
  | @sliceTo r t hr ht ihr iht =>
    intro b b' hb hle e' i he
    simp only [eval, evalL, sem] at he
    rw [sliceEv_left he]; exact Rel.refl _ _
  | @qual p r hr ihr =>
    intro b b' hb hle e' i he
    simp only [eval, evalL, sem] at he
    rcases qualEv_left (ordinary_eval hX hr b hb).good he with rfl | ⟨x, k, rfl, hk⟩
    · exact Rel.refl _ _
    · simp only [eval, evalL, sem]
      have q := (ordinary_eval hX hr b hb).left _ _ hk
      exact qualEv_rel _ X _ _ _ (ihr b b' hb hle _ _ hk) (ordinary_eval hX q.1 b' (clean hb hle)).good
        (ordinary_eval hX hr b' (clean hb hle)).good
  | @call fn l hl ih =>
    intro b b' hb hle e' i he
    simp only [eval, sem] at he
    rw [argEv_eq] at he
    have hn := noExp_args hl (fun a ha => ordinary_eval hX (hl a ha) b hb)
    obtain ⟨es, rfl, hes⟩ := callEv_left hn he
    obtain ⟨q1, _⟩ := left_args hl (fun a ha => ordinary_eval hX (hl a ha) b hb) hes
    simp only [eval, sem]
    rw [argEv_eq, argEv_eq]
    exact callEv_rel _ X fn rfl (relA_left (fun a ha => ih a ha b b' hb hle) hes)
      (noExp_args q1 (fun a ha => ordinary_eval hX (q1 a ha) b' (clean hb hle)))
      (noExp_args hl (fun a ha => ordinary_eval hX (hl a ha) b' (clean hb hle)))
      (good_args (fun a ha => ordinary_eval hX (q1 a ha) b' (clean hb hle)))
      (good_args (fun a ha => ordinary_eval hX (hl a ha) b' (clean hb hle)))

end Spiff
