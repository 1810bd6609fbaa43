import Verif.Model.Sync
/-
C46: sync waits until the condition holds or the timeout expires.
-/
namespace Spiff
variable {V : Type}

/-! ### Specification -/

/-- Specification: the waiting time in nanoseconds, if the timeout expression could be
evaluated: five minutes by default, otherwise the given number of seconds. -/
inductive WaitTime : Option (SOut Int) → Int → Prop
  | default : WaitTime none 300000000000
  | seconds (t : Int) (h : InInt64 (1000000000 * t)) : WaitTime (some (.value t)) (1000000000 * t)

/-- Specification: the argument has been evaluated (successfully or not). -/
def SView.argDone (x : SView V) : Prop := x.arg ≠ .unresolved

/-- Specification: what sync yields for a true condition. -/
inductive SyncYields (x : SView V) : Option V → Prop
  | arg (v : V) (h1 : x.result = none) (h2 : x.arg = .value v) : SyncYields x (some v)
  | failed (m : String) (h1 : x.result = none) (h2 : x.arg = .fail m) : SyncYields x none
  | expr (v : V) (h1 : x.result = some (.value v)) : SyncYields x (some v)

theorem syncStep_wait {x : SView V} {d : Int} (h : WaitTime x.timeout d) (s : SyncSt) :
    syncStep s x = syncArg { s with first := some (s.first.getD x.now1) } (s.first.getD x.now1) d x := by
  rw [syncStep]
  generalize x.timeout = t at h
  cases h with
  | default => rfl
  | seconds t h => simp only [syncDuration, wrap64_of_in h]

/-- **C46** (one evaluation): with an evaluated timeout and argument, sync yields the value if the
condition is true, asks for another evaluation iff the condition is false and the waiting time
since the start has not elapsed, and fails if it has elapsed. -/
theorem sync_evaluation {s : SyncSt} {x : SView V} {d : Int} (hd : WaitTime x.timeout d) (ha : x.argDone) :
    (x.cond = .value (some true) → ∀ v, syncStep s x = .value v ↔ SyncYields x v) ∧
    (x.cond = .value (some false) → x.now2 < s.first.getD x.now1 + d →
      syncStep s x = .again { first := some (s.first.getD x.now1), last := some x.now2 }) ∧
    (x.cond = .value (some false) → s.first.getD x.now1 + d ≤ x.now2 →
      ∃ m, syncStep s x = .error m ∧ (∀ e, x.arg = .fail e → e ≠ "" → m = e) ∧
        (∀ v, x.arg = .value v → m = "sync timeout reached")) ∧
    (x.cond = .unresolved → syncStep s x = .pending { s with first := some (s.first.getD x.now1) }) ∧
    ((∃ v, syncStep s x = .value v) → x.cond = .value (some true)) ∧
    ((∃ s', syncStep s x = .again s') → x.cond = .value (some false) ∧ x.now2 < s.first.getD x.now1 + d) := by
  rw [syncStep_wait hd]
  have harg : ∀ s f, syncArg s f d x = syncCond s f d x := by
    intro s f
    unfold SView.argDone at ha
    rw [syncArg]
    cases h : x.arg with
    | unresolved => exact absurd h ha
    | _ => rfl
  rw [harg]
  refine ⟨?_, ?_, ?_, ?_, ?_, ?_⟩
  · intro hc v
    rw [syncCond, hc]
    simp only [syncValue]
    unfold SView.argDone at ha
    constructor
    · intro h
      cases hr : x.result with
      | none =>
        rw [hr] at h
        cases hx : x.arg with
        | fail m => rw [hx] at h; simp at h; subst h; exact .failed m hr hx
        | unresolved => exact absurd hx ha
        | value w => rw [hx] at h; simp at h; subst h; exact .arg w hr hx
      | some o =>
        rw [hr] at h
        cases o with
        | fail m => simp at h
        | unresolved => simp at h
        | value w => simp at h; subst h; exact .expr w hr
    · intro h
      cases h with
      | arg w h1 h2 => simp [h1, h2]
      | failed m h1 h2 => simp [h1, h2]
      | expr w h1 => simp [h1]
  · intro hc hlt
    rw [syncCond, hc]
    simp [hlt]
  · intro hc hge
    rw [syncCond, hc]
    have : ¬ x.now2 < s.first.getD x.now1 + d := by omega
    simp only [this, if_false]
    cases hx : x.arg with
    | fail e =>
      by_cases he : e = ""
      · subst he; exact ⟨_, by simp; rfl, by intro e h; simp at h; subst h; simp, by simp⟩
      · exact ⟨e, by simp [he], by intro e' h; simp at h; subst h; simp, by simp⟩
    | unresolved => exact ⟨_, rfl, by simp, by simp⟩
    | value w => exact ⟨_, rfl, by simp, by simp⟩
  · intro hc
    rw [syncCond, hc]
  · rintro ⟨v, h⟩
    rw [syncCond] at h
    cases hc : x.cond with
    | fail m => rw [hc] at h; simp at h
    | unresolved => rw [hc] at h; simp at h
    | value b =>
      rw [hc] at h
      cases b with
      | none => simp at h
      | some b =>
        cases b with
        | true => rfl
        | false =>
          simp only at h
          split at h
          · simp at h
          · cases hx : x.arg <;> rw [hx] at h <;> simp at h
            split at h <;> simp at h
  · rintro ⟨s', h⟩
    rw [syncCond] at h
    cases hc : x.cond with
    | fail m => rw [hc] at h; simp at h
    | unresolved => rw [hc] at h; simp at h
    | value b =>
      rw [hc] at h
      cases b with
      | none => simp at h
      | some b =>
        cases b with
        | true =>
          simp only [syncValue] at h
          cases hr : x.result with
          | none => rw [hr] at h; cases hx : x.arg <;> rw [hx] at h <;> simp at h
          | some o => rw [hr] at h; cases o <;> simp at h
        | false =>
          simp only at h
          split at h
          · rename_i hlt; exact ⟨rfl, hlt⟩
          · cases hx : x.arg <;> rw [hx] at h <;> simp at h
            split at h <;> simp at h

/-- an evaluation starts the clock, or (if it fails) leaves the expression as it was -/
theorem syncNext_first {s s' : SyncSt} {x : SView V} (h : syncNext s (syncStep s x) = some s') :
    s'.first = some (s.first.getD x.now1) ∨ (s' = s ∧ ∃ m, syncStep s x = .error m) := by
  have key : ∀ (r : SRes V), (∀ s1, (r = .again s1 ∨ r = .pending s1) → s1.first = some (s.first.getD x.now1)) →
      syncNext s r = some s' → s'.first = some (s.first.getD x.now1) ∨ (s' = s ∧ ∃ m, r = .error m) := by
    intro r hr h
    cases r with
    | again s1 => simp [syncNext] at h; subst h; exact .inl (hr _ (.inl rfl))
    | pending s1 => simp [syncNext] at h; subst h; exact .inl (hr _ (.inr rfl))
    | value v => simp [syncNext] at h
    | error m => simp [syncNext] at h; exact .inr ⟨h.symm, m, rfl⟩
  apply key _ _ h
  intro s1 hs1
  have val : ∀ (t : SyncSt), t.first = some (s.first.getD x.now1) →
      (syncValue t x = .again s1 ∨ syncValue t x = .pending s1) → s1.first = some (s.first.getD x.now1) := by
    intro t ht h
    rw [syncValue] at h
    cases hr : x.result with
    | none => rw [hr] at h; cases hx : x.arg <;> rw [hx] at h <;> simp at h
    | some o =>
      rw [hr] at h
      cases o <;> simp at h
      subst h; exact ht
  have cnd : ∀ (t : SyncSt) (f d : Int), t.first = some (s.first.getD x.now1) →
      (syncCond t f d x = .again s1 ∨ syncCond t f d x = .pending s1) → s1.first = some (s.first.getD x.now1) := by
    intro t f d ht h
    rw [syncCond] at h
    cases hc : x.cond with
    | fail m => rw [hc] at h; simp at h
    | unresolved => rw [hc] at h; simp at h; subst h; exact ht
    | value b =>
      rw [hc] at h
      cases b with
      | none => simp at h
      | some b =>
        cases b with
        | true => exact val t ht h
        | false =>
          simp only at h
          split at h
          · simp at h; subst h; exact ht
          · cases hx : x.arg <;> rw [hx] at h <;> simp at h
            split at h <;> simp at h
  have arg : ∀ (t : SyncSt) (f d : Int), t.first = some (s.first.getD x.now1) →
      (syncArg t f d x = .again s1 ∨ syncArg t f d x = .pending s1) → s1.first = some (s.first.getD x.now1) := by
    intro t f d ht h
    rw [syncArg] at h
    cases hx : x.arg with
    | unresolved => rw [hx] at h; simp at h; subst h; exact ht
    | fail m => rw [hx] at h; exact cnd t f d ht h
    | value w => rw [hx] at h; exact cnd t f d ht h
  rw [syncStep] at hs1
  cases ht : x.timeout with
  | none => rw [ht] at hs1; exact arg _ _ _ rfl hs1
  | some o =>
    rw [ht] at hs1
    cases o with
    | fail m => simp at hs1
    | unresolved => simp at hs1; subst hs1; rfl
    | value w => exact arg _ _ _ rfl hs1

/-- **C46** (history): once an evaluation has started the clock at time `f`, for every further
history of evaluations with every clock and every change of the evaluated expressions: another
retry happens only before the waiting time since `f` has elapsed, and a value is yielded only by
an evaluation whose condition is true. -/
theorem sync_history (xs : List (SView V)) (s : SyncSt) (f : Int) (hs : s.first = some f) (i : Nat) (r : SRes V)
    (hr : (syncRun s xs)[i]? = some r) :
    ∃ x, xs[i]? = some x ∧ ∀ d, WaitTime x.timeout d → x.argDone →
      ((∃ s', r = .again s') ↔ x.cond = .value (some false) ∧ x.now2 < f + d) ∧
      ((∃ v, r = .value v) → x.cond = .value (some true)) ∧
      (x.cond = .value (some false) → f + d ≤ x.now2 → ∃ m, r = .error m) := by
  induction xs generalizing s i with
  | nil => simp [syncRun] at hr
  | cons x xs ih =>
    rw [syncRun] at hr
    cases i with
    | zero =>
      simp only [List.getElem?_cons_zero, Option.some.injEq] at hr
      refine ⟨x, rfl, ?_⟩
      intro d hd ha
      have h := sync_evaluation (s := s) hd ha
      rw [hs] at h
      simp only [Option.getD_some] at h
      subst hr
      refine ⟨⟨h.2.2.2.2.2, fun ⟨h1, h2⟩ => ⟨_, h.2.1 h1 h2⟩⟩, h.2.2.2.2.1, fun h1 h2 => ?_⟩
      obtain ⟨m, hm, -⟩ := h.2.2.1 h1 h2
      exact ⟨m, hm⟩
    | succ i =>
      simp only [List.getElem?_cons_succ] at hr
      cases hn : syncNext s (syncStep s x) with
      | none => rw [hn] at hr; simp at hr
      | some s' =>
        rw [hn] at hr
        have hf : s'.first = some f := by
          rcases syncNext_first hn with h | ⟨h, -⟩
          · rw [h, hs]; rfl
          · rw [h, hs]
        obtain ⟨y, hy, h⟩ := ih s' hf i hr
        exact ⟨y, by simpa using hy, h⟩

/-- **C46** (start): the clock is started by the first evaluation that does not fail, at the
time this evaluation began; failing evaluations before leave the expression untouched. -/
theorem sync_start (s s' : SyncSt) (x : SView V) (hs : s.first = none) (h : syncNext s (syncStep s x) = some s') :
    ((∃ m, syncStep s x = .error m) → s' = s) ∧ ((¬ ∃ m, syncStep s x = .error m) → s'.first = some x.now1) := by
  constructor
  · rintro ⟨m, hm⟩
    rw [hm] at h
    simpa [syncNext, eq_comm] using h
  · intro he
    rcases syncNext_first h with h | ⟨-, h⟩
    · rw [h, hs]; rfl
    · exact absurd h he

/-- **C46** (termination): if the time of every evaluation is at least `δ` after the previous
one, then a retry with the number `i` (counted from 0) happens only if `δ * i < d`, so there are
finitely many of them. -/
theorem sync_bounded (xs : List (SView V)) (s : SyncSt) (f d δ : Int) (hs : s.first = some f)
    (hw : ∀ x ∈ xs, WaitTime x.timeout d ∧ x.argDone)
    (t0 : Int) (ht0 : f ≤ t0)
    (hclock : ∀ (i : Nat) x, xs[i]? = some x → t0 + δ * i ≤ x.now2)
    (hall : ∀ r ∈ syncRun s xs, ∃ s', r = .again s') (i : Nat) (hi : (syncRun s xs)[i]? ≠ none) :
    δ * i < d := by
  obtain ⟨r, hr⟩ := Option.ne_none_iff_exists'.mp hi
  obtain ⟨x, hx, h⟩ := sync_history xs s f hs i r hr
  have hm : x ∈ xs := List.mem_of_getElem? hx
  have hw := hw x hm
  have h1 := ((h d hw.1 hw.2).1).mp (hall r (List.mem_of_getElem? hr))
  have h2 := hclock i x hx
  omega

/-- **C46** (exception): a sync that has reported its timeout is evaluated again if the
processing continues for other reasons, and then yields a value if its condition has become true
meanwhile. -/
theorem sync_revived_defect : ∃ (xs : List (SView Nat)) (rs : List (SRes Nat)),
    syncRun {} xs = rs ∧ rs[1]? = some (.error "sync timeout reached") ∧ rs[2]? = some (.value (some 7)) := by
  refine ⟨[{ now1 := 0, now2 := 1, timeout := some (.value 1), arg := .value 6, cond := .value (some false), result := none },
      { now1 := 0, now2 := 2000000000, timeout := some (.value 1), arg := .value 6, cond := .value (some false), result := none },
      { now1 := 0, now2 := 3000000000, timeout := some (.value 1), arg := .value 7, cond := .value (some true), result := none }],
    _, rfl, ?_, ?_⟩ <;> rfl

/-- **C46** (exception): the waiting time is computed in 64 bits. A timeout of more than 292
years fails at once. -/
theorem sync_overflow_defect : ∃ (x : SView Nat),
    x.timeout = some (.value 9223372037) ∧ x.cond = .value (some false) ∧ x.now2 = x.now1 ∧
    syncStep {} x = .error "sync timeout reached" := by
  refine ⟨{ now1 := 0, now2 := 0, timeout := some (.value 9223372037), arg := .value 6, cond := .value (some false), result := none },
    rfl, rfl, rfl, rfl⟩

/-- **C46** (exception): a retry is noticed by the processing only by the time of the last
evaluation kept in the expression: if the clock shows the same time again, the expression does
not change any more, and the processing ends with an unresolved expression. -/
theorem sync_clock_defect (s : SyncSt) (x : SView V) (d : Int) (hd : WaitTime x.timeout d) (ha : x.argDone)
    (hc : x.cond = .value (some false)) (f t : Int) (hs : s = { first := some f, last := some t })
    (hlt : x.now2 < f + d) :
    (syncStep s x = .again s ↔ x.now2 = t) := by
  have h := (sync_evaluation (s := s) hd ha).2.1 hc (by rw [hs]; simpa using hlt)
  rw [h, hs]
  simp

example : WaitTime (some (.value 3)) 3000000000 := .seconds 3 (by unfold InInt64; omega)

end Spiff
