import Verif.Lemmas.Reorder5
import Verif.Model.Eval
/-
The evaluation of expressions in environments that are equal up to the order of fields.
-/
namespace Spiff
open Spec

/-- the same result up to the order of fields -/
def EvSame : Ev → Ev → Prop
  | .val v i, .val v' i' => VSame v v' ∧ i = i'
  | .fail i, .fail i' => i = i'
  | .crash, .crash => True
  | _, _ => False

def ResSame : Res → Res → Prop
  | .done v i, .done v' i' => VSame v v' ∧ i = i'
  | .pend e i, .pend e' i' => e = e' ∧ i = i'
  | .fail i, .fail i' => i = i'
  | .crash, .crash => True
  | _, _ => False

def OutSame {E : Type} : Out (Val E) → Out (Val E) → Prop
  | .ok v, .ok v' => VSame v v'
  | .err, .err => True
  | .undet, .undet => True
  | .panic, .panic => True
  | _, _ => False

/-- bindings that give the same results up to the order of fields -/
structure BindSame (b b' : Bind) : Prop where
  ref : ∀ p, LookSame (b.ref p) (b'.ref p)
  root : ∀ p, LookSame (b.root p) (b'.root p)
  stub : ∀ p, Both Same (b.stub p) (b'.stub p)
  path : b.path = b'.path
  source : b.source = b'.source
  proj : VSame b.proj b'.proj

theorem evSame_cases {o o' : Ev} (h : EvSame o o') : (∃ v v' i, o = .val v i ∧ o' = .val v' i ∧ VSame v v') ∨ (∃ i, o = .fail i ∧ o' = .fail i) ∨
    (o = .crash ∧ o' = .crash) := by
  cases o <;> cases o' <;> simp only [EvSame] at h
  · obtain ⟨h, rfl⟩ := h
    exact .inl ⟨_, _, _, rfl, rfl, h⟩
  · cases h
    exact .inr (.inl ⟨_, rfl, rfl⟩)
  · exact .inr (.inr ⟨rfl, rfl⟩)

theorem resSame_cases {o o' : Res} (h : ResSame o o') : (∃ v v' i, o = .done v i ∧ o' = .done v' i ∧ VSame v v') ∨ (∃ e i, o = .pend e i ∧ o' = .pend e i) ∨
    (∃ i, o = .fail i ∧ o' = .fail i) ∨ (o = .crash ∧ o' = .crash) := by
  cases o <;> cases o' <;> simp only [ResSame] at h
  · obtain ⟨h, rfl⟩ := h
    exact .inl ⟨_, _, _, rfl, rfl, h⟩
  · obtain ⟨rfl, rfl⟩ := h
    exact .inr (.inl ⟨_, _, rfl, rfl⟩)
  · cases h
    exact .inr (.inr (.inl ⟨_, rfl, rfl⟩))
  · exact .inr (.inr (.inr ⟨rfl, rfl⟩))

theorem evs_val {v v' : Val Ex} {i : Info} (h : VSame v v') : EvSame (.val v i) (.val v' i) := ⟨h, rfl⟩
theorem evs_leaf {v : Val Ex} {i : Info} (h : isLeaf v = true) : EvSame (.val v i) (.val v i) := ⟨vsame_leaf h, rfl⟩
theorem evs_expr {e : Ex} {i : Info} : EvSame (.val (.expr e) i) (.val (.expr e) i) := ⟨rfl, rfl⟩
theorem evs_fail {i : Info} : EvSame (.fail i) (.fail i) := rfl
theorem evs_error {i : Info} {s : String} : EvSame (i.error s) (i.error s) := rfl
theorem evs_crash : EvSame .crash .crash := trivial

theorem resolve_same (e : Ex) (info : Option Info) {o o' : Ev} (h : EvSame o o') : ResSame (resolve e info o) (resolve e info o') := by
  rcases evSame_cases h with ⟨v, v', i, rfl, rfl, hv⟩ | ⟨i, rfl, rfl⟩ | ⟨rfl, rfl⟩
  · simp only [resolve]
    rcases vsame_cases hv with ⟨e, hl⟩ | ⟨l1, l2, e, e', h1⟩ | ⟨m, m', e, e', h1⟩ | ⟨x, x', e, e', h1⟩
    · subst e
      cases v <;> first | exact ⟨rfl, rfl⟩ | (exact ⟨vsame_leaf hl, rfl⟩)
    all_goals
      subst e e'
      exact ⟨hv, rfl⟩
  · rfl
  · trivial

theorem outEv_same (i : Info) {o o' : Out (Val Ex)} (h : OutSame o o') : EvSame (outEv i o) (outEv i o') := by
  cases o <;> cases o' <;> simp only [OutSame] at h
  · exact evs_val h
  · exact evs_error
  · exact evs_fail
  · exact evs_crash

/-! ### values -/

theorem outSame_leaf {E : Type} {o : Out (Val E)} (h : ∀ v, o = .ok v → isLeaf v = true) : OutSame o o := by
  cases o <;> simp only [OutSame]
  exact vsame_leaf (h _ rfl)

theorem toBool_same {E : Type} {v v' : Val E} (h : VSame v v') : toBool v = toBool v' := by
  rcases vsame_cases h with ⟨rfl, hl⟩ | ⟨l1, l2, rfl, rfl, h1⟩ | ⟨m, m', rfl, rfl, h1⟩ | ⟨x, x', rfl, rfl, h1⟩
  · rfl
  · cases h1 <;> rfl
  · simp only [toBool]
    have := h1.keys.length_eq
    simp only [mkeys, List.length_map] at this
    cases m <;> cases m' <;> first | rfl | (simp at this; done)
  · rfl

theorem intOperand_same {E : Type} {v v' : Val E} (h : VSame v v') : intOperand v = intOperand v' := by
  rcases vsame_cases h with ⟨rfl, hl⟩ | ⟨l1, l2, rfl, rfl, h1⟩ | ⟨m, m', rfl, rfl, h1⟩ | ⟨x, x', rfl, rfl, h1⟩ <;> rfl

theorem vsame_isExpr' {E : Type} {v v' : Val E} (h : VSame v v') : v.isExpr = v'.isExpr := vsame_isExpr h

/-- the operations that look at scalars only -/
theorem addVals_same (lib : Lib) {a a' b b' : Val Ex} (ha : VSame a a') (hb : VSame b b') : OutSame (addVals lib a b) (addVals lib a' b') := by
  have : addVals lib a b = addVals lib a' b' := by
    rcases vsame_cases ha with ⟨rfl, hl⟩ | ⟨l1, l2, rfl, rfl, h1⟩ | ⟨m, m', rfl, rfl, h1⟩ | ⟨x, x', rfl, rfl, h1⟩ <;>
    rcases vsame_cases hb with ⟨rfl, hl⟩ | ⟨l1, l2, rfl, rfl, h1⟩ | ⟨m, m', rfl, rfl, h1⟩ | ⟨x, x', rfl, rfl, h1⟩ <;> first | rfl | (cases a <;> rfl)
  rw [← this]
  refine outSame_leaf ?_
  intro v hv
  unfold addVals moveAddr numberOperands at hv
  repeat' split at hv
  all_goals first | (cases hv; done) | (cases hv; rfl)

theorem subVals_same (lib : Lib) {a a' b b' : Val Ex} (ha : VSame a a') (hb : VSame b b') : OutSame (subVals lib a b) (subVals lib a' b') := by
  have : subVals lib a b = subVals lib a' b' := by
    rcases vsame_cases ha with ⟨rfl, hl⟩ | ⟨l1, l2, rfl, rfl, h1⟩ | ⟨m, m', rfl, rfl, h1⟩ | ⟨x, x', rfl, rfl, h1⟩ <;>
    rcases vsame_cases hb with ⟨rfl, hl⟩ | ⟨l1, l2, rfl, rfl, h1⟩ | ⟨m, m', rfl, rfl, h1⟩ | ⟨x, x', rfl, rfl, h1⟩ <;> first | rfl | (cases a <;> rfl)
  rw [← this]
  refine outSame_leaf ?_
  intro v hv
  unfold subVals moveAddr numberOperands at hv
  repeat' split at hv
  all_goals first | (cases hv; done) | (cases hv; rfl)

theorem mulVals_same (lib : Lib) {a a' b b' : Val Ex} (ha : VSame a a') (hb : VSame b b') : OutSame (mulVals lib a b) (mulVals lib a' b') := by
  have : mulVals lib a b = mulVals lib a' b' := by
    rcases vsame_cases ha with ⟨rfl, hl⟩ | ⟨l1, l2, rfl, rfl, h1⟩ | ⟨m, m', rfl, rfl, h1⟩ | ⟨x, x', rfl, rfl, h1⟩ <;>
    rcases vsame_cases hb with ⟨rfl, hl⟩ | ⟨l1, l2, rfl, rfl, h1⟩ | ⟨m, m', rfl, rfl, h1⟩ | ⟨x, x', rfl, rfl, h1⟩ <;> first | rfl | (cases a <;> rfl)
  rw [← this]
  refine outSame_leaf ?_
  intro v hv
  unfold mulVals numberOperands at hv
  repeat' split at hv
  all_goals first | (cases hv; done) | (cases hv; rfl)

theorem divVals_same (lib : Lib) {a a' b b' : Val Ex} (ha : VSame a a') (hb : VSame b b') : OutSame (divVals lib a b) (divVals lib a' b') := by
  have : divVals lib a b = divVals lib a' b' := by
    rcases vsame_cases ha with ⟨rfl, hl⟩ | ⟨l1, l2, rfl, rfl, h1⟩ | ⟨m, m', rfl, rfl, h1⟩ | ⟨x, x', rfl, rfl, h1⟩ <;>
    rcases vsame_cases hb with ⟨rfl, hl⟩ | ⟨l1, l2, rfl, rfl, h1⟩ | ⟨m, m', rfl, rfl, h1⟩ | ⟨x, x', rfl, rfl, h1⟩ <;> first | rfl | (cases a <;> rfl)
  rw [← this]
  refine outSame_leaf ?_
  intro v hv
  unfold divVals numberOperands at hv
  repeat' split at hv
  all_goals first | (cases hv; done) | (cases hv; rfl)

theorem modVals_same {a a' b b' : Val Ex} (ha : VSame a a') (hb : VSame b b') : OutSame (modVals a b) (modVals a' b') := by
  unfold modVals
  rw [intOperand_same ha, intOperand_same hb]
  refine outSame_leaf ?_
  intro v hv
  repeat' split at hv
  all_goals first | (cases hv; done) | (cases hv; rfl)

theorem compareVals_same (op : CmpOp) {a a' b b' : Val Ex} (ha : VSame a a') (hb : VSame b b') : compareVals op a b = compareVals op a' b' := by
  have h1 : eqComparable a b = eqComparable a' b' := by
    rcases vsame_cases ha with ⟨rfl, hl⟩ | ⟨l1, l2, rfl, rfl, h1⟩ | ⟨m, m', rfl, rfl, h1⟩ | ⟨x, x', rfl, rfl, h1⟩ <;>
    rcases vsame_cases hb with ⟨rfl, hl⟩ | ⟨l1, l2, rfl, rfl, h1⟩ | ⟨m, m', rfl, rfl, h1⟩ | ⟨x, x', rfl, rfl, h1⟩ <;> first | rfl | (cases a <;> rfl) | (cases b <;> rfl)
  have h2 : ordVals op a b = ordVals op a' b' := by
    rcases vsame_cases ha with ⟨rfl, hl⟩ | ⟨l1, l2, rfl, rfl, h1⟩ | ⟨m, m', rfl, rfl, h1⟩ | ⟨x, x', rfl, rfl, h1⟩ <;>
    rcases vsame_cases hb with ⟨rfl, hl⟩ | ⟨l1, l2, rfl, rfl, h1⟩ | ⟨m, m', rfl, rfl, h1⟩ | ⟨x, x', rfl, rfl, h1⟩ <;> first | rfl | (cases a <;> rfl)
  unfold compareVals
  rw [h1, h2, eqVals_same ha hb]

theorem compareVals_leaf (op : CmpOp) {a b v : Val Ex} (h : compareVals op a b = .ok v) : isLeaf v = true := by
  unfold compareVals ordVals at h
  repeat' split at h
  all_goals first | (cases h; done) | (cases h; rfl)

theorem logAnd_same {a a' : Val Ex} (ha : VSame a a') {b b' : Option (Val Ex)} (hb : Both VSame b b') : OutSame (logAnd a b) (logAnd a' b') := by
  have : logAnd a b = logAnd a' b' := by
    rcases both_some hb with ⟨rfl, rfl⟩ | ⟨x, y, rfl, rfl, hb⟩
    · simp only [logAnd, toBool_same ha]
      rcases vsame_cases ha with ⟨rfl, hl⟩ | ⟨l1, l2, rfl, rfl, h1⟩ | ⟨m, m', rfl, rfl, h1⟩ | ⟨x, x', rfl, rfl, h1⟩ <;> rfl
    · simp only [logAnd, toBool_same ha, toBool_same hb]
      rcases vsame_cases ha with ⟨rfl, hl⟩ | ⟨l1, l2, rfl, rfl, h1⟩ | ⟨m, m', rfl, rfl, h1⟩ | ⟨x, x', rfl, rfl, h1⟩ <;>
      rcases vsame_cases hb with ⟨rfl, hl⟩ | ⟨l1, l2, rfl, rfl, h1⟩ | ⟨m, m', rfl, rfl, h1⟩ | ⟨x, x', rfl, rfl, h1⟩ <;> first | rfl | (cases a <;> rfl)
  rw [← this]
  refine outSame_leaf ?_
  intro v hv
  unfold logAnd at hv
  repeat' split at hv
  all_goals first | (cases hv; done) | (cases hv; rfl)

theorem logOr_same {a a' : Val Ex} (ha : VSame a a') {b b' : Option (Val Ex)} (hb : Both VSame b b') : OutSame (logOr a b) (logOr a' b') := by
  have : logOr a b = logOr a' b' := by
    rcases both_some hb with ⟨rfl, rfl⟩ | ⟨x, y, rfl, rfl, hb⟩
    · simp only [logOr, toBool_same ha]
      rcases vsame_cases ha with ⟨rfl, hl⟩ | ⟨l1, l2, rfl, rfl, h1⟩ | ⟨m, m', rfl, rfl, h1⟩ | ⟨x, x', rfl, rfl, h1⟩ <;> rfl
    · simp only [logOr, toBool_same ha, toBool_same hb]
      rcases vsame_cases ha with ⟨rfl, hl⟩ | ⟨l1, l2, rfl, rfl, h1⟩ | ⟨m, m', rfl, rfl, h1⟩ | ⟨x, x', rfl, rfl, h1⟩ <;>
      rcases vsame_cases hb with ⟨rfl, hl⟩ | ⟨l1, l2, rfl, rfl, h1⟩ | ⟨m, m', rfl, rfl, h1⟩ | ⟨x, x', rfl, rfl, h1⟩ <;> first | rfl | (cases a <;> rfl)
  rw [← this]
  refine outSame_leaf ?_
  intro v hv
  unfold logOr at hv
  repeat' split at hv
  all_goals first | (cases hv; done) | (cases hv; rfl)

theorem mget_concatMap {E : Type} (m m' : List (String × Node E)) (h' : MapOK m') (k : String) :
    mget (concatMap m m') k = (mget m' k).or (mget m k) := by
  unfold concatMap
  induction m' generalizing m with
  | nil => simp [mget]
  | cons e r ih =>
    obtain ⟨ke, ve⟩ := e
    have hr : MapOK r := (List.nodup_cons.1 h').2
    have hk : ke ∉ mkeys r := (List.nodup_cons.1 h').1
    rw [List.foldl_cons, ih _ hr, mget_mset]
    simp only [mget]
    by_cases hke : ke = k
    · subst hke
      rw [mget_none_iff.2 hk]
      simp
    · simp [hke, Ne.symm hke]

theorem concatMap_same {E : Type} {m m' n n' : List (String × Node E)} (h : MSame m m') (h' : MSame n n') : MSame (concatMap m n) (concatMap m' n') := by
  have ok : ∀ (b : List (String × Node E)) (a : List (String × Node E)), MapOK a → MapOK (concatMap a b) := by
    intro b
    induction b with
    | nil => exact fun a h => h
    | cons e r ih => exact fun a h => ih _ (MapOK_mset h _ _)
  refine ⟨ok _ _ h.1, ok _ _ h.2.1, fun k => ?_⟩
  rw [mget_concatMap _ _ h'.1, mget_concatMap _ _ h'.2.1]
  rcases both_some (h'.2.2 k) with ⟨e, e'⟩ | ⟨x, y, e, e', hxy⟩
  · rw [e, e']; exact h.2.2 k
  · rw [e, e']; exact hxy

theorem concatVals_same (src : String) {a a' b b' : Val Ex} (ha : VSame a a') (hb : VSame b b') : OutSame (concatVals src a b) (concatVals src a' b') := by
  have hcs : concatString a b = concatString a' b' := by
    rcases vsame_cases ha with ⟨rfl, hl⟩ | ⟨l1, l2, rfl, rfl, h1⟩ | ⟨m, m', rfl, rfl, h1⟩ | ⟨x, x', rfl, rfl, h1⟩ <;>
    rcases vsame_cases hb with ⟨rfl, hl⟩ | ⟨l1, l2, rfl, rfl, h1⟩ | ⟨m, m', rfl, rfl, h1⟩ | ⟨x, x', rfl, rfl, h1⟩ <;> first | rfl | (cases a <;> rfl)
  unfold concatVals
  rw [← hcs]
  clear hcs
  cases concatString a b with
  | some s => exact (rfl : Val.str s = Val.str s)
  | none =>
    simp only
    rcases vsame_cases ha with ⟨rfl, hl⟩ | ⟨l1, l2, rfl, rfl, h1⟩ | ⟨m, m', rfl, rfl, h1⟩ | ⟨x, x', rfl, rfl, h1⟩
    · cases a <;> first | trivial | (simp [isLeaf] at hl; done)
    · rcases vsame_cases hb with ⟨rfl, hl⟩ | ⟨k1, k2, rfl, rfl, h2⟩ | ⟨m, m', rfl, rfl, h2⟩ | ⟨x, x', rfl, rfl, h2⟩
      · cases b <;> simp only [isLeaf, Bool.false_eq_true] at hl <;> first | exact h1 | exact List.rel_append h1 (.cons (same_new (vsame_leaf (by rfl)) _) .nil)
      · exact List.rel_append h1 h2
      · exact List.rel_append h1 (.cons (same_new hb _) .nil)
      · exact List.rel_append h1 (.cons (same_new hb _) .nil)
    · rcases vsame_cases hb with ⟨rfl, hl⟩ | ⟨k1, k2, rfl, rfl, h2⟩ | ⟨m, m', rfl, rfl, h2⟩ | ⟨x, x', rfl, rfl, h2⟩
      · cases b <;> simp only [isLeaf, Bool.false_eq_true] at hl <;> first | exact h1 | trivial
      · trivial
      · exact concatMap_same h1 h2
      · trivial
    · trivial

end Spiff
