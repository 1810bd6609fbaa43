import Verif.Lemmas.Reorder7
/-
The evaluation of expressions in environments that are equal up to the order of fields: composed expressions.
-/
namespace Spiff
open Spec

/-! ### calls -/

/-- A builtin function whose results do not depend on the order of fields. -/
def FnSame (f : List (Val Ex) → String → Out (Val Ex × Info)) : Prop :=
  ∀ vs vs' src, List.Forall₂ VSame vs vs' →
    (∃ v v' i, f vs src = .ok (v, i) ∧ f vs' src = .ok (v', i) ∧ VSame v v') ∨
    (f vs src = f vs' src ∧ ∀ r, f vs src ≠ .ok r)

theorem callEv_same (X : EvLib) (fn : String) (hX : ∀ f, X.fn fn = some f → FnSame f) {b b' : Bind} (hb : BindSame b b') {l l' : List (Ex × Ev)} (h : ArgsSame l l') :
    EvSame (callEv X b fn l) (callEv X b' fn l') := by
  unfold callEv
  rcases resLSame_cases (resolveList_same h) with ⟨vs, vs', es, r, i, e, e', h⟩ | ⟨i, e, e'⟩ | ⟨e, e'⟩
  · simp only [e, e']
    split
    · cases hf : X.fn fn with
      | none => exact evs_error
      | some f =>
        simp only
        split
        · exact evs_leaf rfl
        · rw [hb.source]
          rcases hX f hf vs vs' b'.source h with ⟨v, v', j, e, e', hv⟩ | ⟨e, hn⟩
          · rw [e, e']
            simp only [← vsame_isExpr hv]
            split
            · exact evs_expr
            · exact evs_val hv
          · rw [← e]
            cases hr : f vs b'.source with
            | ok r => exact absurd hr (hn r)
            | err => exact evs_fail
            | undet => exact evs_fail
            | panic => exact evs_crash
    · exact evs_expr
  · rw [e, e']; exact evs_fail
  · rw [e, e']; exact evs_crash

/-! ### maps and scopes -/

def ResMSame : ResM → ResM → Prop
  | .done m, .done m' => MSame m m'
  | .pend i, .pend i' => i = i'
  | .fail i, .fail i' => i = i'
  | .crash, .crash => True
  | _, _ => False

theorem resMSame_cases {o o' : ResM} (h : ResMSame o o') : (∃ m m', o = .done m ∧ o' = .done m' ∧ MSame m m') ∨ (∃ i, o = .pend i ∧ o' = .pend i) ∨
    (∃ i, o = .fail i ∧ o' = .fail i) ∨ (o = .crash ∧ o' = .crash) := by
  cases o <;> cases o' <;> simp only [ResMSame] at h
  · exact .inl ⟨_, _, rfl, rfl, h⟩
  · cases h; exact .inr (.inl ⟨_, rfl, rfl⟩)
  · cases h; exact .inr (.inr (.inl ⟨_, rfl, rfl⟩))
  · exact .inr (.inr (.inr ⟨rfl, rfl⟩))

theorem assignEv_same {b b' : Bind} (hb : BindSame b b') : ∀ {l l' : List (Ex × Ev)}, ArgsSame l l' → ∀ {acc acc' : List (String × Node Ex)}, MSame acc acc' →
    ResMSame (assignEv b l acc) (assignEv b' l' acc') := by
  suffices H : ∀ (n : Nat) {l l' : List (Ex × Ev)}, l.length ≤ n → ArgsSame l l' → ∀ {acc acc' : List (String × Node Ex)}, MSame acc acc' →
      ResMSame (assignEv b l acc) (assignEv b' l' acc') from
    fun {_ _} h {_ _} ha => H _ (Nat.le_refl _) h ha
  intro n
  induction n with
  | zero =>
    intro l l' hl h acc acc' ha
    cases h with
    | nil => exact ha
    | cons _ _ => simp at hl
  | succ n ih =>
    intro l l' hl h acc acc' ha
    cases h with
    | nil => exact ha
    | @cons a a' r r' h1 hr =>
      cases hr with
      | nil => exact ha
      | @cons c c' r r' h2 hr =>
        obtain ⟨ek, k⟩ := a
        obtain ⟨_, k'⟩ := a'
        obtain ⟨ev, v⟩ := c
        obtain ⟨_, v'⟩ := c'
        obtain ⟨h1e, h1⟩ := h1
        obtain ⟨h2e, h2⟩ := h2
        cases h1e
        cases h2e
        simp only [assignEv]
        rcases resSame_cases (resolve_same ek (some {}) h1) with ⟨v, v', i, e, e', hv⟩ | ⟨e1, i, e, e'⟩ | ⟨i, e, e'⟩ | ⟨e, e'⟩
        · simp only [e, e']
          rcases vsame_cases hv with ⟨rfl, hlf⟩ | ⟨l1, l2, rfl, rfl, h1⟩ | ⟨m, m', rfl, rfl, h1⟩ | ⟨x, x', rfl, rfl, h1⟩
          · cases v <;> first | exact (rfl : (_ : Info) = _) | skip
            rcases resSame_cases (resolve_same ev (some i) h2) with ⟨w, w', j, e, e', hw⟩ | ⟨e1, j, e, e'⟩ | ⟨j, e, e'⟩ | ⟨e, e'⟩
            · simp only [e, e', hb.source]
              refine ih ?_ hr (msame_mset ha (same_new hw _) _)
              simp only [List.length_cons] at hl
              omega
            · simp only [e, e']; exact (rfl : (_ : Info) = _)
            · simp only [e, e']; exact (rfl : (_ : Info) = _)
            · simp only [e, e']; trivial
          all_goals exact (rfl : (_ : Info) = _)
        · simp only [e, e']; exact (rfl : (_ : Info) = _)
        · simp only [e, e']; exact (rfl : (_ : Info) = _)
        · simp only [e, e']; trivial

theorem mapEv_same (e : Ex) {b b' : Bind} (hb : BindSame b b') {l l' : List (Ex × Ev)} (h : ArgsSame l l') : EvSame (mapEv e b l) (mapEv e b' l') := by
  unfold mapEv
  rcases resMSame_cases (assignEv_same hb h msame_nil) with ⟨m, m', e, e', hm⟩ | ⟨i, e, e'⟩ | ⟨i, e, e'⟩ | ⟨e, e'⟩
  · rw [e, e']; exact evs_val hm
  · rw [e, e']; exact evs_expr
  · rw [e, e']; exact evs_fail
  · rw [e, e']; exact evs_crash

theorem scopeEv_same (X : EvLib) (e : Ex) {b b' : Bind} (hb : BindSame b b') {l l' : List (Ex × Ev)} (h : ArgsSame l l') {f f' : Bind → Ev}
    (hf : ∀ {c c' : Bind}, BindSame c c' → EvSame (f c) (f' c')) : EvSame (scopeEv X e b l f) (scopeEv X e b' l' f') := by
  unfold scopeEv
  rcases resMSame_cases (assignEv_same hb h msame_nil) with ⟨m, m', e, e', hm⟩ | ⟨i, e, e'⟩ | ⟨i, e, e'⟩ | ⟨e, e'⟩
  · rw [e, e']
    simp only
    rcases evSame_cases (hf (withLocal_same X hb hm)) with ⟨w, w', j, e, e', hw⟩ | ⟨j, e, e'⟩ | ⟨e, e'⟩
    · rw [e, e']
      simp only [← vsame_isExpr hw]
      split
      · exact evs_expr
      · exact evs_val hw
    · rw [e, e']; exact evs_fail
    · rw [e, e']; exact evs_crash
  · rw [e, e']; exact evs_expr
  · rw [e, e']; exact evs_fail
  · rw [e, e']; exact evs_crash

theorem mergeEv_same {b b' : Bind} (hb : BindSame b b') (m : MergeSpec) : EvSame (mergeEv b m) (mergeEv b' m) := by
  unfold mergeEv
  simp only
  split
  · exact evs_leaf rfl
  · rcases both_some (hb.stub m.path) with ⟨e, e'⟩ | ⟨x, y, e, e', hxy⟩
    · rw [e, e']; exact evs_error
    · rw [e, e']
      simp only [← hxy.src, ← hxy.flags]
      exact evs_val hxy.val

/-! ### ranges, slices, qualified expressions -/

theorem resolveInt_same (e : Ex) {o o' : Ev} (h : EvSame o o') : resolveInt e o = resolveInt e o' := by
  unfold resolveInt
  rcases resSame_cases (resolve_same e (some {}) h) with ⟨v, v', i, e, e', hv⟩ | ⟨e1, i, e, e'⟩ | ⟨i, e, e'⟩ | ⟨e, e'⟩
  · simp only [e, e', intOperand_same hv]
  · simp only [e, e']
  · simp only [e, e']
  · simp only [e, e']

theorem rangeEv_same (e es et : Ex) {b b' : Bind} (hb : BindSame b b') {s s' t t' : Ev} (hs : EvSame s s') (ht : EvSame t t') :
    EvSame (rangeEv e es et b s t) (rangeEv e es et b' s' t') := by
  unfold rangeEv
  rw [← resolveInt_same es hs, ← resolveInt_same et ht, hb.source]
  have hr : ∀ o, boundsEv (resolveInt es s) (resolveInt et t) = .inr o → EvSame o o := by
    intro o ho
    unfold boundsEv at ho
    repeat' split at ho
    all_goals first | (cases ho; done) | (cases ho; exact evs_crash) | (cases ho; exact evs_fail)
  cases h : boundsEv (resolveInt es s) (resolveInt et t) with
  | inr o => exact hr o h
  | inl o =>
    cases o with
    | none => exact evs_expr
    | some p =>
      obtain ⟨x, y⟩ := p
      simp only
      cases rangeVals ((y - x).natAbs + 2) x y with
      | none => exact evs_crash
      | some l =>
        refine evs_val ?_
        show List.Forall₂ Same _ _
        induction l with
        | nil => exact .nil
        | cons a r ih => exact .cons (same_new (vsame_leaf rfl) _) ih

theorem copyRange_same {l l' : List (Node Ex)} (h : List.Forall₂ Same l l') (k : Int) (n : Nat) : Both (List.Forall₂ Same) (copyRange l k n) (copyRange l' k n) := by
  induction n generalizing k with
  | zero => exact List.Forall₂.nil
  | succ n ih =>
    simp only [copyRange]
    rcases both_some (forall2_get h k.toNat) with ⟨e, e'⟩ | ⟨x, y, e, e', hxy⟩
    all_goals
      rcases both_some (ih (k + 1)) with ⟨g, g'⟩ | ⟨z, w, g, g', hzw⟩
      all_goals
        simp only [e, e', g, g']
        first
        | (split <;> trivial)
        | trivial
        | (split <;> first | trivial | exact List.Forall₂.cons hxy hzw)

theorem sliceVals_same {l l' : List (Node Ex)} (h : List.Forall₂ Same l l') (s t : Option Int) : OutSame (sliceVals (.list l) s t) (sliceVals (.list l') s t) := by
  simp only [sliceVals, ← h.length_eq]
  split
  · trivial
  · rename_i x y _
    split
    · exact List.Forall₂.nil
    · split
      · split
        · trivial
        · split
          · trivial
          · rcases both_some (copyRange_same h (x + l.length) (y - x + 1).toNat) with ⟨e, e'⟩ | ⟨x, y, e, e', hxy⟩
            · simp only [e, e']; trivial
            · simp only [e, e']; exact hxy
      · split
        · trivial
        · rcases both_some (copyRange_same h x (y - x + 1).toNat) with ⟨e, e'⟩ | ⟨x, y, e, e', hxy⟩
          · simp only [e, e']; trivial
          · simp only [e, e']; exact hxy

theorem sliceEv_same (X : EvLib) (e es et : Ex) {r r' : Ev} (hr : EvSame r r') {s s' t t' : Option Ev} (hs : Both EvSame s s') (ht : Both EvSame t t') (loc : Bool) :
    EvSame (sliceEv X e es et r s t loc) (sliceEv X e es et r' s' t' loc) := by
  have bd : ∀ (ex : Ex) {o o' : Option Ev}, Both EvSame o o' → sliceBound ex o = sliceBound ex o' := by
    intro ex o o' h
    rcases both_some h with ⟨rfl, rfl⟩ | ⟨x, y, rfl, rfl, hxy⟩
    · rfl
    · exact resolveInt_same ex hxy
  rcases evSame_cases hr with ⟨v, v', i, rfl, rfl, hv⟩ | ⟨i, rfl, rfl⟩ | ⟨rfl, rfl⟩
  · simp only [sliceEv, ← localReady_same X.ctl hv, ← completeV_same X.ctl hv, ← bd es hs, ← bd et ht]
    have n1 : s.isNone = s'.isNone := by rcases both_some hs with ⟨rfl, rfl⟩ | ⟨x, y, rfl, rfl, hxy⟩ <;> rfl
    have n2 : t.isNone = t'.isNone := by rcases both_some ht with ⟨rfl, rfl⟩ | ⟨x, y, rfl, rfl, hxy⟩ <;> rfl
    have m1 : ∀ x : Int, s.map (fun _ => x) = s'.map (fun _ => x) := by intro x; rcases both_some hs with ⟨rfl, rfl⟩ | ⟨x, y, rfl, rfl, hxy⟩ <;> rfl
    have m2 : ∀ x : Int, t.map (fun _ => x) = t'.map (fun _ => x) := by intro x; rcases both_some ht with ⟨rfl, rfl⟩ | ⟨x, y, rfl, rfl, hxy⟩ <;> rfl
    split
    · exact evs_expr
    · split
      · exact evs_expr
      · rcases vsame_cases hv with ⟨rfl, hl⟩ | ⟨l1, l2, rfl, rfl, h1⟩ | ⟨m, m', rfl, rfl, h1⟩ | ⟨x, x', rfl, rfl, h1⟩
        · cases v <;> first | exact evs_error | (simp [isLeaf] at hl; done)
        · simp only [← n1, ← n2, ← m1, ← m2]
          split
          · exact evs_fail
          · split
            · exact evs_crash
            · exact evs_fail
            · exact evs_expr
            · exact outEv_same _ (sliceVals_same h1 _ _)
        · exact evs_error
        · exact evs_error
  · exact evs_fail
  · exact evs_crash

theorem qualEv_same (X : EvLib) (e : Ex) (path : List String) {r r' : Ev} (hr : EvSame r r') (loc : Bool) : EvSame (qualEv X e path r loc) (qualEv X e path r' loc) := by
  rcases evSame_cases hr with ⟨v, v', i, rfl, rfl, hv⟩ | ⟨i, rfl, rfl⟩ | ⟨rfl, rfl⟩
  · simp only [qualEv, ← localReady_same X.ctl hv, ← completeV_same X.ctl hv]
    split
    · rcases vsame_cases hv with ⟨rfl, hl⟩ | ⟨l1, l2, rfl, rfl, h1⟩ | ⟨m, m', rfl, rfl, h1⟩ | ⟨x, x', rfl, rfl, h1⟩
      · cases v <;> exact evs_expr
      all_goals exact evs_expr
    · split
      · exact evs_expr
      · exact refFind_same _ _ _ (fun k => findR_same X.ctl false _ (same_new hv _)) _
  · exact evs_fail
  · exact evs_crash

/-- the components given by the entries of an index list -/
theorem pathEntries_same {l l' : List (Node Ex)} (h : List.Forall₂ Same l l') :
    l.mapM (fun n => match n.val with | .int k => some ("[" ++ toString k ++ "]") | .str s => some s | _ => none) =
    l'.mapM (fun n => match n.val with | .int k => some ("[" ++ toString k ++ "]") | .str s => some s | _ => none) := by
  induction h with
  | nil => rfl
  | @cons a b l l' h _ ih =>
    rw [List.mapM_cons, List.mapM_cons, ih]
    rcases vsame_cases h.val with ⟨e, hl⟩ | ⟨l1, l2, e, e', h1⟩ | ⟨m, m', e, e', h1⟩ | ⟨x, x', e, e', h1⟩
    · rw [e]
    · rw [e, e']
    · rw [e, e']
    · rw [e, e']

theorem strEntries_same {l l' : List (Node Ex)} (h : List.Forall₂ Same l l') : strList l = strList l' := by
  unfold strList
  induction h with
  | nil => rfl
  | @cons a b l l' h _ ih =>
    rw [List.mapM_cons, List.mapM_cons, ih]
    rcases vsame_cases h.val with ⟨e, hl⟩ | ⟨l1, l2, e, e', h1⟩ | ⟨m, m', e, e', h1⟩ | ⟨x, x', e, e', h1⟩
    · rw [e]
    · rw [e, e']
    · rw [e, e']
    · rw [e, e']

/-- the path for an index value that is already unwrapped -/
def dynPath1 (root ix : Val Ex) : Option (List String) :=
  match ix with
  | .int k => match root with
    | .list _ => some ["[" ++ toString k ++ "]"]
    | _ => none
  | .str s => some [s]
  | .list l => if l.isEmpty then none
    else l.mapM (fun n => match n.val with
      | .int k => some ("[" ++ toString k ++ "]")
      | .str s => some s
      | _ => none)
  | _ => none

theorem dynPath1_same {r r' ix ix' : Val Ex} (hr : VSame r r') (hi : VSame ix ix') : dynPath1 r ix = dynPath1 r' ix' := by
  rcases vsame_cases hi with ⟨rfl, hl⟩ | ⟨l1, l2, rfl, rfl, h1⟩ | ⟨m, m', rfl, rfl, h1⟩ | ⟨x, x', rfl, rfl, h1⟩
  · cases ix <;> first | rfl | (simp [isLeaf] at hl; done) | skip
    rcases vsame_cases hr with ⟨rfl, hl⟩ | ⟨l1, l2, rfl, rfl, h1⟩ | ⟨m, m', rfl, rfl, h1⟩ | ⟨x, x', rfl, rfl, h1⟩ <;> rfl
  · simp only [dynPath1]
    rw [pathEntries_same h1]
    cases h1 <;> rfl
  · rfl
  · rfl

theorem dynPath_same {r r' ix ix' : Val Ex} (hr : VSame r r') (hi : VSame ix ix') : dynPath r ix = dynPath r' ix' := by
  have h0 : ∀ r (ix : Val Ex), dynPath r ix = dynPath1 r (match ix with | .list [n] => n.val | v => v) := fun _ _ => rfl
  rw [h0, h0]
  refine dynPath1_same hr ?_
  rcases vsame_cases hi with ⟨rfl, hl⟩ | ⟨l1, l2, rfl, rfl, h1⟩ | ⟨m, m', rfl, rfl, h1⟩ | ⟨x, x', rfl, rfl, h1⟩
  · cases ix <;> first | exact hi | (simp [isLeaf] at hl; done)
  · cases h1 with
    | nil => exact hi
    | cons h h1 => cases h1 with
      | nil => exact h.val
      | cons h1 h2 => exact hi
  · exact hi
  · exact hi

theorem dynEv_same (X : EvLib) (e : Ex) {r r' : Ev} (hr : EvSame r r') {f f' : Bool → Ev} (hf : ∀ l, EvSame (f l) (f' l)) (loc : Bool) :
    EvSame (dynEv X e r f loc) (dynEv X e r' f' loc) := by
  rcases evSame_cases hr with ⟨v, v', i, rfl, rfl, hv⟩ | ⟨i, rfl, rfl⟩ | ⟨rfl, rfl⟩
  · simp only [dynEv, ← localReady_same X.ctl hv]
    split
    · exact evs_expr
    · rcases evSame_cases (hf (loc || i.raw)) with ⟨w, w', j, e1, e1', hw⟩ | ⟨j, e1, e1'⟩ | ⟨e1, e1'⟩
      · simp only [e1, e1', ← completeV_same X.ctl hw, ← dynPath_same hv hw]
        split
        · exact evs_expr
        · split
          · exact evs_error
          · rename_i p _
            rcases evSame_cases (refFind_same X.ctl (Ex.ref p) p.length (fun k => findR_same X.ctl false (p.take (k + 1)) (same_new hv "dynaml")) true) with
              ⟨w, w', j, e1, e1', hw⟩ | ⟨j, e1, e1'⟩ | ⟨e1, e1'⟩
            · rw [e1, e1']
              simp only [← completeV_same X.ctl hw]
              split
              · exact evs_val hw
              · exact evs_expr
            · rw [e1, e1']; exact evs_fail
            · rw [e1, e1']; exact evs_crash
      · simp only [e1, e1']; exact evs_fail
      · simp only [e1, e1']; exact evs_crash
  · exact evs_fail
  · exact evs_crash

/-! ### intrinsic functions -/

theorem definedEv_same (e : Ex) {l l' : List (Ex × Ev)} (h : ArgsSame l l') : ∀ r, EvSame (definedEv e r l) (definedEv e r l') := by
  induction h with
  | nil =>
    intro r
    simp only [definedEv]
    split
    · exact evs_leaf rfl
    · exact evs_expr
  | @cons a b l l' hab _ ih =>
    intro r
    obtain ⟨x, o⟩ := a
    obtain ⟨_, o'⟩ := b
    obtain ⟨he, ho⟩ := hab
    cases he
    simp only [definedEv]
    rcases resSame_cases (resolve_same x none ho) with ⟨v, v', i, e1, e1', hv⟩ | ⟨_, i, e1, e1'⟩ | ⟨i, e1, e1'⟩ | ⟨e1, e1'⟩
    · simp only [e1, e1']
      split
      · exact evs_leaf rfl
      · exact ih _
    · simp only [e1, e1']; exact ih _
    · simp only [e1, e1']
      split
      · exact evs_leaf rfl
      · exact ih _
    · simp only [e1, e1']; exact evs_crash

theorem validEv_same (e : Ex) {l l' : List (Ex × Ev)} (h : ArgsSame l l') : ∀ r w, EvSame (validEv e r w l) (validEv e r w l') := by
  induction h with
  | nil =>
    intro r w
    simp only [validEv]
    split
    · exact evs_leaf rfl
    · exact evs_expr
  | @cons a b l l' hab _ ih =>
    intro r w
    obtain ⟨x, o⟩ := a
    obtain ⟨_, o'⟩ := b
    obtain ⟨he, ho⟩ := hab
    cases he
    simp only [validEv]
    rcases resSame_cases (resolve_same x none ho) with ⟨v, v', i, e1, e1', hv⟩ | ⟨_, i, e1, e1'⟩ | ⟨i, e1, e1'⟩ | ⟨e1, e1'⟩
    · simp only [e1, e1', vsame_isNil hv]
      exact ih _ _
    · simp only [e1, e1']; exact ih _ _
    · simp only [e1, e1']
      split
      · exact evs_leaf rfl
      · exact ih _ _
    · simp only [e1, e1']; exact evs_crash

theorem requireEv_same (e ea : Ex) {a a' : Ev} (ha : EvSame a a') : EvSame (requireEv e ea a) (requireEv e ea a') := by
  unfold requireEv
  rcases resSame_cases (resolve_same ea none ha) with ⟨v, v', i, e1, e1', hv⟩ | ⟨_, i, e1, e1'⟩ | ⟨i, e1, e1'⟩ | ⟨e1, e1'⟩
  · simp only [e1, e1', vsame_isNil hv]
    split
    · exact evs_error
    · exact evs_val hv
  · simp only [e1, e1']; exact evs_expr
  · simp only [e1, e1']; exact evs_error
  · simp only [e1, e1']; exact evs_crash

theorem optionalEv_same (ec et : Ex) {c c' t t' : Ev} (hc : EvSame c c') (ht : EvSame t t') : EvSame (optionalEv ec et c t) (optionalEv ec et c' t') := by
  unfold optionalEv
  rcases resSame_cases (resolve_same ec (some {}) hc) with ⟨v, v', i, e1, e1', hv⟩ | ⟨_, i, e1, e1'⟩ | ⟨i, e1, e1'⟩ | ⟨e1, e1'⟩
  · simp only [e1, e1', ← toBool_same hv]
    split
    · exact evs_leaf rfl
    · rcases evSame_cases ht with ⟨w, w', j, rfl, rfl, hw⟩ | ⟨j, rfl, rfl⟩ | ⟨rfl, rfl⟩
      · exact evs_val hw
      · exact evs_fail
      · exact evs_crash
  · simp only [e1, e1']; exact evs_expr
  · simp only [e1, e1']; exact evs_leaf rfl
  · simp only [e1, e1']; exact evs_crash

theorem stubFind_same {b b' : Bind} (hb : BindSame b b') (i : Info) (p : List String) : EvSame (stubFind b i p) (stubFind b' i p) := by
  unfold stubFind
  rcases both_some (hb.stub p) with ⟨e, e'⟩ | ⟨x, y, e, e', hxy⟩
  · rw [e, e']; exact evs_error
  · rw [e, e']; exact evs_val hxy.val

theorem stubEv_same (X : EvLib) (e : Ex) {b b' : Bind} (hb : BindSame b b') {l l' : List (Ex × Ev)} (h : ArgsSame l l') : EvSame (stubEv X e b l) (stubEv X e b' l') := by
  cases h with
  | nil => simp only [stubEv, ← hb.path]; exact stubFind_same hb _ _
  | @cons a a' l l' hab hr =>
    obtain ⟨x, o⟩ := a
    obtain ⟨_, o'⟩ := a'
    obtain ⟨he, ho⟩ := hab
    cases he
    cases hr with
    | cons _ _ => exact evs_error
    | nil =>
      simp only [stubEv, ← hb.path]
      split
      · exact stubFind_same hb _ _
      · rcases resSame_cases (resolve_same x none ho) with ⟨v, v', i, e1, e1', hv⟩ | ⟨_, i, e1, e1'⟩ | ⟨i, e1, e1'⟩ | ⟨e1, e1'⟩
        · simp only [e1, e1']
          have he : ∀ (c : Prop) [Decidable c] (s : String), EvSame (if c then stubFind b {} b.path else i.error s) (if c then stubFind b' {} b.path else i.error s) := by
            intro c _ s
            split
            · exact stubFind_same hb _ _
            · exact evs_error
          rcases vsame_cases hv with ⟨rfl, hl⟩ | ⟨l1, l2, rfl, rfl, h1⟩ | ⟨m, m', rfl, rfl, h1⟩ | ⟨x, x', rfl, rfl, h1⟩
          · cases v <;> first | exact he _ _ | exact stubFind_same hb _ _ | (simp [isLeaf] at hl; done)
          · simp only [← strEntries_same h1]
            split
            · exact stubFind_same hb _ _
            · exact evs_error
          · exact he _ _
          · exact he _ _
        · simp only [e1, e1']; exact evs_expr
        · simp only [e1, e1']; exact evs_fail
        · simp only [e1, e1']; exact evs_crash

theorem catchEv_same (e ea : Ex) {b b' : Bind} (hb : BindSame b b') {a a' : Ev} (ha : EvSame a a') : EvSame (catchEv e ea b a) (catchEv e ea b' a') := by
  unfold catchEv
  simp only [hb.source]
  rcases resSame_cases (resolve_same ea none ha) with ⟨v, v', i, e1, e1', hv⟩ | ⟨_, i, e1, e1'⟩ | ⟨i, e1, e1'⟩ | ⟨e1, e1'⟩
  · simp only [e1, e1']
    refine evs_val ?_
    have h1 : Same (Node.new (.bool true : Val Ex) (dynSource b'.source)) (Node.new (.bool true) (dynSource b'.source)) := same_new (vsame_leaf rfl) _
    have h2 : Same (Node.new (.str "" : Val Ex) (dynSource b'.source)) (Node.new (.str "") (dynSource b'.source)) := same_new (vsame_leaf rfl) _
    exact msame_mset (msame_mset (msame_single h1 "valid") h2 "error") (same_new hv _) "value"
  · simp only [e1, e1']; exact evs_expr
  · simp only [e1, e1']
    refine evs_val ?_
    have h1 : Same (Node.new (.bool false : Val Ex) (dynSource b'.source)) (Node.new (.bool false) (dynSource b'.source)) := same_new (vsame_leaf rfl) _
    have h2 : Same (Node.new (.str i.issue : Val Ex) (dynSource b'.source)) (Node.new (.str i.issue) (dynSource b'.source)) := same_new (vsame_leaf rfl) _
    exact msame_mset (msame_single h1 "valid") h2 "error"
  · simp only [e1, e1']; exact evs_crash

/-! ### projections -/

theorem projAll_same (src : String) {f f' : Val Ex → Ev} (hf : ∀ {v v'}, VSame v v' → EvSame (f v) (f' v')) (i : Info) {l l' : List (Val Ex)} (h : List.Forall₂ VSame l l') :
    ∀ {acc acc' : List (Node Ex)}, List.Forall₂ Same acc acc' → EvSame (projAll src f i l acc) (projAll src f' i l' acc') := by
  induction h with
  | nil => intro acc acc' ha; exact evs_val (List.rel_reverse ha)
  | cons hv _ ih =>
    intro acc acc' ha
    simp only [projAll]
    rcases evSame_cases (hf hv) with ⟨w, w', j, e, e', hw⟩ | ⟨j, e, e'⟩ | ⟨e, e'⟩
    · simp only [e, e']; exact ih (.cons (same_new hw _) ha)
    · simp only [e, e']; exact evs_fail
    · simp only [e, e']; exact evs_crash

theorem sortedKeys_same {E : Type} {m m' : List (String × Node E)} (h : MSame m m') : sortedKeys m = sortedKeys m' := by
  exact sorted_unique ((sortStr_perm _).trans (h.keys.trans (sortStr_perm _).symm)) (sortStr_sorted _) (sortStr_sorted _)

theorem sortedVals_same {m m' : List (String × Node Ex)} (h : MSame m m') : List.Forall₂ VSame (sortedVals m) (sortedVals m') := by
  unfold sortedVals
  rw [← sortedKeys_same h]
  generalize sortedKeys m = ks
  induction ks with
  | nil => exact .nil
  | cons k r ih =>
    refine .cons ?_ ih
    rcases both_some (h.2.2 k) with ⟨e, e'⟩ | ⟨x, y, e, e', hxy⟩
    · simp only [e, e']; exact vsame_leaf rfl
    · simp only [e, e']; exact hxy.val

theorem projEv_same (ea : Ex) (plain : Bool) (src : String) {a a' : Ev} (ha : EvSame a a') {f f' : Val Ex → Ev} (hf : ∀ {v v'}, VSame v v' → EvSame (f v) (f' v')) :
    EvSame (projEv ea plain src a f) (projEv ea plain src a' f') := by
  unfold projEv
  rcases resSame_cases (resolve_same ea none ha) with ⟨v, v', i, e1, e1', hv⟩ | ⟨_, i, e1, e1'⟩ | ⟨i, e1, e1'⟩ | ⟨e1, e1'⟩
  · simp only [e1, e1']
    rcases vsame_cases hv with ⟨rfl, hl⟩ | ⟨l1, l2, rfl, rfl, h1⟩ | ⟨m, m', rfl, rfl, h1⟩ | ⟨x, x', rfl, rfl, h1⟩
    · cases v <;> first | exact evs_error | (simp [isLeaf] at hl; done)
    · simp only
      split
      · exact evs_val h1
      · exact projAll_same src hf i (forall2_vals h1) .nil
    · exact projAll_same src hf i (sortedVals_same h1) .nil
    · exact evs_error
  · simp only [e1, e1']; exact evs_fail
  · simp only [e1, e1']; exact evs_fail
  · simp only [e1, e1']; exact evs_crash

end Spiff
