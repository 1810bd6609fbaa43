import Verif.Lemmas.Reorder6
import Verif.Props.Refs
/-
The evaluation of expressions in environments that are equal up to the order of fields: operators.
-/
namespace Spiff
open Spec

/-! ### resolved values -/

theorem localReady_same (ctl : Bool) {v v' : Val Ex} (h : VSame v v') : localReady ctl v = localReady ctl v' := by
  rcases vsame_cases h with ⟨rfl, hl⟩ | ⟨l1, l2, rfl, rfl, h1⟩ | ⟨m, m', rfl, rfl, h1⟩ | ⟨x, x', rfl, rfl, h1⟩
  · rfl
  · exact isListResolved_same h1
  · exact isMapResolved_same ctl h1
  · rfl

theorem unfinished_same (ctl : Bool) {v : Val Ex} (hu : Unfinished ctl v) : ∀ {v'}, VSame v v' → Unfinished ctl v' := by
  induction hu with
  | expr e => intro v' h; cases v' <;> simp only [VSame, reduceCtorEq] at h; exact .expr _
  | str s hs => intro v' h; cases v' <;> simp only [VSame, reduceCtorEq, Val.str.injEq] at h; subst h; exact .str _ hs
  | merge m hm =>
    intro v' h
    cases v' <;> simp only [VSame] at h
    refine .merge _ ?_
    rw [← isMapResolved_iff, ← isMapResolved_same ctl h, isMapResolved_iff]
    exact hm
  | field m k n hk _ ih =>
    intro v' h
    cases v' <;> simp only [VSame] at h
    have h1 := h.2.2 k
    rw [mget_of_mem h.1 hk] at h1
    rcases both_some h1 with ⟨h, _⟩ | ⟨x, y, e, e', h1⟩
    · cases h
    cases e
    exact .field _ k _ (mget_some_mem e') (ih h1.val)
  | entry l n hn _ ih =>
    intro v' h
    cases v' <;> simp only [VSame] at h
    obtain ⟨i, hi⟩ := List.getElem?_of_mem hn
    have h1 := forall2_get h i
    rw [hi] at h1
    rcases both_some h1 with ⟨h, _⟩ | ⟨x, y, e, e', h1⟩
    · cases h
    cases e
    exact .entry _ _ (List.mem_of_getElem? e') (ih h1.val)

theorem completeV_same (ctl : Bool) {v v' : Val Ex} (h : VSame v v') : completeV ctl v = completeV ctl v' := by
  rw [Bool.eq_iff_iff, completeV_iff, completeV_iff]
  exact ⟨fun h1 h2 => h1 (unfinished_same ctl h2 (vsame_symm h)), fun h1 h2 => h1 (unfinished_same ctl h2 h)⟩

/-! ### references -/

theorem lookSame_cases {E : Type} {x y : Look (Node E)} (h : LookSame x y) : (∃ a b, x = .found a ∧ y = .found b ∧ Same a b) ∨ (x = .missing ∧ y = .missing) ∨
    (x = .panic ∧ y = .panic) := by
  cases x <;> cases y <;> simp only [LookSame] at h
  · exact .inl ⟨_, _, rfl, rfl, h⟩
  · exact .inr (.inl ⟨rfl, rfl⟩)
  · exact .inr (.inr ⟨rfl, rfl⟩)

theorem refFind_same (ctl : Bool) (e : Ex) (len : Nat) {look look' : Nat → Look (Node Ex)} (h : ∀ i, LookSame (look i) (look' i)) (loc : Bool) :
    EvSame (refFind ctl e len look loc) (refFind ctl e len look' loc) := by
  have steps : ∀ (n i : Nat) (a a' : Node Ex), Same a a' →
      (∃ b b', findSteps ctl e look i n a = .inl b ∧ findSteps ctl e look' i n a' = .inl b' ∧ Same b b') ∨
      (∃ o o', findSteps ctl e look i n a = .inr o ∧ findSteps ctl e look' i n a' = .inr o' ∧ EvSame o o') := by
    intro n
    induction n with
    | zero => intro i a a' ha; exact .inl ⟨a, a', rfl, rfl, ha⟩
    | succ n ih =>
      intro i a a' ha
      simp only [findSteps]
      rcases lookSame_cases (h i) with ⟨x, y, e1, e2, hxy⟩ | ⟨e1, e2⟩ | ⟨e1, e2⟩
      · rw [e1, e2]
        simp only [← localReady_same ctl hxy.val, ← hxy.ann]
        split
        · exact ih _ _ _ hxy
        · exact .inr ⟨_, _, rfl, rfl, evs_expr⟩
      · rw [e1, e2]; exact .inr ⟨_, _, rfl, rfl, evs_error⟩
      · rw [e1, e2]; exact .inr ⟨_, _, rfl, rfl, evs_crash⟩
  unfold refFind
  split
  · exact evs_crash
  · rcases steps len 0 (Node.new .nil "") (Node.new .nil "") (same_new (vsame_leaf rfl) _) with ⟨b, b', e1, e2, hb⟩ | ⟨o, o', e1, e2, ho⟩
    · rw [e1, e2]
      unfold refResult
      simp only [← completeV_same ctl hb.val, ← hb.ann]
      split
      · exact evs_expr
      · exact evs_val hb.val
    · rw [e1, e2]; exact ho

theorem refLook_same {b b' : Bind} (h : BindSame b b') (path : List String) (i : Nat) : LookSame (refLook b path i) (refLook b' path i) := by
  unfold refLook
  split
  · exact h.root _
  · exact h.ref _

theorem withLocal_same (X : EvLib) {b b' : Bind} (h : BindSame b b') {m m' : List (String × Node Ex)} (hm : MSame m m') :
    BindSame (b.withLocal X m) (b'.withLocal X m') := by
  refine ⟨?_, h.root, h.stub, h.path, h.source, h.proj⟩
  intro p
  simp only [Bind.withLocal]
  cases p with
  | nil => trivial
  | cons name rest =>
    simp only
    by_cases hc : name = "__ctx"
    · simp only [if_pos hc]; exact h.ref _
    · simp only [if_neg hc]
      rcases both_some (hm.2.2 name) with ⟨e, e'⟩ | ⟨x, y, e, e', hxy⟩
      · rw [e, e']; exact h.ref _
      · rw [e, e']
        simp only
        split
        · trivial
        · exact findR_same X.ctl true rest hxy

/-! ### operators -/

theorem binVals_same (X : EvLib) (op : BinOp) {a a' b b' : Val Ex} (ha : VSame a a') (hb : VSame b b') (i : Info) :
    EvSame (binVals X op a b i) (binVals X op a' b' i) := by
  unfold binVals
  cases op with
  | add => exact outEv_same i (addVals_same X.lib ha hb)
  | sub => exact outEv_same i (subVals_same X.lib ha hb)
  | mul => exact outEv_same i (mulVals_same X.lib ha hb)
  | div => exact outEv_same i (divVals_same X.lib ha hb)
  | mod => exact outEv_same i (modVals_same ha hb)
  | concat => exact outEv_same i (concatVals_same _ ha hb)
  | cmp c =>
    simp only [← compareVals_same c ha hb]
    cases hc : compareVals c a b with
    | ok v => exact evs_leaf (compareVals_leaf c hc)
    | err => exact evs_error
    | undet => exact evs_fail
    | panic => exact evs_crash

theorem badOperand_same (op : BinOp) {v v' : Val Ex} (h : VSame v v') : badOperand op v = badOperand op v' := by
  unfold badOperand
  cases op <;> first | rfl | (simp only [intOperand_same h])

theorem binEv_same (X : EvLib) (op : BinOp) (ea eb : Ex) {a a' b b' : Ev} (ha : EvSame a a') (hb : EvSame b b') : EvSame (binEv X op ea eb a b) (binEv X op ea eb a' b') := by
  unfold binEv
  rcases resSame_cases (resolve_same ea none ha) with ⟨v, v', i, e, e', hv⟩ | ⟨e1, i, e, e'⟩ | ⟨i, e, e'⟩ | ⟨e, e'⟩
  · simp only [e, e', ← badOperand_same op hv]
    split
    · exact evs_fail
    · rcases resSame_cases (resolve_same eb (some i) hb) with ⟨w, w', j, e, e', hw⟩ | ⟨e1, j, e, e'⟩ | ⟨j, e, e'⟩ | ⟨e, e'⟩
      · simp only [e, e', ← badOperand_same op hw]
        split
        · exact evs_fail
        · exact binVals_same X op hv hw j
      · simp only [e, e']; exact evs_expr
      · simp only [e, e']; exact evs_fail
      · simp only [e, e']; exact evs_crash
  · simp only [e, e']
    rcases resSame_cases (resolve_same eb (some i) hb) with ⟨w, w', j, e, e', hw⟩ | ⟨e1, j, e, e'⟩ | ⟨j, e, e'⟩ | ⟨e, e'⟩
    · simp only [e, e', ← badOperand_same op hw]
      split
      · exact evs_fail
      · exact evs_expr
    · simp only [e, e']; exact evs_expr
    · simp only [e, e']; exact evs_fail
    · simp only [e, e']; exact evs_crash
  · simp only [e, e']; exact evs_fail
  · simp only [e, e']; exact evs_crash

theorem notEv_same (ea : Ex) {a a' : Ev} (ha : EvSame a a') : EvSame (notEv ea a) (notEv ea a') := by
  unfold notEv
  rcases resSame_cases (resolve_same ea none ha) with ⟨v, v', i, e, e', hv⟩ | ⟨e1, i, e, e'⟩ | ⟨i, e, e'⟩ | ⟨e, e'⟩
  · simp only [e, e', ← toBool_same hv]; exact evs_leaf rfl
  · simp only [e, e']; exact evs_expr
  · simp only [e, e']; exact evs_fail
  · simp only [e, e']; exact evs_crash

theorem logEv_same (e : Ex) {f : Val Ex → Option (Val Ex) → Out (Val Ex)} (hf : ∀ {x x' : Val Ex}, VSame x x' → ∀ {y y' : Option (Val Ex)}, Both VSame y y' → OutSame (f x y) (f x' y'))
    {a a' b b' : Ev} (ha : EvSame a a') (hb : EvSame b b') : EvSame (logEv e f a b) (logEv e f a' b') := by
  rcases evSame_cases ha with ⟨v, v', i, rfl, rfl, hv⟩ | ⟨i, rfl, rfl⟩ | ⟨rfl, rfl⟩
  · simp only [logEv, ← vsame_isExpr hv]
    split
    · exact evs_expr
    · rcases evSame_cases hb with ⟨w, w', j, rfl, rfl, hw⟩ | ⟨j, rfl, rfl⟩ | ⟨rfl, rfl⟩
      · simp only [← vsame_isExpr hw]
        split
        · exact evs_expr
        · exact outEv_same _ (hf hv (show Both VSame (some w) (some w') from hw))
      · exact outEv_same _ (hf hv (show Both VSame none none from trivial))
      · exact evs_crash
  · exact evs_fail
  · exact evs_crash

theorem orAlt_sameEv (i : Info) {b b' : Ev} (hb : EvSame b b') : EvSame (orAlt i b) (orAlt i b') := by
  rcases evSame_cases hb with ⟨w, w', j, rfl, rfl, hw⟩ | ⟨j, rfl, rfl⟩ | ⟨rfl, rfl⟩
  · exact evs_val hw
  · exact evs_fail
  · exact evs_crash

theorem orEv_same (e : Ex) {a a' b b' : Ev} (ha : EvSame a a') (hb : EvSame b b') : EvSame (orEv e a b) (orEv e a' b') := by
  rcases evSame_cases ha with ⟨v, v', i, rfl, rfl, hv⟩ | ⟨i, rfl, rfl⟩ | ⟨rfl, rfl⟩
  · simp only [orEv, ← vsame_isExpr hv]
    split
    · split
      · exact evs_expr
      · exact evs_val hv
    · exact orAlt_sameEv _ hb
  · exact orAlt_sameEv _ hb
  · exact evs_crash

theorem validOrEv_same (e ea : Ex) {a a' b b' : Ev} (ha : EvSame a a') (hb : EvSame b b') : EvSame (validOrEv e ea a b) (validOrEv e ea a' b') := by
  rcases evSame_cases ha with ⟨v, v', i, rfl, rfl, hv⟩ | ⟨i, rfl, rfl⟩ | ⟨rfl, rfl⟩
  · simp only [validOrEv]
    rcases vsame_cases hv with ⟨rfl, hl⟩ | ⟨l1, l2, rfl, rfl, h1⟩ | ⟨m, m', rfl, rfl, h1⟩ | ⟨x, x', rfl, rfl, h1⟩
    · cases v <;> simp only <;> first | exact evs_val hv | exact orAlt_sameEv _ hb | skip
      split
      · exact evs_fail
      · exact evs_expr
    all_goals exact evs_val hv
  · exact orAlt_sameEv _ hb
  · exact evs_crash

theorem condEv_same (ec et ef : Ex) {c c' t t' f f' : Ev} (hc : EvSame c c') (ht : EvSame t t') (hf : EvSame f f') :
    EvSame (condEv ec et ef c t f) (condEv ec et ef c' t' f') := by
  unfold condEv
  rcases resSame_cases (resolve_same ec none hc) with ⟨v, v', i, e, e', hv⟩ | ⟨e1, i, e, e'⟩ | ⟨i, e, e'⟩ | ⟨e, e'⟩
  · simp only [e, e', ← toBool_same hv]
    have : EvSame (if toBool v then t else f) (if toBool v then t' else f') := by split <;> assumption
    rcases evSame_cases this with ⟨w, w', j, e, e', hw⟩ | ⟨j, e, e'⟩ | ⟨e, e'⟩
    · rw [e, e']; exact evs_val hw
    · rw [e, e']; exact evs_fail
    · rw [e, e']; exact evs_crash
  · simp only [e, e']; exact evs_expr
  · simp only [e, e']; exact evs_fail
  · simp only [e, e']; exact evs_crash

/-! ### argument lists -/

def ResLSame : ResL → ResL → Prop
  | .ok vs es r i, .ok vs' es' r' i' => List.Forall₂ VSame vs vs' ∧ es = es' ∧ r = r' ∧ i = i'
  | .fail i, .fail i' => i = i'
  | .crash, .crash => True
  | _, _ => False

theorem resLSame_cases {o o' : ResL} (h : ResLSame o o') : (∃ vs vs' es r i, o = .ok vs es r i ∧ o' = .ok vs' es r i ∧ List.Forall₂ VSame vs vs') ∨
    (∃ i, o = .fail i ∧ o' = .fail i) ∨ (o = .crash ∧ o' = .crash) := by
  cases o <;> cases o' <;> simp only [ResLSame] at h
  · obtain ⟨h, rfl, rfl, rfl⟩ := h
    exact .inl ⟨_, _, _, _, _, rfl, rfl, h⟩
  · cases h
    exact .inr (.inl ⟨_, rfl, rfl⟩)
  · exact .inr (.inr ⟨rfl, rfl⟩)

/-- arguments with their results -/
abbrev ArgsSame (l l' : List (Ex × Ev)) : Prop := List.Forall₂ (fun a b => a.1 = b.1 ∧ EvSame a.2 b.2) l l'

theorem resL_cons {v v' : Val Ex} (hv : VSame v v') (e : Ex) (res : Bool) {r r' : ResL} (h : ResLSame r r') : ResLSame (r.cons v e res) (r'.cons v' e res) := by
  rcases resLSame_cases h with ⟨vs, vs', es, r, i, rfl, rfl, hvs⟩ | ⟨i, rfl, rfl⟩ | ⟨rfl, rfl⟩
  · exact ⟨.cons hv hvs, rfl, rfl, rfl⟩
  · rfl
  · trivial

theorem resolveArgs_same {l l' : List (Ex × Ev)} (h : ArgsSame l l') : ∀ info, ResLSame (resolveArgs info l) (resolveArgs info l') := by
  induction h with
  | nil => exact fun info => ⟨.nil, rfl, rfl, rfl⟩
  | @cons a b l l' hab _ ih =>
    intro info
    obtain ⟨e, o⟩ := a
    obtain ⟨_, o'⟩ := b
    obtain ⟨he, ho⟩ := hab
    cases he
    simp only [resolveArgs]
    rcases resSame_cases (resolve_same e info ho) with ⟨v, v', i, e, e', hv⟩ | ⟨e1, i, e, e'⟩ | ⟨i, e, e'⟩ | ⟨e, e'⟩
    · rw [e, e']; exact resL_cons hv _ _ (ih _)
    · rw [e, e']; exact resL_cons (vsame_leaf rfl) _ _ (ih _)
    · rw [e, e']; rfl
    · rw [e, e']; trivial

theorem forall2_vals {l l' : List (Node Ex)} (h : List.Forall₂ Same l l') : List.Forall₂ VSame (l.map Node.val) (l'.map Node.val) := by
  induction h with
  | nil => exact .nil
  | cons h _ ih => exact .cons h.val ih

theorem expandArgs_same : ∀ {vs vs' : List (Val Ex)}, List.Forall₂ VSame vs vs' → ∀ es, Both (List.Forall₂ VSame) (expandArgs (vs.zip es)) (expandArgs (vs'.zip es)) := by
  intro vs vs' h
  induction h with
  | nil => intro es; exact .nil
  | @cons v v' r r' hv hr ih =>
    intro es
    cases es with
    | nil => exact List.Forall₂.nil
    | cons e es =>
      simp only [List.zip_cons_cons, expandArgs]
      have hm : ∀ (f f' : List (Val Ex) → List (Val Ex)), (∀ x y, List.Forall₂ VSame x y → List.Forall₂ VSame (f x) (f' y)) →
          Both (List.Forall₂ VSame) ((expandArgs (r.zip es)).map f) ((expandArgs (r'.zip es)).map f') := by
        intro f f' hff
        rcases both_some (ih es) with ⟨e, e'⟩ | ⟨x, y, e, e', hxy⟩
        · rw [e, e']; trivial
        · rw [e, e']; exact hff _ _ hxy
      split
      · rcases vsame_cases hv with ⟨rfl, hl⟩ | ⟨l1, l2, rfl, rfl, h1⟩ | ⟨m, m', rfl, rfl, h1⟩ | ⟨x, x', rfl, rfl, h1⟩
        · cases v <;> trivial
        · exact hm _ _ (fun x y h => List.rel_append (forall2_vals h1) h)
        · trivial
        · trivial
      · exact hm _ _ (fun x y h => .cons hv h)

theorem resolveList_same {l l' : List (Ex × Ev)} (h : ArgsSame l l') : ResLSame (resolveList l) (resolveList l') := by
  unfold resolveList
  rcases resLSame_cases (resolveArgs_same h none) with ⟨vs, vs', es, r, i, e, e', h⟩ | ⟨i, e, e'⟩ | ⟨e, e'⟩
  · simp only [e, e']
    rcases both_some (expandArgs_same h es) with ⟨e, e'⟩ | ⟨x, y, e, e', hxy⟩
    · rw [e, e']; rfl
    · rw [e, e']; exact ⟨hxy, rfl, rfl, rfl⟩
  · rw [e, e']; rfl
  · rw [e, e']; trivial

theorem listEv_same {b b' : Bind} (hb : BindSame b b') {l l' : List (Ex × Ev)} (h : ArgsSame l l') : EvSame (listEv b l) (listEv b' l') := by
  unfold listEv
  rcases resLSame_cases (resolveList_same h) with ⟨vs, vs', es, r, i, e, e', h⟩ | ⟨i, e, e'⟩ | ⟨e, e'⟩
  · simp only [e, e']
    split
    · refine ⟨?_, rfl⟩
      show List.Forall₂ Same _ _
      rw [hb.source]
      clear e e'
      induction h with
      | nil => exact .nil
      | cons h _ ih => exact .cons (same_new h _) ih
    · exact evs_expr
  · rw [e, e']; exact evs_fail
  · rw [e, e']; exact evs_crash

end Spiff
