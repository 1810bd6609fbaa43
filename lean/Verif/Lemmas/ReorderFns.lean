import Verif.Lemmas.Reorder8
import Verif.Lemmas.Reorder9
import Verif.Model.StrFns
import Verif.Props.MapFns
import Verif.Props.Sort
/-
Lemmas for C82: the builtin functions on lists, maps and strings do not depend on the order of the fields of maps.
-/
namespace Spiff
open Spec
variable {E : Type}

/-- a function of the argument values that does not depend on the order of fields -/
def FnOF (f : List (Val E) → Out (Val E)) : Prop := ∀ vs vs', List.Forall₂ VSame vs vs' → OutSame (f vs) (f vs')

theorem keyString_same {v v' : Val E} (h : VSame v v') : keyString v = keyString v' := by
  rcases vsame_cases h with ⟨rfl, hl⟩ | ⟨l1, l2, rfl, rfl, h1⟩ | ⟨m, m', rfl, rfl, h1⟩ | ⟨x, x', rfl, rfl, h1⟩ <;> rfl

theorem asPattern_same {v v' : Val E} (h : VSame v v') : asPattern v = asPattern v' := by
  rcases vsame_cases h with ⟨rfl, hl⟩ | ⟨l1, l2, rfl, rfl, h1⟩ | ⟨m, m', rfl, rfl, h1⟩ | ⟨x, x', rfl, rfl, h1⟩ <;> rfl

theorem outSame_bool (b : Bool) : OutSame (.ok (.bool b : Val E)) (.ok (.bool b)) := (rfl : (Val.bool b : Val E) = .bool b)

theorem length_of : FnOF (E := E) funcLength := by
  intro vs vs' h
  rcases h with _ | ⟨h, _ | ⟨h2, h3⟩⟩
  · trivial
  · rcases vsame_cases h with ⟨rfl, hl⟩ | ⟨l1, l2, rfl, rfl, h1⟩ | ⟨m, m', rfl, rfl, h1⟩ | ⟨x, x', rfl, rfl, h1⟩
    · refine outSame_leaf (fun v hv => ?_)
      rename_i a
      cases a <;> simp [funcLength, isLeaf] at hv hl <;> (subst hv; rfl)
    · show VSame (.int l1.length) (.int l2.length)
      rw [h1.length_eq]; exact vsame_leaf rfl
    · show VSame (.int m.length) (.int m'.length)
      have : m.length = m'.length := by simpa [mkeys] using h1.keys.length_eq
      rw [this]; exact vsame_leaf rfl
    · trivial
  · rename_i a b _ _ c d
    have : ∀ (x y : Val E) r, funcLength (x :: y :: r) = .err := by intro x y r; unfold funcLength; split <;> simp_all
    rw [this, this]; trivial

theorem keys_of (src : String) : FnOF (E := E) (funcKeys src) := by
  intro vs vs' h
  rcases h with _ | ⟨h, _ | ⟨h2, h3⟩⟩
  · trivial
  · rcases vsame_cases h with ⟨rfl, hl⟩ | ⟨l1, l2, rfl, rfl, h1⟩ | ⟨m, m', rfl, rfl, h1⟩ | ⟨x, x', rfl, rfl, h1⟩
    · refine outSame_leaf (fun v hv => ?_)
      rename_i a
      cases a <;> simp [funcKeys, isLeaf] at hv hl
    · trivial
    · show VSame (.list _) (.list _)
      rw [← sortedKeys_same h1]
      generalize sortedKeys m = ks
      induction ks with
      | nil => exact .nil
      | cons k r ih => exact .cons (same_new (vsame_leaf rfl) _) ih
    · trivial
  · have : ∀ (x y : Val E) r, funcKeys src (x :: y :: r) = .err := by intro x y r; unfold funcKeys; split <;> simp_all
    rw [this, this]; trivial

section
variable [DecidableEq E]

theorem any_eqVals {l l' : List (Node E)} (h : List.Forall₂ Same l l') {v v' : Val E} (hv : VSame v v') :
    l.any (fun n => eqVals n.val v) = l'.any (fun n => eqVals n.val v') := by
  induction h with
  | nil => rfl
  | cons h _ ih => simp only [List.any_cons, eqVals_same h.val hv, ih]

theorem any_eqVals' {l l' : List (Node E)} (h : List.Forall₂ Same l l') {v v' : Val E} (hv : VSame v v') :
    l.any (fun n => eqVals v n.val) = l'.any (fun n => eqVals v' n.val) := by
  induction h with
  | nil => rfl
  | cons h _ ih => simp only [List.any_cons, eqVals_same hv h.val, ih]

theorem contains_of : FnOF (E := E) funcContains := by
  intro vs vs' h
  have one : ∀ x : Val E, funcContains [x] = .err := by intro x; unfold funcContains; split <;> simp_all
  have more : ∀ (x y z : Val E) r, funcContains (x :: y :: z :: r) = .err := by intro x y z r; unfold funcContains; split <;> simp_all
  rcases h with _ | ⟨h, _ | ⟨h2, _ | ⟨h3, h4⟩⟩⟩
  · trivial
  · rw [one, one]; trivial
  · rcases vsame_cases h with ⟨rfl, hl⟩ | ⟨l1, l2, rfl, rfl, h1⟩ | ⟨m, m', rfl, rfl, h1⟩ | ⟨x, x', rfl, rfl, h1⟩
    · rename_i a b b'
      cases a <;> first | trivial | skip
      simp only [funcContains, asPattern_same h2]
      split
      · exact outSame_bool _
      · trivial
    · rename_i b b'
      have hn : b.isNil = b'.isNil := vsame_isNil h2
      have e : ∀ (l : List (Node E)) (b : Val E), funcContains [.list l, b] = .ok (.bool (!b.isNil && l.any (fun v => eqVals v.val b))) := by
        intro l b; cases b <;> rfl
      rw [e, e, hn, any_eqVals h1 h2]
      exact outSame_bool _
    · rename_i b b'
      rcases vsame_cases h2 with ⟨rfl, hl⟩ | ⟨l1, l2, rfl, rfl, h3⟩ | ⟨m2, m2', rfl, rfl, h3⟩ | ⟨x, x', rfl, rfl, h3⟩
      · cases b <;> first | exact outSame_bool _ | skip
        simp only [funcContains, h1.isSome]
        exact outSame_bool _
      all_goals exact outSame_bool _
    · trivial
  · rw [more, more]; trivial

theorem indexBy_of (f : List Char → List Char → Option Nat) (g : Val E → List (Node E) → Option Nat)
    (hg : ∀ l l' v v', List.Forall₂ Same l l' → VSame v v' → g v l = g v' l') : FnOF (E := E) (funcIndexBy f g) := by
  intro vs vs' h
  have one : ∀ x : Val E, funcIndexBy f g [x] = .err := by intro x; unfold funcIndexBy; split <;> simp_all
  have more : ∀ (x y z : Val E) r, funcIndexBy f g (x :: y :: z :: r) = .err := by intro x y z r; unfold funcIndexBy; split <;> simp_all
  have leaf : ∀ o : Option Nat, VSame (E := E) (idxVal o) (idxVal o) := by intro o; cases o <;> exact vsame_leaf rfl
  rcases h with _ | ⟨h, _ | ⟨h2, _ | ⟨h3, h4⟩⟩⟩
  · trivial
  · rw [one, one]; trivial
  · rcases vsame_cases h with ⟨rfl, hl⟩ | ⟨l1, l2, rfl, rfl, h1⟩ | ⟨m, m', rfl, rfl, h1⟩ | ⟨x, x', rfl, rfl, h1⟩
    · rename_i a b b'
      cases a <;> first | trivial | skip
      simp only [funcIndexBy, asPattern_same h2]
      split
      · exact leaf _
      · trivial
    · rename_i b b'
      have hn : b.isNil = b'.isNil := vsame_isNil h2
      have e : ∀ (l : List (Node E)) (b : Val E), funcIndexBy f g [.list l, b] = .ok (if b.isNil then .int (-1) else idxVal (g b l)) := by
        intro l b; cases b <;> rfl
      rw [e, e, hn, hg _ _ _ _ h1 h2]
      show VSame _ _
      split
      · exact vsame_leaf rfl
      · exact leaf _
    · trivial
    · trivial
  · rw [more, more]; trivial

theorem index_of : FnOF (E := E) funcIndex := by
  refine indexBy_of _ _ (fun l l' v v' h hv => ?_)
  induction h with
  | nil => rfl
  | cons h _ ih => simp only [firstIndex, eqVals_same h.val hv, ih]

theorem lastIndex_of : FnOF (E := E) funcLastIndex := by
  refine indexBy_of _ _ (fun l l' v v' h hv => ?_)
  induction h with
  | nil => rfl
  | cons h _ ih => simp only [lastIndex, eqVals_same h.val hv, ih]

theorem uniqLoop_same {l l' : List (Node E)} (h : List.Forall₂ Same l l') : ∀ {a a' : List (Node E)}, List.Forall₂ Same a a' → List.Forall₂ Same (uniqLoop a l) (uniqLoop a' l') := by
  induction h with
  | nil => intro a a' ha; exact ha
  | cons h _ ih =>
    intro a a' ha
    simp only [uniqLoop, any_eqVals' ha h.val]
    split
    · exact ih ha
    · exact ih (List.rel_append ha (.cons h .nil))

omit [DecidableEq E] in
/-- functions of one list argument -/
theorem listFn_of {f : List (Val E) → Out (Val E)} (h0 : f [] = .err) (h2 : ∀ x y r, f (x :: y :: r) = .err)
    (h1 : ∀ v, (∀ l, v ≠ .list l) → f [v] = .err) (hl : ∀ l l', List.Forall₂ Same l l' → OutSame (f [.list l]) (f [.list l'])) : FnOF f := by
  intro vs vs' h
  rcases h with _ | ⟨h, _ | ⟨h3, h4⟩⟩
  · rw [h0]; trivial
  · rcases vsame_cases h with ⟨rfl, hlf⟩ | ⟨l1, l2, rfl, rfl, h3⟩ | ⟨m, m', rfl, rfl, h3⟩ | ⟨x, x', rfl, rfl, h3⟩
    · rw [h1]
      · trivial
      · rintro l rfl; simp [isLeaf] at hlf
    · exact hl _ _ h3
    · rw [h1 _ (by simp), h1 _ (by simp)]; trivial
    · rw [h1 _ (by simp), h1 _ (by simp)]; trivial
  · rw [h2, h2]; trivial

theorem uniq_of : FnOF (E := E) funcUniq := by
  refine listFn_of rfl (fun x y r => ?_) (fun v hv => ?_) (fun l l' h => ?_)
  · unfold funcUniq; split <;> simp_all
  · unfold funcUniq; split <;> simp_all
  · exact uniqLoop_same h .nil

theorem intersect2_same {a a' b b' : List (Node E)} (ha : List.Forall₂ Same a a') (hb : List.Forall₂ Same b b') : List.Forall₂ Same (intersect2 a b) (intersect2 a' b') :=
  forall2_filter (fun _ _ h => any_eqVals' hb h.val) ha

theorem intersect_of : FnOF (E := E) funcIntersect := by
  intro vs vs' h
  have key : ∀ {r r' : Option (List (Node E))}, Both (List.Forall₂ Same) r r' →
      (∃ x x', intersectLoop r (vs.map toSetArg) = .ok x ∧ intersectLoop r' (vs'.map toSetArg) = .ok x' ∧ Both (List.Forall₂ Same) x x') ∨
      (intersectLoop r (vs.map toSetArg) = .err ∧ intersectLoop r' (vs'.map toSetArg) = .err) := by
    induction h with
    | nil => intro r r' hr; exact .inl ⟨r, r', rfl, rfl, hr⟩
    | @cons a b _ _ h _ ih =>
      intro r r' hr
      rcases vsame_cases h with ⟨rfl, hlf⟩ | ⟨l1, l2, rfl, rfl, h3⟩ | ⟨m, m', rfl, rfl, h3⟩ | ⟨x, x', rfl, rfl, h3⟩
      · simp only [List.map_cons]
        revert h hlf
        cases a <;> intro h hlf <;> first | exact .inr ⟨rfl, rfl⟩ | exact ih hr | exact absurd h Bool.false_ne_true
      · simp only [List.map_cons, toSetArg]
        rcases both_some hr with ⟨rfl, rfl⟩ | ⟨x, y, rfl, rfl, hxy⟩
        · simp only [intersectLoop, Bool.false_eq_true, if_false]
          exact ih h3
        · simp only [intersectLoop]
          exact ih (show Both _ (some _) (some _) from intersect2_same hxy h3)
      · exact .inr ⟨rfl, rfl⟩
      · exact .inr ⟨rfl, rfl⟩
  unfold funcIntersect
  rcases key (show Both _ none none from trivial) with ⟨x, x', e, e', hx⟩ | ⟨e, e'⟩
  · rw [e, e']
    rcases both_some hx with ⟨rfl, rfl⟩ | ⟨x, y, rfl, rfl, hxy⟩
    · exact List.Forall₂.nil
    · exact hxy
  · rw [e, e']; trivial

end

theorem compact_of : FnOF (E := E) funcCompact := by
  refine listFn_of rfl (fun x y r => ?_) (fun v hv => ?_) (fun l l' h => ?_)
  · unfold funcCompact; split <;> simp_all
  · unfold funcCompact; split <;> simp_all
  · refine forall2_filter (fun a b hab => ?_) h
    rcases vsame_cases hab.val with ⟨e, hlf⟩ | ⟨l1, l2, e, e', h3⟩ | ⟨m, m', e, e', h3⟩ | ⟨x, x', e, e', h3⟩
    · rw [e]
    · rw [e, e']; cases h3 <;> rfl
    · rw [e, e']
      have : m.length = m'.length := by simpa [mkeys] using h3.keys.length_eq
      cases m <;> cases m' <;> simp_all [compactKeep]
    · rw [e, e']; rfl

theorem reverse_of : FnOF (E := E) funcReverse := by
  refine listFn_of rfl (fun x y r => ?_) (fun v hv => ?_) (fun l l' h => ?_)
  · unfold funcReverse; split <;> simp_all
  · unfold funcReverse; split <;> simp_all
  · rw [reverse_spec, reverse_spec]
    exact List.rel_reverse h

theorem isStrN_same {n n' : Node E} (h : Same n n') : isStrN n = isStrN n' := by
  unfold isStrN
  rcases vsame_cases h.val with ⟨e, hlf⟩ | ⟨l1, l2, e, e', h3⟩ | ⟨m, m', e, e', h3⟩ | ⟨x, x', e, e', h3⟩ <;> rw [e] <;> rw [e']
theorem isIntN_same {n n' : Node E} (h : Same n n') : isIntN n = isIntN n' := by
  unfold isIntN
  rcases vsame_cases h.val with ⟨e, hlf⟩ | ⟨l1, l2, e, e', h3⟩ | ⟨m, m', e, e', h3⟩ | ⟨x, x', e, e', h3⟩ <;> rw [e] <;> rw [e']
theorem valueLess_same {a a' b b' : Node E} (ha : Same a a') (hb : Same b b') : valueLess a b = valueLess a' b' := by
  unfold valueLess
  rcases vsame_cases ha.val with ⟨e, hlf⟩ | ⟨l1, l2, e, e', h3⟩ | ⟨m, m', e, e', h3⟩ | ⟨x, x', e, e', h3⟩
  · rcases vsame_cases hb.val with ⟨e2, hlf⟩ | ⟨l1, l2, e2, e2', h3⟩ | ⟨m, m', e2, e2', h3⟩ | ⟨x, x', e2, e2', h3⟩
    · rw [e, e2]
    all_goals rw [e, e2, e2']; cases a'.val <;> rfl
  all_goals rw [e, e']

theorem all_same {p : Node E → Bool} (hp : ∀ a b, Same a b → p a = p b) {l l' : List (Node E)} (h : List.Forall₂ Same l l') : l.all p = l'.all p := by
  induction h with
  | nil => rfl
  | cons h _ ih => simp only [List.all_cons, hp _ _ h, ih]

theorem insertBy_same {a a' : Node E} (ha : Same a a') {l l' : List (Node E)} (h : List.Forall₂ Same l l') :
    List.Forall₂ Same (insertBy valueLess a l) (insertBy valueLess a' l') := by
  induction h with
  | nil => exact .cons ha .nil
  | cons h hr ih =>
    simp only [insertBy, valueLess_same h ha]
    split
    · exact .cons h ih
    · exact .cons ha (.cons h hr)

theorem sort_of : FnOF (E := E) funcSort := by
  refine listFn_of rfl (fun x y r => ?_) (fun v hv => ?_) (fun l l' h => ?_)
  · unfold funcSort; split <;> simp_all
  · unfold funcSort; split <;> simp_all
  · have hs : sortable l = sortable l' := by
      unfold sortable
      rw [h.length_eq, all_same (fun _ _ => isStrN_same) h, all_same (fun _ _ => isIntN_same) h]
    simp only [funcSort, hs]
    split
    · show List.Forall₂ Same _ _
      rename_i hq
      clear hs hq
      induction h with
      | nil => exact .nil
      | cons h _ ih => exact insertBy_same h ih
    · trivial

theorem elementAt_same {l l' : List (Node E)} (h : List.Forall₂ Same l l') (i : Int) : OutSame (elementAt l i) (elementAt l' i) := by
  unfold elementAt
  rw [h.length_eq]
  split
  · trivial
  · split
    · trivial
    · rcases both_some (forall2_get h i.toNat) with ⟨e, e'⟩ | ⟨x, y, e, e', hxy⟩
      · rw [e, e']; trivial
      · rw [e, e']; exact hxy.val

theorem element_of : FnOF (E := E) funcElement := by
  intro vs vs' h
  rcases h with _ | ⟨h, _ | ⟨h2, _ | ⟨h3, h4⟩⟩⟩
  · trivial
  · trivial
  · rcases vsame_cases h with ⟨rfl, hl⟩ | ⟨l1, l2, rfl, rfl, h1⟩ | ⟨m, m', rfl, rfl, h1⟩ | ⟨x, x', rfl, rfl, h1⟩
    · rename_i a b b'
      cases a <;> first | trivial
    · rename_i b b'
      rcases vsame_cases h2 with ⟨rfl, hl⟩ | ⟨k1, k2, rfl, rfl, h3⟩ | ⟨m2, m2', rfl, rfl, h3⟩ | ⟨x, x', rfl, rfl, h3⟩
      · cases b <;> first | trivial | exact elementAt_same h1 _ | skip
        simp only [funcElement]
        split
        · exact elementAt_same h1 _
        · trivial
      all_goals trivial
    · rename_i b b'
      rcases vsame_cases h2 with ⟨rfl, hl⟩ | ⟨k1, k2, rfl, rfl, h3⟩ | ⟨m2, m2', rfl, rfl, h3⟩ | ⟨x, x', rfl, rfl, h3⟩
      · cases b <;> first | trivial | skip
        rename_i k
        simp only [funcElement]
        rcases both_some (h1.2.2 k) with ⟨e, e'⟩ | ⟨x, y, e, e', hxy⟩
        · rw [e, e']; trivial
        · rw [e, e']; exact hxy.val
      all_goals trivial
    · trivial
  · trivial

/-! ### maps -/

theorem msame_mdel {m m' : List (String × Node E)} (h : MSame m m') (k : String) : MSame (mdel m k) (mdel m' k) := by
  have ok : ∀ m : List (String × Node E), MapOK m → MapOK (mdel m k) := by
    intro m hm
    exact hm.sublist ((List.filter_sublist).map _)
  refine ⟨ok _ h.1, ok _ h.2.1, fun k' => ?_⟩
  rw [mget_mdel, mget_mdel]
  split
  · trivial
  · exact h.2.2 k'

theorem listToMap_same (key : String) {l l' : List (Node E)} (h : List.Forall₂ Same l l') : ∀ {a a' : List (String × Node E)}, MSame a a' →
    Both MSame (listToMap key a l) (listToMap key a' l') := by
  induction h with
  | nil => intro a a' ha; exact ha
  | cons h _ ih =>
    intro a a' ha
    simp only [listToMap]
    rcases vsame_cases h.val with ⟨e, hlf⟩ | ⟨l1, l2, e, e', h3⟩ | ⟨m, m', e, e', h3⟩ | ⟨x, x', e, e', h3⟩
    · rw [← e]
      revert hlf
      rename_i x _ _ _ _
      cases x.val <;> intro hlf <;> first | trivial
    · rw [e, e']; trivial
    · rw [e, e']
      simp only
      rcases both_some (h3.2.2 key) with ⟨e, e'⟩ | ⟨x, y, e, e', hxy⟩
      · rw [e, e']; trivial
      · rw [e, e']
        simp only
        rcases vsame_cases hxy.val with ⟨e2, hlf⟩ | ⟨l1, l2, e2, e2', h4⟩ | ⟨m, m', e2, e2', h4⟩ | ⟨z, z', e2, e2', h4⟩
        · rw [← e2]
          cases x.val <;> first | trivial | skip
          exact ih (msame_mset ha (h.withVal (show VSame (.map _) (.map _) from msame_mdel h3 key)) _)
        all_goals rw [e2, e2']; trivial
    · rw [e, e']; trivial

theorem mapOut {o o' : Option (List (String × Node E))} : Both MSame o o' →
    OutSame (match o with | some m => .ok (.map m) | none => .err) (match o' with | some m => .ok (.map m) | none => .err) := by
  intro h
  rcases both_some h with ⟨rfl, rfl⟩ | ⟨x, y, rfl, rfl, hxy⟩
  · trivial
  · exact hxy

theorem listToMap_of (k : String) : FnOF (E := E) (funcListToMap k) := by
  intro vs vs' h
  have more : ∀ (x y z : Val E) r, funcListToMap k (x :: y :: z :: r) = .err := by intro x y z r; unfold funcListToMap; simp
  rcases h with _ | ⟨h, _ | ⟨h2, _ | ⟨h3, h4⟩⟩⟩
  · trivial
  · rcases vsame_cases h with ⟨rfl, hl⟩ | ⟨l1, l2, rfl, rfl, h1⟩ | ⟨m, m', rfl, rfl, h1⟩ | ⟨x, x', rfl, rfl, h1⟩
    · rename_i a
      cases a <;> first | trivial
    · exact mapOut (listToMap_same _ h1 msame_nil)
    · trivial
    · trivial
  · rcases vsame_cases h with ⟨rfl, hl⟩ | ⟨l1, l2, rfl, rfl, h1⟩ | ⟨m, m', rfl, rfl, h1⟩ | ⟨x, x', rfl, rfl, h1⟩
    · rename_i a b b'
      cases a <;> first | trivial
    · rename_i b b'
      rcases vsame_cases h2 with ⟨rfl, hl⟩ | ⟨k1, k2, rfl, rfl, h3⟩ | ⟨m2, m2', rfl, rfl, h3⟩ | ⟨x, x', rfl, rfl, h3⟩
      · cases b <;> first | trivial | exact mapOut (listToMap_same _ h1 msame_nil)
      all_goals trivial
    · trivial
    · trivial
  · rw [more, more]; trivial

theorem makemapList_same {l l' : List (Node E)} (h : List.Forall₂ Same l l') : ∀ {a a' : List (String × Node E)}, MSame a a' →
    Both MSame (makemapList a l) (makemapList a' l') := by
  induction h with
  | nil => intro a a' ha; exact ha
  | cons h _ ih =>
    intro a a' ha
    simp only [makemapList]
    rcases vsame_cases h.val with ⟨e, hlf⟩ | ⟨l1, l2, e, e', h3⟩ | ⟨m, m', e, e', h3⟩ | ⟨x, x', e, e', h3⟩
    · rw [← e]
      revert hlf
      rename_i x _ _ _ _
      cases x.val <;> intro hlf <;> first | trivial
    · rw [e, e']; trivial
    · rw [e, e']
      have hk : (mget m "key").bind (fun k => keyString k.val) = (mget m' "key").bind (fun k => keyString k.val) := by
        rcases both_some (h3.2.2 "key") with ⟨e, e'⟩ | ⟨x, y, e, e', hxy⟩
        · rw [e, e']
        · rw [e, e']; exact keyString_same hxy.val
      simp only [hk]
      cases (mget m' "key").bind (fun k => keyString k.val) with
      | none => trivial
      | some k =>
        rcases both_some (h3.2.2 "value") with ⟨e, e'⟩ | ⟨x, y, e, e', hxy⟩
        · rw [e, e']; trivial
        · rw [e, e']; exact ih (msame_mset ha hxy k)
    · rw [e, e']; trivial

theorem makemapPairs_same (src : String) : ∀ {l l' : List (Val E)}, List.Forall₂ VSame l l' → ∀ {a a' : List (String × Node E)}, MSame a a' →
    Both MSame (makemapPairs src a l) (makemapPairs src a' l')
  | _, _, .nil, _, _, ha => ha
  | _, _, .cons _ .nil, _, _, _ => trivial
  | _, _, .cons h (.cons h2 hr), _, _, ha => by
    simp only [makemapPairs, keyString_same h]
    split
    · exact makemapPairs_same src hr (msame_mset ha (same_new h2 _) _)
    · trivial

theorem makemap_of (src : String) : FnOF (E := E) (funcMakemap src) := by
  intro vs vs' h
  rcases h with _ | ⟨h, _ | ⟨h2, h3⟩⟩
  · exact mapOut (makemapPairs_same src .nil msame_nil)
  · rcases vsame_cases h with ⟨rfl, hl⟩ | ⟨l1, l2, rfl, rfl, h1⟩ | ⟨m, m', rfl, rfl, h1⟩ | ⟨x, x', rfl, rfl, h1⟩
    · rename_i a
      cases a <;> first | trivial
    · exact mapOut (makemapList_same h1 msame_nil)
    · trivial
    · trivial
  · have e : ∀ (x y : Val E) r, funcMakemap src (x :: y :: r) = match makemapPairs src [] (x :: y :: r) with | some m => .ok (.map m) | none => .err := by
      intro x y r; cases x <;> rfl
    rw [e, e]
    exact mapOut (makemapPairs_same src (.cons h (.cons h2 h3)) msame_nil)

theorem goMapsV_refl {v : Val E} (h : VSame v v) : GoMapsV v := (goMapsV_of h).1

/-- the value of a field of a deep merge -/
theorem deepNode_same : ∀ n n' : Node E, Same n n' → ∀ o o', Both Same o o' → Same (deepNode o n) (deepNode o' n') := by
  have keep : ∀ (n : Node E) (o : Option (Node E)), (∀ m, n.val ≠ .map m) → deepNode o n = n := by
    intro n o h
    obtain ⟨v, s, a⟩ := n
    cases v <;> first | rfl | exact absurd rfl (h _)
  refine same_induct ?_ ?_ ?_ ?_
  · intro n n' h hl e o o' ho
    rw [keep, keep]
    · exact h
    · rw [← e]; intro m hm; rw [hm] at hl; simp [isLeaf] at hl
    · intro m hm; rw [hm] at hl; simp [isLeaf] at hl
  · intro n n' l l' h e e' hl o o' ho
    rw [keep n _ (by simp [e]), keep n' _ (by simp [e'])]
    exact h
  · intro n n' m m' h e e' hm ih o o' ho
    rcases both_some ho with ⟨rfl, rfl⟩ | ⟨x, y, rfl, rfl, hxy⟩
    · obtain ⟨v, s, a⟩ := n
      obtain ⟨v', s', a'⟩ := n'
      simp only [Node.val] at e e'
      subst e e'
      exact h
    · rcases vsame_cases hxy.val with ⟨e2, hlf⟩ | ⟨l1, l2, e2, e2', h4⟩ | ⟨m2, m2', e2, e2', h4⟩ | ⟨z, z', e2, e2', h4⟩
      · rw [deepNode_old _ n (.inr ?_), deepNode_old _ n' (.inr ?_)]
        · exact h
        · rintro _ ⟨⟩; rw [← e2]; intro hm2; revert hlf hm2; cases x.val <;> simp [isLeaf, IsMap]
        · rintro _ ⟨⟩; intro hm2; revert hlf hm2; cases x.val <;> simp [isLeaf, IsMap]
      · rw [deepNode_old _ n (.inr ?_), deepNode_old _ n' (.inr ?_)]
        · exact h
        · rintro _ ⟨⟩; rw [e2']; simp [IsMap]
        · rintro _ ⟨⟩; rw [e2]; simp [IsMap]
      · rw [deepNode_maps x n m2 m e2 e, deepNode_maps y n' m2' m' e2' e']
        refine same_new (show VSame (.map _) (.map _) from ?_) _
        refine ⟨deepmerge_ok _ _ h4.1, deepmerge_ok _ _ h4.2.1, fun k => ?_⟩
        rw [deepmerge_get _ _ hm.1, deepmerge_get _ _ hm.2.1]
        rcases both_some (ih k) with ⟨e5, e5'⟩ | ⟨p, q, e5, e5', hpq⟩
        · rw [e5, e5']; exact h4.2.2 k
        · rw [e5, e5']; exact hpq.2 _ _ (h4.2.2 k)
      · rw [deepNode_old _ n (.inr ?_), deepNode_old _ n' (.inr ?_)]
        · exact h
        · rintro _ ⟨⟩; rw [e2']; simp [IsMap]
        · rintro _ ⟨⟩; rw [e2]; simp [IsMap]
  · intro n n' x x' h e e' hx _ o o' ho
    rw [keep n _ (by simp [e]), keep n' _ (by simp [e'])]
    exact h

theorem deepmerge_same {r r' m m' : List (String × Node E)} (hr : MSame r r') (hm : MSame m m') : MSame (deepmerge r m) (deepmerge r' m') := by
  refine ⟨deepmerge_ok _ _ hr.1, deepmerge_ok _ _ hr.2.1, fun k => ?_⟩
  rw [deepmerge_get _ _ hm.1, deepmerge_get _ _ hm.2.1]
  rcases both_some (hm.2.2 k) with ⟨e5, e5'⟩ | ⟨p, q, e5, e5', hpq⟩
  · rw [e5, e5']; exact hr.2.2 k
  · rw [e5, e5']; exact deepNode_same _ _ hpq _ _ (hr.2.2 k)

theorem getMap_same {v v' : Val E} (h : VSame v v') : Both MSame (getMap v) (getMap v') := by
  rcases vsame_cases h with ⟨rfl, hl⟩ | ⟨l1, l2, rfl, rfl, h1⟩ | ⟨m, m', rfl, rfl, h1⟩ | ⟨x, x', rfl, rfl, h1⟩
  · cases v <;> first | trivial
  · trivial
  · exact h1
  · simp only [getMap]
    rcases vsame_cases h1.val with ⟨e2, hlf⟩ | ⟨l1, l2, e2, e2', h4⟩ | ⟨m2, m2', e2, e2', h4⟩ | ⟨z, z', e2, e2', h4⟩
    · rw [← e2]
      revert hlf
      cases x.val <;> intro hlf <;> first | trivial
    · rw [e2, e2']; trivial
    · rw [e2, e2']; exact h4
    · rw [e2, e2']; trivial

theorem mapM_same {α β : Type} {H : α → α → Prop} {K : β → β → Prop} {f : α → Option β} (hf : ∀ a b, H a b → Both K (f a) (f b)) {l l' : List α} (h : List.Forall₂ H l l') :
    Both (List.Forall₂ K) (l.mapM f) (l'.mapM f) := by
  induction h with
  | nil => exact List.Forall₂.nil
  | cons h _ ih =>
    rw [List.mapM_cons, List.mapM_cons]
    rcases both_some (hf _ _ h) with ⟨e, e'⟩ | ⟨p, q, e, e', hpq⟩
    · rw [e, e']; trivial
    · rw [e, e']
      rcases both_some ih with ⟨e2, e2'⟩ | ⟨p2, q2, e2, e2', hpq2⟩
      · rw [e2, e2']; trivial
      · rw [e2, e2']; exact List.Forall₂.cons hpq hpq2

theorem getMapList_same {vs vs' : List (Val E)} (h : List.Forall₂ VSame vs vs') : Both (List.Forall₂ MSame) (getMapList vs) (getMapList vs') := by
  have two : ∀ (x y : Val E) r, getMapList (x :: y :: r) = (x :: y :: r).mapM getMap := by intro x y r; cases x <;> rfl
  rcases h with _ | ⟨h, _ | ⟨h2, h3⟩⟩
  · exact List.Forall₂.nil
  · have other : ∀ v : Val E, (∀ l, v ≠ .list l) → getMapList [v] = [v].mapM getMap := by
      intro v hv; cases v <;> first | rfl | exact absurd rfl (hv _)
    rcases vsame_cases h with ⟨rfl, hl⟩ | ⟨l1, l2, rfl, rfl, h1⟩ | ⟨m, m', rfl, rfl, h1⟩ | ⟨x, x', rfl, rfl, h1⟩
    · rename_i a
      rw [other]
      · exact mapM_same (fun _ _ => getMap_same) (.cons h .nil)
      · rintro l rfl; exact absurd hl Bool.false_ne_true
    · simp only [getMapList]
      have : l1.isEmpty = l2.isEmpty := by cases h1 <;> rfl
      rw [this]
      split
      · trivial
      · exact mapM_same (fun _ _ h => getMap_same h.val) h1
    · rw [other _ (by simp), other _ (by simp)]; exact mapM_same (fun _ _ => getMap_same) (.cons h .nil)
    · rw [other _ (by simp), other _ (by simp)]; exact mapM_same (fun _ _ => getMap_same) (.cons h .nil)
  · rw [two, two]
    exact mapM_same (fun _ _ => getMap_same) (.cons h (.cons h2 h3))

theorem deepmerge_of : FnOF (E := E) funcDeepmerge := by
  intro vs vs' h
  have he : vs.isEmpty = vs'.isEmpty := by cases h <;> rfl
  unfold funcDeepmerge
  rw [he]
  split
  · trivial
  · rcases both_some (getMapList_same h) with ⟨e, e'⟩ | ⟨p, q, e, e', hpq⟩
    · rw [e, e']; trivial
    · rw [e, e']
      show MSame _ _
      have : ∀ {a a' : List (String × Node E)}, MSame a a' → MSame (p.foldl deepmerge a) (q.foldl deepmerge a') := by
        clear e e'
        induction hpq with
        | nil => intro a a' h; exact h
        | cons h _ ih => intro a a' ha; exact ih (deepmerge_same ha h)
      exact this msame_nil

/-! ### strings -/

theorem strNodes_same (src : String) (l : List (List Char)) : OutSame (E := E) (.ok (.list (strNodes src l))) (.ok (.list (strNodes src l))) := by
  show List.Forall₂ Same _ _
  induction l with
  | nil => exact .nil
  | cons a r ih => exact .cons (same_new (vsame_leaf rfl) _) ih

theorem splitVals_same (src : String) {v v' : Val E} (h : VSame v v') (s : String) (n : Int) : OutSame (splitVals src v s n) (splitVals src v' s n) := by
  rcases vsame_cases h with ⟨rfl, hl⟩ | ⟨l1, l2, rfl, rfl, h1⟩ | ⟨m, m', rfl, rfl, h1⟩ | ⟨x, x', rfl, rfl, h1⟩
  · unfold splitVals
    split
    · exact strNodes_same _ _
    · split
      · trivial
      · exact strNodes_same _ _
    · trivial
  all_goals trivial

theorem split_of (src : String) : FnOF (E := E) (funcSplit src) := by
  intro vs vs' h
  have e2 : ∀ (x y : Val E), funcSplit src [x, y] = match y with | .str s => splitVals src x s (-1) | _ => .err := by
    intro x y; cases y <;> rfl
  have e3 : ∀ (x y z : Val E), funcSplit src [x, y, z] = match y, z with | .str s, .int n => splitVals src x s n | _, _ => .err := by
    intro x y z; cases y <;> cases z <;> rfl
  have more : ∀ (x y z w : Val E) r, funcSplit src (x :: y :: z :: w :: r) = .err := by intro x y z w r; unfold funcSplit; split <;> simp_all
  rcases h with _ | ⟨h, _ | ⟨h2, _ | ⟨h3, _ | ⟨h4, h5⟩⟩⟩⟩
  · trivial
  · trivial
  · rw [e2, e2]
    rcases vsame_cases h2 with ⟨rfl, hl⟩ | ⟨l1, l2, rfl, rfl, h1⟩ | ⟨m, m', rfl, rfl, h1⟩ | ⟨x, x', rfl, rfl, h1⟩
    · split
      · exact splitVals_same _ h _ _
      · trivial
    all_goals trivial
  · rw [e3, e3]
    rcases vsame_cases h2 with ⟨rfl, hl⟩ | ⟨l1, l2, rfl, rfl, h1⟩ | ⟨m, m', rfl, rfl, h1⟩ | ⟨x, x', rfl, rfl, h1⟩
    · rcases vsame_cases h3 with ⟨rfl, hl⟩ | ⟨l1, l2, rfl, rfl, h1⟩ | ⟨m, m', rfl, rfl, h1⟩ | ⟨x, x', rfl, rfl, h1⟩
      · split
        · exact splitVals_same _ h _ _
        · trivial
      all_goals (simp only; trivial)
    all_goals trivial
  · rw [more, more]; trivial

theorem joinElems_same {l l' : List (Node E)} (h : List.Forall₂ Same l l') : joinElems l = joinElems l' := by
  induction h with
  | nil => rfl
  | cons h _ ih => simp only [joinElems, keyString_same h.val, ih]

theorem joinArgs_same {vs vs' : List (Val E)} (h : List.Forall₂ VSame vs vs') (b : Bool) : joinArgs b vs = joinArgs b vs' := by
  induction h generalizing b with
  | nil => rfl
  | @cons v v' _ _ h _ ih =>
    rcases vsame_cases h with ⟨rfl, hl⟩ | ⟨l1, l2, rfl, rfl, h1⟩ | ⟨m, m', rfl, rfl, h1⟩ | ⟨x, x', rfl, rfl, h1⟩
    · cases v <;> simp only [joinArgs, ih]
    · simp only [joinArgs, joinElems_same h1, ih]
    · simp only [joinArgs, keyString]
    · simp only [joinArgs, keyString]

theorem join_of : FnOF (E := E) funcJoin := by
  intro vs vs' h
  have he : vs.isEmpty = vs'.isEmpty := by cases h <;> rfl
  unfold funcJoin
  rw [he, joinArgs_same h]
  refine outSame_leaf (fun v hv => ?_)
  repeat' split at hv
  all_goals cases hv
  rfl

theorem trimNodes_same (src : String) (cut : List Char) {l l' : List (Node E)} (h : List.Forall₂ Same l l') :
    Both (List.Forall₂ Same) (trimNodes src cut l) (trimNodes src cut l') := by
  induction h with
  | nil => exact List.Forall₂.nil
  | @cons a b _ _ h _ ih =>
    simp only [trimNodes]
    rcases vsame_cases h.val with ⟨e, hl⟩ | ⟨l1, l2, e, e', h1⟩ | ⟨m, m', e, e', h1⟩ | ⟨x, x', e, e', h1⟩
    · rw [← e]
      cases a.val <;> first | trivial | skip
      rcases both_some ih with ⟨e2, e2'⟩ | ⟨p2, q2, e2, e2', hpq2⟩
      · rw [e2, e2']; trivial
      · rw [e2, e2']; exact List.Forall₂.cons (same_new (vsame_leaf rfl) _) hpq2
    all_goals rw [e, e']; trivial

theorem trimVal_same (src : String) (cut : List Char) {v v' : Val E} (h : VSame v v') : OutSame (trimVal src cut v) (trimVal src cut v') := by
  rcases vsame_cases h with ⟨rfl, hl⟩ | ⟨l1, l2, rfl, rfl, h1⟩ | ⟨m, m', rfl, rfl, h1⟩ | ⟨x, x', rfl, rfl, h1⟩
  · cases v <;> first | trivial
  · simp only [trimVal]
    rcases both_some (trimNodes_same src cut h1) with ⟨e2, e2'⟩ | ⟨p2, q2, e2, e2', hpq2⟩
    · rw [e2, e2']; trivial
    · rw [e2, e2']; exact hpq2
  · trivial
  · trivial

theorem trim_of (src : String) : FnOF (E := E) (funcTrim src) := by
  intro vs vs' h
  have e2 : ∀ (x y : Val E), funcTrim src [x, y] = match y with | .str s => trimVal src s.toList x | _ => .err := by
    intro x y; cases y <;> rfl
  have more : ∀ (x y z : Val E) r, funcTrim src (x :: y :: z :: r) = .err := by intro x y z r; unfold funcTrim; split <;> simp_all
  rcases h with _ | ⟨h, _ | ⟨h2, _ | ⟨h3, h4⟩⟩⟩
  · trivial
  · exact trimVal_same _ _ h
  · rw [e2, e2]
    rcases vsame_cases h2 with ⟨rfl, hl⟩ | ⟨l1, l2, rfl, rfl, h1⟩ | ⟨m, m', rfl, rfl, h1⟩ | ⟨x, x', rfl, rfl, h1⟩
    · split
      · exact trimVal_same _ _ h
      · trivial
    all_goals trivial
  · rw [more, more]; trivial

end Spiff
