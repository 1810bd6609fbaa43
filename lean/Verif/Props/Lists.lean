import Verif.Model.ListFns
import Verif.Spec.Lists
import Verif.Props.Comparison
import Mathlib.Tactic.Ring
/-
C30: uniq, intersect, compact, contains, index, lastindex.
-/
namespace Spiff
open Spec
variable {E : Type} [DecidableEq E]

/-! ### uniq -/

/-- the entries still to be kept when `acc` is already kept, with positions -/
def uniqKeep (acc : List (Node E)) : List (Node E) → List (Node E)
  | [] => []
  | v :: r => if acc.any (fun n => eqVals v.val n.val) then uniqKeep acc r else v :: uniqKeep (acc ++ [v]) r

omit [DecidableEq E] in
theorem pick_cons {α : Type} (x : α) (l : List α) (keep : Nat → Bool) :
    pick (x :: l) keep = (if keep 0 then [x] else []) ++ pick l (fun i => keep (i + 1)) := by
  have h : ∀ (l : List α) (n : Nat) (k : Nat → Bool),
      ((l.zipIdx (n + 1)).filter (fun p => k p.2)).map (·.1) = ((l.zipIdx n).filter (fun p => k (p.2 + 1))).map (·.1) := by
    intro l
    induction l with
    | nil => intro n k; rfl
    | cons a l ih =>
      intro n k
      simp only [List.zipIdx_cons, List.filter_cons]
      split <;> simp_all
  unfold pick
  rw [List.zipIdx_cons, List.filter_cons]
  split
  · next hk => simp only [hk, if_true, List.map_cons, h]; rfl
  · next hk => simp only [h]; simp_all

omit [DecidableEq E] in
theorem pick_nil {α : Type} (keep : Nat → Bool) : pick ([] : List α) keep = [] := rfl

theorem uniqLoop_pick (l : List (Node E)) : ∀ acc : List (Node E), ∃ keep : Nat → Bool,
    uniqLoop acc l = acc ++ pick l keep ∧
    ∀ i x, l[i]? = some x → (keep i = true ↔ (∀ a ∈ acc, eqVals x.val a.val = false) ∧
      ∀ j y, j < i → l[j]? = some y → keep j = true → eqVals x.val y.val = false) := by
  induction l with
  | nil => intro acc; exact ⟨fun _ => false, by simp [uniqLoop, pick], by simp⟩
  | cons v r ih =>
    intro acc
    unfold uniqLoop
    split
    · next h =>
      obtain ⟨k, h1, h2⟩ := ih acc
      refine ⟨fun i => match i with | 0 => false | i + 1 => k i, by rw [h1, pick_cons]; simp, ?_⟩
      intro i x hx
      cases i with
      | zero =>
        simp only [List.getElem?_cons_zero, Option.some.injEq] at hx
        subst hx
        simp only [Bool.false_eq_true, false_iff]
        intro hh
        obtain ⟨a, ha, hb⟩ := List.any_eq_true.1 h
        rw [hh.1 a ha] at hb
        cases hb
      | succ i =>
        have hx' : r[i]? = some x := by simpa using hx
        refine Iff.trans (h2 i x hx') ?_
        constructor
        · rintro ⟨ha, hb⟩
          refine ⟨ha, ?_⟩
          intro j y hj hy hk
          cases j with
          | zero => cases hk
          | succ j => exact hb j y (by omega) (by simpa using hy) hk
        · rintro ⟨ha, hb⟩
          exact ⟨ha, fun j y hj hy hk => hb (j + 1) y (by omega) (by simpa using hy) hk⟩
    · next h =>
      obtain ⟨k, h1, h2⟩ := ih (acc ++ [v])
      refine ⟨fun i => match i with | 0 => true | i + 1 => k i, by rw [h1, pick_cons]; simp, ?_⟩
      have h' : ∀ a ∈ acc, eqVals v.val a.val = false := by
        intro a ha
        by_contra hb
        exact h (List.any_eq_true.2 ⟨a, ha, by simpa using hb⟩)
      intro i x hx
      cases i with
      | zero =>
        simp only [List.getElem?_cons_zero, Option.some.injEq] at hx
        subst hx
        simpa using h'
      | succ i =>
        have hx' : r[i]? = some x := by simpa using hx
        refine Iff.trans (h2 i x hx') ?_
        constructor
        · rintro ⟨ha, hb⟩
          refine ⟨fun a h => ha a (by simp [h]), ?_⟩
          intro j y hj hy hk
          cases j with
          | zero =>
            simp only [List.getElem?_cons_zero, Option.some.injEq] at hy
            exact ha y (by simp [hy])
          | succ j => exact hb j y (by omega) (by simpa using hy) hk
        · rintro ⟨ha, hb⟩
          refine ⟨?_, fun j y hj hy hk => hb (j + 1) y (by omega) (by simpa using hy) hk⟩
          intro a h
          rcases List.mem_append.1 h with h | h
          · exact ha a h
          · have : a = v := by simpa using h
            subst this
            exact hb 0 a (by omega) rfl rfl

theorem eq_false_iff (a b : Node E) (ha : GoMaps a) (hb : GoMaps b) : eqVals a.val b.val = false ↔ ¬ Loose a.val b.val := by
  rw [← eq_iff b a.val (by cases a; exact ha) hb]
  simp

/-- C30: `uniq` yields the entries at exactly those positions, whose entry is not equal to the entry at an
earlier selected position. -/
theorem uniq_first_occurrences (l : List (Node E)) (hl : ∀ n ∈ l, GoMaps n) :
    ∃ keep : Nat → Bool, funcUniq [.list l] = .ok (.list (pick l keep)) ∧
      ∀ i x, l[i]? = some x → (keep i = true ↔
        ∀ j y, j < i → l[j]? = some y → keep j = true → ¬ Loose x.val y.val) := by
  obtain ⟨k, h1, h2⟩ := uniqLoop_pick l []
  refine ⟨k, by simp [funcUniq, h1], ?_⟩
  intro i x hx
  rw [h2 i x hx]
  have hm : ∀ {j y}, l[j]? = some y → GoMaps y := fun h => hl _ (List.mem_of_getElem? h)
  constructor
  · rintro ⟨-, h⟩ j y hj hy hk
    exact (eq_false_iff x y (hm hx) (hm hy)).1 (h j y hj hy hk)
  · intro h
    exact ⟨by simp, fun j y hj hy hk => (eq_false_iff x y (hm hx) (hm hy)).2 (h j y hj hy hk)⟩

omit [DecidableEq E] in
theorem pick_sublist {α : Type} (l : List α) : ∀ keep, (pick l keep).Sublist l := by
  induction l with
  | nil => intro k; simp [pick]
  | cons a l ih =>
    intro k
    rw [pick_cons]
    split
    · exact (ih _).cons_cons a
    · simpa using (ih _).cons a

theorem uniqLoop_pairwise (l : List (Node E)) : ∀ acc : List (Node E),
    acc.Pairwise (fun x y => eqVals y.val x.val = false) →
    (uniqLoop acc l).Pairwise (fun x y => eqVals y.val x.val = false) := by
  induction l with
  | nil => intro acc h; simpa [uniqLoop] using h
  | cons v r ih =>
    intro acc h
    unfold uniqLoop
    split
    · exact ih acc h
    · next hv =>
      apply ih
      rw [List.pairwise_append]
      refine ⟨h, by simp, ?_⟩
      intro a ha b hb
      have : b = v := by simpa using hb
      subst this
      by_contra hc
      exact hv (List.any_eq_true.2 ⟨a, ha, by simpa using hc⟩)

theorem uniqLoop_keeps (l : List (Node E)) : ∀ acc : List (Node E),
    (∀ a ∈ acc, a ∈ uniqLoop acc l) ∧
    ∀ x ∈ l, x ∈ uniqLoop acc l ∨ ∃ y ∈ uniqLoop acc l, eqVals x.val y.val = true := by
  induction l with
  | nil => intro acc; simp [uniqLoop]
  | cons v r ih =>
    intro acc
    unfold uniqLoop
    split
    · next h =>
      refine ⟨(ih acc).1, ?_⟩
      intro x hx
      rcases List.mem_cons.1 hx with rfl | hx
      · obtain ⟨a, ha, hb⟩ := List.any_eq_true.1 h
        exact .inr ⟨a, (ih acc).1 a ha, hb⟩
      · exact (ih acc).2 x hx
    · next h =>
      refine ⟨fun a ha => (ih _).1 a (by simp [ha]), ?_⟩
      intro x hx
      rcases List.mem_cons.1 hx with rfl | hx
      · exact .inl ((ih _).1 x (by simp))
      · exact (ih _).2 x hx

/-- C30: the result of `uniq` is in the order of the argument, has no entry equal to an earlier one, and every
entry of the argument is represented. -/
theorem uniq_spec (l : List (Node E)) (hl : ∀ n ∈ l, GoMaps n) :
    ∃ r, funcUniq [.list l] = .ok (.list r) ∧ r.Sublist l ∧
      r.Pairwise (fun x y => ¬ Loose y.val x.val) ∧ (∀ x ∈ l, x ∈ r ∨ Has r x) := by
  refine ⟨uniqLoop [] l, rfl, ?_, ?_, ?_⟩
  · obtain ⟨k, h1, -⟩ := uniqLoop_pick l []
    rw [h1]; simpa using pick_sublist l k
  all_goals
    have hs : (uniqLoop [] l).Sublist l := by
      obtain ⟨k, h1, -⟩ := uniqLoop_pick l []
      rw [h1]; simpa using pick_sublist l k
  · refine List.Pairwise.imp_of_mem ?_ (uniqLoop_pairwise l [] List.Pairwise.nil)
    intro a b ha hb h
    exact (eq_false_iff b a (hl b (hs.subset hb)) (hl a (hs.subset ha))).1 h
  · intro x hx
    rcases (uniqLoop_keeps l []).2 x hx with h | ⟨y, hy, h⟩
    · exact .inl h
    · exact .inr ⟨y, hy, (eq_iff y x.val (by cases x; exact hl _ hx) (hl y (hs.subset hy))).1 h⟩

example : funcUniq [.list [Node.new (.int 1) "", .new (.str "a") "", .new (.int 1) "", .new (.str "a") ""]]
    = .ok (.list ([Node.new (.int 1) "", .new (.str "a") ""] : List (Node Unit))) := by rfl

/-! ### intersect -/

/-- kept by all further lists -/
def inAll (ls : List (List (Node E))) (e : Node E) : Bool := ls.all (fun l => l.any (fun n => eqVals e.val n.val))

theorem intersectLoop_lists (ls : List (List (Node E))) : ∀ r : List (Node E),
    intersectLoop (some r) (ls.map (SetArg.list false)) = .ok (some (r.filter (inAll ls))) := by
  induction ls with
  | nil =>
    intro r
    have : (fun e : Node E => inAll ([] : List (List (Node E))) e) = fun _ => true := by funext; rfl
    simp only [List.map_nil, intersectLoop]
    rw [show (inAll ([] : List (List (Node E)))) = fun _ => true from this]
    simp
  | cons l ls ih =>
    intro r
    simp only [List.map_cons, intersectLoop, ih, intersect2, List.filter_filter]
    congr 3
    funext e
    simp [inAll, Bool.and_comm]

/-- C30: `intersect` of one or more lists keeps exactly those entries of the first one, that are equal to some
entry of every other list, in order. -/
theorem intersect_spec (l : List (Node E)) (ls : List (List (Node E))) (hl : ∀ n ∈ l, GoMaps n)
    (hls : ∀ l' ∈ ls, ∀ n ∈ l', GoMaps n) :
    ∃ p : Node E → Bool, funcIntersect (.list l :: ls.map .list) = .ok (.list (l.filter p)) ∧
      ∀ n ∈ l, (p n = true ↔ ∀ l' ∈ ls, Has l' n) := by
  refine ⟨inAll ls, ?_, ?_⟩
  · have h : (Val.list l :: ls.map Val.list).map toSetArg = SetArg.list false l :: ls.map (SetArg.list false) := by
      simp [toSetArg, Function.comp_def]
    simp only [funcIntersect, h, intersectLoop, Bool.false_eq_true, if_false, intersectLoop_lists, Option.getD_some]
  · intro n hn
    simp only [inAll, List.all_eq_true, List.any_eq_true, Has]
    constructor
    · intro h l' hl'
      obtain ⟨y, hy, he⟩ := h l' hl'
      exact ⟨y, hy, (eq_iff y n.val (by cases n; exact hl _ hn) (hls l' hl' y hy)).1 he⟩
    · intro h l' hl'
      obtain ⟨y, hy, he⟩ := h l' hl'
      exact ⟨y, hy, (eq_iff y n.val (by cases n; exact hl _ hn) (hls l' hl' y hy)).2 he⟩

/-- nil arguments are ignored, any other argument that is no list is rejected -/
theorem intersect_other (args : List (Val E)) (h : ∃ a ∈ args, a ≠ .nil ∧ ∀ l, a ≠ .list l) : funcIntersect args = .err := by
  have : ∀ (args : List (Val E)) (r : Option (List (Node E))), (∃ a ∈ args, a ≠ .nil ∧ ∀ l, a ≠ .list l) →
      intersectLoop r (args.map toSetArg) = .err := by
    intro args
    induction args with
    | nil => intro r h; simp at h
    | cons a args ih =>
      intro r h
      by_cases ha : a ≠ .nil ∧ ∀ l, a ≠ .list l
      · have : toSetArg a = SetArg.other := by
          cases a <;> first | rfl | (exact absurd rfl ha.1) | (exact absurd rfl (ha.2 _))
        simp [this, intersectLoop]
      · obtain ⟨b, hb, h1⟩ := h
        rcases List.mem_cons.1 hb with rfl | hb
        · exact absurd h1 ha
        · have h2 := fun r => ih r ⟨b, hb, h1⟩
          cases a <;> simp only [List.map_cons, toSetArg, intersectLoop, h2]
          cases r <;> rfl
  simp [funcIntersect, this args none h]

/-- The stated exception: with a nil slice as first list (what Go's `uniq` and `compact` return for an empty result)
the intersection is not empty. -/
theorem intersect_nil_slice (l : List (Node E)) :
    intersectLoop none [SetArg.list true [], SetArg.list false l] = .ok (some l) := rfl

/-! ### compact -/

omit [DecidableEq E] in
/-- C30: `compact` drops exactly the empty entries, keeping the order -/
theorem compact_spec (l : List (Node E)) :
    ∃ p : Node E → Bool, funcCompact [.list l] = .ok (.list (l.filter p)) ∧ ∀ n ∈ l, (p n = false ↔ IsEmptyVal n.val) := by
  refine ⟨fun n => compactKeep n.val, rfl, ?_⟩
  intro n _
  rcases n with ⟨v, s, a⟩
  cases v <;> simp [compactKeep, IsEmptyVal, Node.val]

omit [DecidableEq E] in
theorem compact_idem (l r : List (Node E)) (h : funcCompact [.list l] = .ok (.list r)) :
    funcCompact [.list r] = .ok (.list r) := by
  simp only [funcCompact, Out.ok.injEq, Val.list.injEq] at h ⊢
  subst h
  simp

/-! ### contains, index, lastindex -/

theorem firstIndex_some (elem : Val E) (l : List (Node E)) (i : Nat) : firstIndex elem l = some i ↔
    (∃ x, l[i]? = some x ∧ eqVals x.val elem = true) ∧ ∀ j y, j < i → l[j]? = some y → eqVals y.val elem = false := by
  induction l generalizing i with
  | nil => simp [firstIndex]
  | cons v r ih =>
    unfold firstIndex
    split
    · next h =>
      cases i with
      | zero => simp [h]
      | succ i =>
        simp only [Option.some.injEq, Nat.zero_ne_add_one, false_iff]
        rintro ⟨-, h2⟩
        have := h2 0 v (by omega) rfl
        rw [h] at this; cases this
    · next h =>
      cases i with
      | zero =>
        simp only [Option.map_eq_some_iff, Nat.add_one_ne_zero, and_false, exists_false, List.getElem?_cons_zero,
          Option.some.injEq, false_iff]
        rintro ⟨⟨x, rfl, hx⟩, -⟩
        exact h hx
      | succ i =>
        have : (firstIndex elem r).map (· + 1) = some (i + 1) ↔ firstIndex elem r = some i := by simp
        rw [this, ih]
        simp only [List.getElem?_cons_succ]
        constructor
        · rintro ⟨h1, h2⟩
          refine ⟨h1, ?_⟩
          intro j y hj hy
          cases j with
          | zero => simp only [List.getElem?_cons_zero, Option.some.injEq] at hy; subst hy; simpa using h
          | succ j => exact h2 j y (by omega) (by simpa using hy)
        · rintro ⟨h1, h2⟩
          exact ⟨h1, fun j y hj hy => h2 (j + 1) y (by omega) (by simpa using hy)⟩

theorem firstIndex_none (elem : Val E) (l : List (Node E)) : firstIndex elem l = none ↔
    ∀ x ∈ l, eqVals x.val elem = false := by
  induction l with
  | nil => simp [firstIndex]
  | cons v r ih =>
    unfold firstIndex
    split <;> simp_all

theorem lastIndex_none (elem : Val E) (l : List (Node E)) : lastIndex elem l = none ↔
    ∀ x ∈ l, eqVals x.val elem = false := by
  induction l with
  | nil => simp [lastIndex]
  | cons v r ih =>
    unfold lastIndex
    split
    · next i hi =>
      rw [hi] at ih
      simp only [reduceCtorEq, false_iff] at ih ⊢
      intro h
      exact ih (fun x hx => h x (by simp [hx]))
    · next hi =>
      have := ih.1 hi
      split <;> simp_all

theorem lastIndex_some (elem : Val E) (l : List (Node E)) (i : Nat) : lastIndex elem l = some i ↔
    (∃ x, l[i]? = some x ∧ eqVals x.val elem = true) ∧ ∀ j y, i < j → l[j]? = some y → eqVals y.val elem = false := by
  induction l generalizing i with
  | nil => simp [lastIndex]
  | cons v r ih =>
    unfold lastIndex
    split
    · next k hk =>
      have hk' := (ih k).1 hk
      cases i with
      | zero =>
        simp only [Option.some.injEq, Nat.add_one_ne_zero, false_iff]
        rintro ⟨-, h2⟩
        obtain ⟨x, hx, he⟩ := hk'.1
        have := h2 (k + 1) x (by omega) (by simpa using hx)
        rw [he] at this; cases this
      | succ i =>
        have h1 : some (k + 1) = some (i + 1) ↔ lastIndex elem r = some i := by rw [hk]; simp
        rw [h1, ih]
        simp only [List.getElem?_cons_succ]
        constructor
        · rintro ⟨h1, h2⟩
          refine ⟨h1, ?_⟩
          intro j y hj hy
          cases j with
          | zero => omega
          | succ j => exact h2 j y (by omega) (by simpa using hy)
        · rintro ⟨h1, h2⟩
          exact ⟨h1, fun j y hj hy => h2 (j + 1) y (by omega) (by simpa using hy)⟩
    · next hk =>
      have hn := (lastIndex_none elem r).1 hk
      split
      · next h =>
        cases i with
        | zero =>
          simp only [List.getElem?_cons_zero, Option.some.injEq, true_iff]
          refine ⟨⟨v, rfl, h⟩, ?_⟩
          intro j y hj hy
          cases j with
          | zero => omega
          | succ j => exact hn y (List.mem_of_getElem? (by simpa using hy))
        | succ i =>
          simp only [Option.some.injEq, Nat.zero_ne_add_one, List.getElem?_cons_succ, false_iff]
          rintro ⟨⟨x, hx, he⟩, -⟩
          rw [hn x (List.mem_of_getElem? hx)] at he
          cases he
      · next h =>
        simp only [reduceCtorEq, false_iff]
        rintro ⟨⟨x, hx, he⟩, -⟩
        cases i with
        | zero => simp only [List.getElem?_cons_zero, Option.some.injEq] at hx; subst hx; exact h he
        | succ i =>
          rw [hn x (List.mem_of_getElem? (by simpa using hx))] at he
          cases he

/-- C30: `index` on lists: the smallest position with an equal entry, `-1` if there is none -/
theorem index_list (l : List (Node E)) (elem : Node E) (hl : ∀ n ∈ l, GoMaps n) (he : GoMaps elem) (h0 : elem.val ≠ .nil) :
    ∃ i : Int, funcIndex [.list l, elem.val] = .ok (.int i) ∧
      ((i = -1 ∧ ∀ x ∈ l, ¬ Loose x.val elem.val) ∨
       ∃ (n : Nat) (x : Node E), i = n ∧ l[n]? = some x ∧ Loose x.val elem.val ∧
        ∀ j y, j < n → l[j]? = some y → ¬ Loose y.val elem.val) := by
  have hf : funcIndex [.list l, elem.val] = .ok (idxVal (firstIndex elem.val l)) := by
    unfold funcIndex funcIndexBy
    split <;> simp_all
  rw [hf]
  rcases hx : firstIndex elem.val l with _ | n
  · refine ⟨-1, rfl, .inl ⟨rfl, fun x h => ?_⟩⟩
    exact (eq_false_iff x elem (hl x h) he).1 ((firstIndex_none _ l).1 hx x h)
  · obtain ⟨⟨x, h1, h2⟩, h3⟩ := (firstIndex_some _ l n).1 hx
    refine ⟨n, rfl, .inr ⟨n, x, rfl, h1, ?_, ?_⟩⟩
    · exact (eq_iff elem x.val (by have := hl x (List.mem_of_getElem? h1); cases x; exact this) he).1 h2
    · intro j y hj hy
      exact (eq_false_iff y elem (hl y (List.mem_of_getElem? hy)) he).1 (h3 j y hj hy)

/-- C30: `lastindex` on lists: the largest position with an equal entry, `-1` if there is none -/
theorem lastindex_list (l : List (Node E)) (elem : Node E) (hl : ∀ n ∈ l, GoMaps n) (he : GoMaps elem) (h0 : elem.val ≠ .nil) :
    ∃ i : Int, funcLastIndex [.list l, elem.val] = .ok (.int i) ∧
      ((i = -1 ∧ ∀ x ∈ l, ¬ Loose x.val elem.val) ∨
       ∃ (n : Nat) (x : Node E), i = n ∧ l[n]? = some x ∧ Loose x.val elem.val ∧
        ∀ j y, n < j → l[j]? = some y → ¬ Loose y.val elem.val) := by
  have hf : funcLastIndex [.list l, elem.val] = .ok (idxVal (lastIndex elem.val l)) := by
    unfold funcLastIndex funcIndexBy
    split <;> simp_all
  rw [hf]
  rcases hx : lastIndex elem.val l with _ | n
  · refine ⟨-1, rfl, .inl ⟨rfl, fun x h => ?_⟩⟩
    exact (eq_false_iff x elem (hl x h) he).1 ((lastIndex_none _ l).1 hx x h)
  · obtain ⟨⟨x, h1, h2⟩, h3⟩ := (lastIndex_some _ l n).1 hx
    refine ⟨n, rfl, .inr ⟨n, x, rfl, h1, ?_, ?_⟩⟩
    · exact (eq_iff elem x.val (by have := hl x (List.mem_of_getElem? h1); cases x; exact this) he).1 h2
    · intro j y hj hy
      exact (eq_false_iff y elem (hl y (List.mem_of_getElem? hy)) he).1 (h3 j y hj hy)

/-! on strings -/

omit [DecidableEq E] in
theorem prefix_occurs (pat s : List Char) : pat.isPrefixOf s = true ↔ OccursAt pat s 0 := by
  rw [List.isPrefixOf_iff_prefix]
  constructor
  · rintro ⟨t, rfl⟩; exact ⟨[], t, by simp, rfl⟩
  · rintro ⟨a, b, rfl, h⟩
    have : a = [] := List.length_eq_zero_iff.1 h
    subst this
    exact ⟨b, by simp⟩

omit [DecidableEq E] in
theorem occurs_cons (pat s : List Char) (c : Char) (i : Nat) : OccursAt pat (c :: s) (i + 1) ↔ OccursAt pat s i := by
  constructor
  · rintro ⟨a, b, h, hl⟩
    cases a with
    | nil => simp at hl
    | cons x a =>
      simp only [List.cons_append, List.cons.injEq] at h
      exact ⟨a, b, h.2, by simpa using hl⟩
  · rintro ⟨a, b, rfl, hl⟩
    exact ⟨c :: a, b, by simp, by simp [hl]⟩

omit [DecidableEq E] in
theorem occurs_nil (pat : List Char) (i : Nat) : OccursAt pat [] i ↔ pat = [] ∧ i = 0 := by
  constructor
  · rintro ⟨a, b, h, hl⟩
    have := List.append_eq_nil_iff.1 h.symm
    have h2 := List.append_eq_nil_iff.1 this.1
    exact ⟨h2.2, by simp [← hl, h2.1]⟩
  · rintro ⟨rfl, rfl⟩; exact ⟨[], [], by simp, rfl⟩

omit [DecidableEq E] in
theorem findSub_some (pat s : List Char) (i : Nat) : findSub pat s = some i ↔
    OccursAt pat s i ∧ ∀ j < i, ¬ OccursAt pat s j := by
  induction s generalizing i with
  | nil =>
    unfold findSub
    split
    · next h => subst h; simp only [Option.some.injEq, occurs_nil]; constructor
                · rintro rfl; simp
                · rintro ⟨⟨-, h⟩, -⟩; exact h.symm
    · next h => simp [occurs_nil, h]
  | cons c s ih =>
    unfold findSub
    split
    · next h =>
      rw [prefix_occurs] at h
      cases i with
      | zero => simp [h]
      | succ i =>
        simp only [Option.some.injEq, Nat.zero_ne_add_one, false_iff]
        rintro ⟨-, h2⟩
        exact h2 0 (by omega) h
    · next h =>
      rw [prefix_occurs] at h
      cases i with
      | zero => simp [h]
      | succ i =>
        have : (findSub pat s).map (· + 1) = some (i + 1) ↔ findSub pat s = some i := by simp
        rw [this, ih, occurs_cons]
        constructor
        · rintro ⟨h1, h2⟩
          refine ⟨h1, ?_⟩
          intro j hj
          cases j with
          | zero => exact h
          | succ j => rw [occurs_cons]; exact h2 j (by omega)
        · rintro ⟨h1, h2⟩
          exact ⟨h1, fun j hj => by have := h2 (j + 1) (by omega); rwa [occurs_cons] at this⟩

omit [DecidableEq E] in
theorem findSub_none (pat s : List Char) : findSub pat s = none ↔ ∀ j, ¬ OccursAt pat s j := by
  induction s with
  | nil =>
    unfold findSub
    split
    · next h => simp only [reduceCtorEq, occurs_nil, h, false_iff]; intro h; exact h 0 ⟨trivial, rfl⟩
    · next h => simp [occurs_nil, h]
  | cons c s ih =>
    unfold findSub
    split
    · next h =>
      rw [prefix_occurs] at h
      simp only [reduceCtorEq, false_iff]
      intro h'; exact h' 0 h
    · next h =>
      rw [prefix_occurs] at h
      simp only [Option.map_eq_none_iff, ih]
      constructor
      · intro h1 j
        cases j with
        | zero => exact h
        | succ j => rw [occurs_cons]; exact h1 j
      · intro h1 j
        have := h1 (j + 1)
        rwa [occurs_cons] at this

omit [DecidableEq E] in
theorem findLastSub_none (pat s : List Char) : findLastSub pat s = none ↔ ∀ j, ¬ OccursAt pat s j := by
  induction s with
  | nil =>
    unfold findLastSub
    split
    · next h => simp only [reduceCtorEq, occurs_nil, h, false_iff]; intro h; exact h 0 ⟨trivial, rfl⟩
    · next h => simp [occurs_nil, h]
  | cons c s ih =>
    have key : (∀ j, ¬ OccursAt pat (c :: s) j) ↔ (∀ j, ¬ OccursAt pat s j) ∧ ¬ OccursAt pat (c :: s) 0 := by
      constructor
      · intro h; exact ⟨fun j => by have := h (j + 1); rwa [occurs_cons] at this, h 0⟩
      · rintro ⟨h1, h2⟩ j
        cases j with
        | zero => exact h2
        | succ j => rw [occurs_cons]; exact h1 j
    rw [key, ← ih, findLastSub.eq_2]
    split
    · next i hi => simp [hi]
    · next hi =>
      split
      · next h => rw [prefix_occurs] at h; simp [h]
      · next h => rw [prefix_occurs] at h; simp [h, hi]

omit [DecidableEq E] in
theorem findLastSub_some (pat s : List Char) (i : Nat) : findLastSub pat s = some i ↔
    OccursAt pat s i ∧ ∀ j, i < j → ¬ OccursAt pat s j := by
  induction s generalizing i with
  | nil =>
    unfold findLastSub
    split
    · next h => subst h; simp only [Option.some.injEq, occurs_nil]; constructor
                · rintro rfl; exact ⟨⟨trivial, rfl⟩, fun j hj h => by omega⟩
                · rintro ⟨⟨-, h⟩, -⟩; exact h.symm
    · next h => simp [occurs_nil, h]
  | cons c s ih =>
    unfold findLastSub
    split
    · next k hk =>
      have hk' := (ih k).1 hk
      cases i with
      | zero =>
        simp only [Option.some.injEq, Nat.add_one_ne_zero, false_iff]
        rintro ⟨-, h2⟩
        exact h2 (k + 1) (by omega) ((occurs_cons ..).2 hk'.1)
      | succ i =>
        have h1 : some (k + 1) = some (i + 1) ↔ findLastSub pat s = some i := by rw [hk]; simp
        rw [h1, ih, occurs_cons]
        constructor
        · rintro ⟨h1, h2⟩
          refine ⟨h1, ?_⟩
          intro j hj
          cases j with
          | zero => omega
          | succ j => rw [occurs_cons]; exact h2 j (by omega)
        · rintro ⟨h1, h2⟩
          exact ⟨h1, fun j hj => by have := h2 (j + 1) (by omega); rwa [occurs_cons] at this⟩
    · next hk =>
      have hn := (findLastSub_none pat s).1 hk
      have hn' : ∀ j, ¬ OccursAt pat (c :: s) (j + 1) := fun j => by rw [occurs_cons]; exact hn j
      split
      · next h =>
        rw [prefix_occurs] at h
        cases i with
        | zero =>
          simp only [true_iff]
          refine ⟨h, fun j hj => ?_⟩
          obtain ⟨j, rfl⟩ : ∃ k, j = k + 1 := ⟨j - 1, by omega⟩
          exact hn' j
        | succ i => simp [hn']
      · next h =>
        rw [prefix_occurs] at h
        cases i with
        | zero => simp [h]
        | succ i => simp [hn']

/-- C30: `index` and `lastindex` on strings: the first and the last position of an occurrence, `-1` if there is none -/
theorem index_string (s p : String) :
    (∃ i : Int, funcIndex [(.str s : Val E), .str p] = .ok (.int i) ∧
      ((i = -1 ∧ ∀ j, ¬ OccursAt p.toList s.toList j) ∨
       ∃ n : Nat, i = n ∧ OccursAt p.toList s.toList n ∧ ∀ j < n, ¬ OccursAt p.toList s.toList j)) ∧
    (∃ i : Int, funcLastIndex [(.str s : Val E), .str p] = .ok (.int i) ∧
      ((i = -1 ∧ ∀ j, ¬ OccursAt p.toList s.toList j) ∨
       ∃ n : Nat, i = n ∧ OccursAt p.toList s.toList n ∧ ∀ j, n < j → ¬ OccursAt p.toList s.toList j)) := by
  constructor
  · have hf : funcIndex [(.str s : Val E), .str p] = .ok (idxVal (findSub p.toList s.toList)) := rfl
    rw [hf]
    rcases hx : findSub p.toList s.toList with _ | n
    · exact ⟨-1, rfl, .inl ⟨rfl, (findSub_none _ _).1 hx⟩⟩
    · exact ⟨n, rfl, .inr ⟨n, rfl, (findSub_some _ _ _).1 hx⟩⟩
  · have hf : funcLastIndex [(.str s : Val E), .str p] = .ok (idxVal (findLastSub p.toList s.toList)) := rfl
    rw [hf]
    rcases hx : findLastSub p.toList s.toList with _ | n
    · exact ⟨-1, rfl, .inl ⟨rfl, (findLastSub_none _ _).1 hx⟩⟩
    · exact ⟨n, rfl, .inr ⟨n, rfl, (findLastSub_some _ _ _).1 hx⟩⟩

/-- C30: `contains` holds exactly if `index` (and `lastindex`) find a position; the three fail for the same arguments,
except that `contains` works for maps, too. -/
theorem contains_iff_index (a b : Val E) (hm : ∀ m, a ≠ .map m) :
    (∀ c, funcContains [a, b] = .ok c → ∃ i j : Int, funcIndex [a, b] = .ok (.int i) ∧ funcLastIndex [a, b] = .ok (.int j) ∧
      c = .bool (decide (0 ≤ i)) ∧ (0 ≤ i ↔ 0 ≤ j)) ∧
    (funcContains [a, b] = .err ↔ funcIndex [a, b] = .err) ∧
    (funcContains [a, b] = .err ↔ funcLastIndex [a, b] = .err) := by
  have idx : ∀ o : Option Nat, ∃ i : Int, (idxVal o : Val E) = .int i ∧ (0 ≤ i ↔ o.isSome = true) := by
    intro o; cases o with
    | none => exact ⟨-1, rfl, by simp⟩
    | some n => exact ⟨n, rfl, by simp⟩
  have done : ∀ (x : Bool) (o o' : Option Nat), (x = o.isSome) → (x = o'.isSome) →
      ∃ i j : Int, (idxVal o : Val E) = .int i ∧ (idxVal o' : Val E) = .int j ∧
      x = (decide (0 ≤ i)) ∧ (0 ≤ i ↔ 0 ≤ j) := by
    intro x o o' h1 h2
    obtain ⟨i, hi, hi'⟩ := idx o
    obtain ⟨j, hj, hj'⟩ := idx o'
    refine ⟨i, j, hi, hj, ?_, ?_⟩
    · rw [h1, Bool.eq_iff_iff, ← hi']; simp
    · rw [hi', hj', ← h1, ← h2]
  have listCase : ∀ (l : List (Node E)) (e : Val E), (l.any (fun v => eqVals v.val e)) = (firstIndex e l).isSome ∧
      (l.any (fun v => eqVals v.val e)) = (lastIndex e l).isSome := by
    intro l e
    have h : ∀ o : Option Nat, (o = none ↔ ∀ x ∈ l, eqVals x.val e = false) → (l.any (fun v => eqVals v.val e)) = o.isSome := by
      intro o ho
      rcases o with _ | n
      · have := ho.1 rfl
        simpa [List.any_eq_false] using this
      · rw [Option.isSome_some, List.any_eq_true]
        by_contra hc
        have : (some n : Option Nat) = none := ho.2 (fun x hx => by
          by_contra h'
          exact hc ⟨x, hx, by simpa using h'⟩)
        cases this
    exact ⟨h _ (firstIndex_none e l), h _ (lastIndex_none e l)⟩
  have strCase : ∀ (p s : List Char), (findSub p s).isSome = (findLastSub p s).isSome := by
    intro p s
    have h1 := findSub_none p s
    have h2 := findLastSub_none p s
    rw [← h2] at h1
    rcases h : findSub p s with _ | n <;> rcases h' : findLastSub p s with _ | m <;> simp_all
  cases a with
  | map m => exact absurd rfl (hm m)
  | list l =>
    by_cases hb : b = .nil
    · subst hb
      refine ⟨?_, by simp [funcContains, funcIndex, funcIndexBy], by simp [funcContains, funcLastIndex, funcIndexBy]⟩
      intro c hc
      simp only [funcContains, Out.ok.injEq] at hc
      subst hc
      exact ⟨-1, -1, rfl, rfl, rfl, Iff.rfl⟩
    · have e1 : funcContains [.list l, b] = .ok (.bool (l.any (fun v => eqVals v.val b))) := by
        cases b <;> first | rfl | exact absurd rfl hb
      have e2 : funcIndex [.list l, b] = .ok (idxVal (firstIndex b l)) := by
        cases b <;> first | rfl | exact absurd rfl hb
      have e3 : funcLastIndex [.list l, b] = .ok (idxVal (lastIndex b l)) := by
        cases b <;> first | rfl | exact absurd rfl hb
      rw [e1, e2, e3]
      refine ⟨?_, by simp, by simp⟩
      intro c hc
      simp only [Out.ok.injEq] at hc
      subst hc
      obtain ⟨i, j, h1, h2, h3, h4⟩ := done _ _ _ (listCase l b).1 (listCase l b).2
      exact ⟨i, j, by rw [h1], by rw [h2], by rw [h3], h4⟩
  | str s =>
    rcases hp : asPattern b with _ | p
    · have e1 : funcContains [.str s, b] = .err := by simp [funcContains, hp]
      have e2 : funcIndex [.str s, b] = .err := by simp [funcIndex, funcIndexBy, hp]
      have e3 : funcLastIndex [.str s, b] = .err := by simp [funcLastIndex, funcIndexBy, hp]
      rw [e1, e2, e3]
      exact ⟨fun c h => (by cases h), by simp, by simp⟩
    · have e1 : funcContains [.str s, b] = .ok (.bool (findSub p.toList s.toList).isSome) := by simp [funcContains, hp]
      have e2 : funcIndex [.str s, b] = .ok (idxVal (findSub p.toList s.toList)) := by simp [funcIndex, funcIndexBy, hp]
      have e3 : funcLastIndex [.str s, b] = .ok (idxVal (findLastSub p.toList s.toList)) := by
        simp [funcLastIndex, funcIndexBy, hp]
      rw [e1, e2, e3]
      refine ⟨?_, by simp, by simp⟩
      intro c hc
      simp only [Out.ok.injEq] at hc
      subst hc
      obtain ⟨i, j, h1, h2, h3, h4⟩ := done _ _ _ rfl (strCase p.toList s.toList)
      exact ⟨i, j, by rw [h1], by rw [h2], by rw [h3], h4⟩
  | _ => exact ⟨fun c h => (by simp [funcContains] at h), by simp [funcContains, funcIndex, funcIndexBy],
            by simp [funcContains, funcLastIndex, funcIndexBy]⟩

omit [DecidableEq E] in
/-- C30: `contains` on maps asks for a key -/
theorem contains_map [DecidableEq E] (m : List (String × Node E)) (k : String) :
    funcContains [.map m, .str k] = .ok (.bool (decide (k ∈ mkeys m))) := by
  simp only [funcContains]
  congr 2
  rcases h : mget m k with _ | v
  · have := mget_none_iff.1 h; simp [this]
  · have : k ∈ mkeys m := by
      by_contra hc
      rw [mget_none_iff.2 hc] at h; cases h
    simp [this]

end Spiff
