import Verif.Model.ListFns
import Mathlib.Tactic.Ring
import Mathlib.Data.List.Perm.Basic
/-
C31 (sort), C32 (reverse), C34 (slices), C35 (ranges).
-/
namespace Spiff
variable {E : Type}

/-! ### sort -/

theorem insertBy_perm (less : Node E → Node E → Bool) (a : Node E) (l : List (Node E)) :
    (insertBy less a l).Perm (a :: l) := by
  induction l with
  | nil => exact List.Perm.refl _
  | cons b r ih =>
    unfold insertBy
    split
    · exact (List.Perm.cons b ih).trans (List.Perm.swap a b r)
    · exact List.Perm.refl _

theorem sortBy_perm (less : Node E → Node E → Bool) (l : List (Node E)) : (sortBy less l).Perm l := by
  induction l with
  | nil => exact List.Perm.refl _
  | cons a r ih => exact (insertBy_perm less a _).trans (List.Perm.cons a ih)

/-- `less` is a strict weak order on the elements of `l` -/
structure WeakOrder (less : Node E → Node E → Bool) (l : List (Node E)) : Prop where
  asymm : ∀ a ∈ l, ∀ b ∈ l, less a b = true → less b a = false
  trans : ∀ a ∈ l, ∀ b ∈ l, ∀ c ∈ l, less b a = false → less c b = false → less c a = false

theorem insertBy_sorted (less : Node E → Node E → Bool) (a : Node E) (l : List (Node E))
    (h : WeakOrder less (a :: l)) (hl : l.Pairwise (fun x y => less y x = false)) :
    (insertBy less a l).Pairwise (fun x y => less y x = false) := by
  induction l with
  | nil => simp [insertBy]
  | cons b r ih =>
    have hb := List.pairwise_cons.1 hl
    unfold insertBy
    split
    · next hlt =>
      rw [List.pairwise_cons]
      refine ⟨?_, ih ⟨fun x hx y hy => h.asymm x (by simp_all; tauto) y (by simp_all; tauto),
        fun x hx y hy z hz => h.trans x (by simp_all; tauto) y (by simp_all; tauto) z (by simp_all; tauto)⟩ hb.2⟩
      intro y hy
      rcases List.mem_cons.1 ((insertBy_perm less a r).subset hy) with rfl | hy
      · exact h.asymm b (by simp) y (by simp) hlt
      · exact hb.1 y hy
    · next hlt =>
      have hlt : less b a = false := by simpa using hlt
      rw [List.pairwise_cons]
      refine ⟨?_, hl⟩
      intro y hy
      rcases List.mem_cons.1 hy with rfl | hy
      · exact hlt
      · exact h.trans a (by simp) b (by simp) y (by simp [hy]) hlt (hb.1 y hy)

theorem WeakOrder.of_subset {less : Node E → Node E → Bool} {l l' : List (Node E)} (h : WeakOrder less l) (hs : l' ⊆ l) :
    WeakOrder less l' :=
  ⟨fun a ha b hb => h.asymm a (hs ha) b (hs hb), fun a ha b hb c hc => h.trans a (hs ha) b (hs hb) c (hs hc)⟩

theorem sortBy_sorted (less : Node E → Node E → Bool) (l : List (Node E)) (h : WeakOrder less l) :
    (sortBy less l).Pairwise (fun x y => less y x = false) := by
  induction l with
  | nil => simp [sortBy]
  | cons a r ih =>
    refine insertBy_sorted less a _ (h.of_subset ?_) (ih (h.of_subset (by simp)))
    intro x hx
    rcases List.mem_cons.1 hx with rfl | hx
    · simp
    · exact List.mem_cons_of_mem _ ((sortBy_perm less r).subset hx)

/-- sorting keeps the relative order of elements that are not ordered by `less`: the subsequence of elements equivalent to a given
one is unchanged -/
theorem insertBy_filter (less : Node E → Node E → Bool) (p : Node E → Bool) (a : Node E) (l : List (Node E))
    (h : ∀ b ∈ l, p a = true → p b = true → less b a = false) :
    (insertBy less a l).filter p = (a :: l).filter p := by
  induction l with
  | nil => rfl
  | cons b r ih =>
    unfold insertBy
    split
    · next hlt =>
      have hh := ih (fun x hx => h x (by simp [hx]))
      simp only [List.filter_cons] at hh ⊢
      rw [hh]
      by_cases pa : p a = true <;> by_cases pb : p b = true <;> simp [pa, pb]
      have := h b (by simp) pa pb
      rw [hlt] at this; cases this
    · rfl

theorem sortBy_stable (less : Node E → Node E → Bool) (p : Node E → Bool) (l : List (Node E))
    (h : ∀ a ∈ l, ∀ b ∈ l, p a = true → p b = true → less b a = false) :
    (sortBy less l).filter p = l.filter p := by
  induction l with
  | nil => rfl
  | cons a r ih =>
    rw [sortBy, insertBy_filter less p a]
    · simp only [List.filter_cons]
      rw [ih (fun x hx y hy => h x (by simp [hx]) y (by simp [hy]))]
    · intro b hb
      exact h a (by simp) b (by simp [(sortBy_perm less r).subset hb])

theorem str_weak (l : List (Node E)) (h : ∀ n ∈ l, isStrN n = true) : WeakOrder valueLess l := by
  have key : ∀ n ∈ l, ∃ s, n.val = .str s := by
    intro n hn
    have := h n hn
    unfold isStrN at this
    split at this <;> simp_all
  constructor
  · intro a ha b hb hl
    obtain ⟨x, hx⟩ := key a ha
    obtain ⟨y, hy⟩ := key b hb
    simp only [valueLess, hx, hy, decide_eq_true_eq, decide_eq_false_iff_not] at hl ⊢
    exact String.lt_asymm hl
  · intro a ha b hb c hc h1 h2
    obtain ⟨x, hx⟩ := key a ha
    obtain ⟨y, hy⟩ := key b hb
    obtain ⟨z, hz⟩ := key c hc
    simp only [valueLess, hx, hy, hz, decide_eq_false_iff_not, String.not_lt] at h1 h2 ⊢
    exact String.le_trans h1 h2

theorem int_weak (l : List (Node E)) (h : ∀ n ∈ l, isIntN n = true) : WeakOrder valueLess l := by
  have key : ∀ n ∈ l, ∃ i, n.val = .int i := by
    intro n hn
    have := h n hn
    unfold isIntN at this
    split at this <;> simp_all
  constructor
  · intro a ha b hb hl
    obtain ⟨x, hx⟩ := key a ha
    obtain ⟨y, hy⟩ := key b hb
    simp only [valueLess, hx, hy, decide_eq_true_eq, decide_eq_false_iff_not] at hl ⊢
    omega
  · intro a ha b hb c hc h1 h2
    obtain ⟨x, hx⟩ := key a ha
    obtain ⟨y, hy⟩ := key b hb
    obtain ⟨z, hz⟩ := key c hc
    simp only [valueLess, hx, hy, hz, decide_eq_false_iff_not] at h1 h2 ⊢
    omega

/-- the list consists of strings only -/
def Strings (l : List (Node E)) : Prop := ∀ n ∈ l, ∃ s, n.val = .str s
/-- the list consists of integers only -/
def Ints (l : List (Node E)) : Prop := ∀ n ∈ l, ∃ i, n.val = .int i

theorem all_str (l : List (Node E)) : l.all isStrN = true ↔ Strings l := by
  rw [List.all_eq_true]
  refine forall₂_congr fun n _ => ?_
  unfold isStrN
  split <;> simp_all
theorem all_int (l : List (Node E)) : l.all isIntN = true ↔ Ints l := by
  rw [List.all_eq_true]
  refine forall₂_congr fun n _ => ?_
  unfold isIntN
  split <;> simp_all

/-- C31: a list of strings or a list of integers is sorted to an ascending permutation of it, in which entries with equal
values keep their order; a list of at least two elements of other or different types is rejected. -/
theorem sort_spec (l : List (Node E)) :
    ((Strings l ∨ Ints l) → ∃ r, funcSort [.list l] = .ok (.list r) ∧ r.Perm l ∧
      r.Pairwise (fun x y => ∀ s t, x.val = .str s → y.val = .str t → s ≤ t) ∧
      r.Pairwise (fun x y => ∀ i j, x.val = .int i → y.val = .int j → i ≤ j) ∧
      (∀ p : Node E → Bool, (∀ x y, p x = true → p y = true → x.val = y.val) → r.filter p = l.filter p)) ∧
    (2 ≤ l.length → ¬ Strings l → ¬ Ints l → funcSort [.list l] = .err) := by
  constructor
  · intro h
    have hw : WeakOrder valueLess l := by
      rcases h with h | h
      · exact str_weak l (List.all_eq_true.1 ((all_str l).2 h))
      · exact int_weak l (List.all_eq_true.1 ((all_int l).2 h))
    have hs : sortable l = true := by
      simp only [sortable, Bool.or_eq_true, all_str, all_int]
      tauto
    refine ⟨sortBy valueLess l, by simp [funcSort, hs], sortBy_perm _ _, ?_, ?_, ?_⟩
    · refine (sortBy_sorted valueLess l hw).imp ?_
      intro x y hxy s t hx hy
      simpa [valueLess, hx, hy] using hxy
    · refine (sortBy_sorted valueLess l hw).imp ?_
      intro x y hxy s t hx hy
      simpa [valueLess, hx, hy] using hxy
    · intro p hp
      refine sortBy_stable valueLess p l ?_
      intro a _ b _ pa pb
      have he := hp a b pa pb
      unfold valueLess
      rw [he]
      split <;> simp_all
  · intro h2 h3 h4
    have hs : sortable l = false := by
      rw [← all_str] at h3
      rw [← all_int] at h4
      simp only [sortable, Bool.or_eq_false_iff, decide_eq_false_iff_not]
      exact ⟨⟨by omega, by simpa using h3⟩, by simpa using h4⟩
    simp [funcSort, hs]

/-- C31: with a comparison function that is a strict weak order on the elements, the result is an ordered permutation and
entries that are not ordered keep their order. -/
theorem sort_by_spec (less : Node E → Node E → Bool) (l : List (Node E)) (h : WeakOrder less l) :
    (sortBy less l).Perm l ∧ (sortBy less l).Pairwise (fun x y => less y x = false) ∧
    ∀ p : Node E → Bool, (∀ x y, p x = true → p y = true → less x y = false) → (sortBy less l).filter p = l.filter p :=
  ⟨sortBy_perm _ _, sortBy_sorted _ _ h, fun p hp => sortBy_stable less p l (fun a _ b _ pa pb => hp b a pb pa)⟩

/-- Sorting is idempotent. -/
theorem sortBy_of_sorted (less : Node E → Node E → Bool) (l : List (Node E)) (h : l.Pairwise (fun x y => less y x = false)) :
    sortBy less l = l := by
  induction l with
  | nil => rfl
  | cons a r ih =>
    have := List.pairwise_cons.1 h
    rw [sortBy, ih this.2]
    cases r with
    | nil => rfl
    | cons b r => simp [insertBy, this.1 b (by simp)]

theorem sort_idem (l r : List (Node E)) (h : funcSort [.list l] = .ok (.list r)) : funcSort [.list r] = .ok (.list r) := by
  simp only [funcSort] at h
  split at h
  · next hs =>
    simp only [Out.ok.injEq, Val.list.injEq] at h
    subst h
    have hp := sortBy_perm valueLess l
    have hs' : sortable (sortBy valueLess l) = true := by
      simp only [sortable, Bool.or_eq_true, decide_eq_true_eq, all_str, all_int, hp.length_eq] at hs ⊢
      rcases hs with (h | h) | h
      · exact .inl (.inl h)
      · exact .inl (.inr (fun n hn => h n (hp.subset hn)))
      · exact .inr (fun n hn => h n (hp.subset hn))
    simp only [funcSort, hs', if_true]
    rw [sortBy_of_sorted]
    simp only [sortable, Bool.or_eq_true, decide_eq_true_eq] at hs
    rcases hs with (h | h) | h
    · rcases l with _ | ⟨a, _ | ⟨b, l⟩⟩
      · simp [sortBy]
      · simp [sortBy, insertBy]
      · simp at h
    · exact sortBy_sorted valueLess l (str_weak l (List.all_eq_true.1 h))
    · exact sortBy_sorted valueLess l (int_weak l (List.all_eq_true.1 h))
  · cases h

example : Ints ([Node.new (.int 3) "", .new (.int 1) "", .new (.int 2) ""] : List (Node Unit)) ∧
    funcSort [.list ([Node.new (.int 3) "", .new (.int 1) "", .new (.int 2) ""] : List (Node Unit))] =
      .ok (.list [Node.new (.int 1) "", .new (.int 2) "", .new (.int 3) ""]) := by
  refine ⟨?_, by rfl⟩
  intro n hn
  simp only [List.mem_cons, List.not_mem_nil, or_false] at hn
  rcases hn with rfl | rfl | rfl <;> exact ⟨_, rfl⟩

/-! ### reverse -/

/-- the list after the first `i` swaps: the outer `i` elements on both sides are exchanged -/
theorem swapLoop_spec (l : List (Node E)) (n : Nat) (hn : l.length = n + 1) : ∀ (fuel i : Nat) (c : List (Node E)),
    c.length = n + 1 → (n + 1) / 2 ≤ fuel + i →
    (∀ j, j ≤ n → c[j]? = if j < i ∨ n - j < i then l[n - j]? else l[j]?) → i ≤ (n + 1) / 2 →
    swapLoop i n fuel c = l.reverse := by
  intro fuel
  induction fuel with
  | zero =>
    intro i c hc hf h hi
    have hi2 : i = (n + 1) / 2 := by omega
    unfold swapLoop
    apply List.ext_getElem?
    intro j
    by_cases hj : j ≤ n
    · rw [h j hj, List.getElem?_reverse (by omega), hn]
      split
      · congr 1
      · congr 1; omega
    · rw [List.getElem?_eq_none (by omega), List.getElem?_eq_none (by simp; omega)]
  | succ fuel ih =>
    intro i c hc hf h hi
    unfold swapLoop
    split
    · next hlt =>
      have hi1 : i < c.length := by omega
      have hi2 : n - i < c.length := by omega
      have e1 : c[i]? = some c[i] := List.getElem?_eq_getElem hi1
      have e2 : c[n - i]? = some c[n - i] := List.getElem?_eq_getElem hi2
      have f1 : l[i]? = some c[i] := by
        rw [← e1, h i (by omega), if_neg (by omega)]
      have f2 : l[n - i]? = some c[n - i] := by
        rw [← e2, h (n - i) (by omega), if_neg (by omega)]
      simp only [e1, e2]
      apply ih (i + 1) _ (by simp [hc]) (by omega)
      · intro j hj
        rw [List.getElem?_set, List.getElem?_set]
        simp only [List.length_set]
        by_cases hj1 : n - i = j
        · subst hj1
          rw [if_pos rfl, if_pos hi2, if_pos (by omega), show n - (n - i) = i by omega, f1]
        · rw [if_neg hj1]
          by_cases hj2 : i = j
          · subst hj2
            rw [if_pos rfl, if_pos hi1, if_pos (by omega), f2]
          · rw [if_neg hj2, h j hj]
            have : (j < i ∨ n - j < i) ↔ (j < i + 1 ∨ n - j < i + 1) := by omega
            simp only [this]
      · omega
    · next hlt =>
      have hi2 : i = (n + 1) / 2 := by omega
      apply List.ext_getElem?
      intro j
      by_cases hj : j ≤ n
      · rw [h j hj, List.getElem?_reverse (by omega), hn]
        split
        · congr 1
        · congr 1; omega
      · rw [List.getElem?_eq_none (by omega), List.getElem?_eq_none (by simp; omega)]

/-- C32: `reverse` yields the entries in opposite order. -/
theorem reverse_spec (l : List (Node E)) : funcReverse [.list l] = .ok (.list l.reverse) := by
  unfold funcReverse
  rcases l with _ | ⟨a, l⟩
  · rfl
  · simp only [List.isEmpty_cons, Bool.false_eq_true, if_false, Out.ok.injEq, Val.list.injEq]
    apply swapLoop_spec (a :: l) ((a :: l).length - 1) (by simp) _ 0 _ (by simp) (by simp; omega) _ (by omega)
    intro j hj
    simp

/-- C32: reversing twice restores the list. -/
theorem reverse_involutive (l r : List (Node E)) (h : funcReverse [.list l] = .ok (.list r)) :
    funcReverse [.list r] = .ok (.list l) := by
  rw [reverse_spec] at h
  simp only [Out.ok.injEq, Val.list.injEq] at h
  rw [reverse_spec, ← h, List.reverse_reverse]

/-! ### slices -/

theorem copyRange_eq (l : List (Node E)) (n : Nat) : ∀ s : Nat, s + n ≤ l.length →
    copyRange l (s : Int) n = some ((l.drop s).take n) := by
  induction n with
  | zero => intro s _; simp [copyRange]
  | succ n ih =>
    intro s h
    unfold copyRange
    rw [if_neg (by omega)]
    have e : l[(s : Int).toNat]? = some l[s] := by
      rw [Int.toNat_natCast]; exact List.getElem?_eq_getElem (by omega)
    simp only [e]
    have := ih (s + 1) (by omega)
    rw [show ((s : Int) + 1) = ((s + 1 : Nat) : Int) by simp, this]
    simp only [Option.map_some, Option.some.injEq]
    rw [List.drop_eq_getElem_cons (by omega : s < l.length), List.take_succ_cons]

/-- the entries from position `s` to position `e` (inclusively) -/
def fromTo (l : List (Node E)) (s e : Nat) : List (Node E) := (l.drop s).take (e + 1 - s)

theorem fromTo_get (l : List (Node E)) (s e : Nat) (i : Nat) : (fromTo l s e)[i]? = if s + i ≤ e then l[s + i]? else none := by
  unfold fromTo
  rw [List.getElem?_take, List.getElem?_drop]
  by_cases h : s + i ≤ e
  · rw [if_pos h, if_pos (by omega)]
  · rw [if_neg h, if_neg (by omega)]

/-- C34: A slice expression never crashes. It yields exactly the entries from position `s` to position `e` counted from the start
if both are non-negative, counted from the end if both are negative; the empty list if `s > e`; a missing start (end)
is the first (last) position; all other cases (a position outside of the list, one negative bound only) are errors. -/
theorem slice_spec (l : List (Node E)) (s e : Int) :
    sliceVals (.list l) (some s) (some e) =
      if s > e then .ok (.list [])
      else if 0 ≤ s ∧ e < l.length then .ok (.list (fromTo l s.toNat e.toNat))
      else if e < 0 ∧ -l.length ≤ s then .ok (.list (fromTo l (l.length + s).toNat (l.length + e).toNat))
      else .err := by
  unfold sliceVals
  simp only [sliceRange]
  split
  · rfl
  · next hse =>
    split
    · next hs =>
      rw [if_neg (by omega : ¬ (0 ≤ s ∧ e < l.length))]
      by_cases he : e ≥ 0
      · rw [if_pos he, if_neg (by omega)]
      · rw [if_neg he]
        by_cases hl : s < -l.length
        · rw [if_pos hl, if_neg (by omega)]
        · rw [if_neg hl, if_pos (by omega)]
          obtain ⟨a, ha⟩ : ∃ a : Nat, s + l.length = a := ⟨(s + l.length).toNat, by omega⟩
          rw [ha, copyRange_eq l _ a (by omega)]
          simp only [fromTo]
          congr 4 <;> omega
    · next hs =>
      split
      · rw [if_neg (by omega), if_neg (by omega)]
      · rw [if_pos (by omega)]
        obtain ⟨a, ha⟩ : ∃ a : Nat, s = a := ⟨s.toNat, by omega⟩
        subst ha
        rw [copyRange_eq l _ a (by omega)]
        simp only [fromTo]
        congr 4 <;> omega

theorem slice_from (l : List (Node E)) (s : Int) :
    sliceVals (.list l) (some s) none = sliceVals (.list l) (some s) (some (if s < 0 then -1 else l.length - 1)) := by
  simp [sliceVals, sliceRange]
theorem slice_to (l : List (Node E)) (e : Int) :
    sliceVals (.list l) none (some e) = sliceVals (.list l) (some (if e < 0 then -l.length else 0)) (some e) := by
  simp [sliceVals, sliceRange]

theorem slice_no_panic (v : Val E) (s e : Option Int) : sliceVals v s e ≠ .panic := by
  cases v with
  | list l =>
    rcases s with _ | s <;> rcases e with _ | e
    · simp [sliceVals, sliceRange]
    all_goals
      first | rw [slice_from] | rw [slice_to] | skip
      rw [slice_spec]
      repeat' split
      all_goals simp
  | _ => simp [sliceVals]

/-! ### ranges -/

/-- the integers from `a` (inclusively) with step 1 or -1 -/
def steps (delta : Int) : Nat → Int → List Int
  | 0, _ => []
  | n + 1, a => a :: steps delta n (a + delta)

theorem wrap64_id (a : Int) (h1 : -2^63 ≤ a) (h2 : a < 2^63) : wrap64 a = a := by
  unfold wrap64
  omega

theorem rangeLoop_up (stop : Int) (h1 : stop < 2^63 - 1) (h0 : -2^63 ≤ stop) : ∀ (k fuel : Nat) (i : Int),
    -2^63 ≤ i → i + k = stop + 1 → k < fuel → rangeLoop stop 1 fuel i = some (steps 1 k i) := by
  intro k
  induction k with
  | zero =>
    intro fuel i hi hk hf
    obtain ⟨f, rfl⟩ : ∃ f, fuel = f + 1 := ⟨fuel - 1, by omega⟩
    unfold rangeLoop
    rw [wrap64_id (i * 1) (by omega) (by omega), wrap64_id (stop * 1) (by omega) (by omega), if_neg (by omega)]
    rfl
  | succ k ih =>
    intro fuel i hi hk hf
    obtain ⟨f, rfl⟩ : ∃ f, fuel = f + 1 := ⟨fuel - 1, by omega⟩
    unfold rangeLoop
    rw [wrap64_id (i * 1) (by omega) (by omega), wrap64_id (stop * 1) (by omega) (by omega), if_pos (by omega),
      wrap64_id (i + 1) (by omega) (by omega), ih f (i + 1) (by omega) (by omega) (by omega)]
    rfl

theorem rangeLoop_down (stop : Int) (h0 : -2^63 + 1 < stop) : ∀ (k fuel : Nat) (i : Int),
    i < 2^63 → i - k = stop - 1 → k < fuel → rangeLoop stop (-1) fuel i = some (steps (-1) k i) := by
  intro k
  induction k with
  | zero =>
    intro fuel i hi hk hf
    obtain ⟨f, rfl⟩ : ∃ f, fuel = f + 1 := ⟨fuel - 1, by omega⟩
    unfold rangeLoop
    rw [wrap64_id (i * -1) (by omega) (by omega), wrap64_id (stop * -1) (by omega) (by omega), if_neg (by omega)]
    rfl
  | succ k ih =>
    intro fuel i hi hk hf
    obtain ⟨f, rfl⟩ : ∃ f, fuel = f + 1 := ⟨fuel - 1, by omega⟩
    unfold rangeLoop
    rw [wrap64_id (i * -1) (by omega) (by omega), wrap64_id (stop * -1) (by omega) (by omega), if_pos (by omega),
      wrap64_id (i + -1) (by omega) (by omega), ih f (i + -1) (by omega) (by omega) (by omega)]
    rfl

theorem steps_get (delta : Int) (n : Nat) (a : Int) (i : Nat) : (steps delta n a)[i]? = if i < n then some (a + delta * i) else none := by
  induction n generalizing a i with
  | zero => simp [steps]
  | succ n ih =>
    cases i with
    | zero => simp [steps]
    | succ i =>
      rw [steps, List.getElem?_cons_succ, ih]
      by_cases h : i < n
      · rw [if_pos h, if_pos (by omega)]; congr 1; push_cast; ring
      · rw [if_neg h, if_neg (by omega)]

/-- `r` lists the integers from `a` to `b` in steps of one: it has `|b-a|+1` entries, the `i`-th being `a+i` or `a-i`. -/
def FromTo (a b : Int) (r : List Int) : Prop :=
  if a ≤ b then (r.length : Int) = b - a + 1 ∧ ∀ (i : Nat) x, r[i]? = some x → x = a + i
  else (r.length : Int) = a - b + 1 ∧ ∀ (i : Nat) x, r[i]? = some x → x = a - i

theorem steps_length (delta : Int) (n : Nat) (a : Int) : (steps delta n a).length = n := by
  induction n generalizing a with
  | zero => rfl
  | succ n ih => simp [steps, ih]

/-- C35: `[a..b]` terminates and lists the integers from `a` to `b`, except for the extreme end values. -/
theorem range_spec (a b : Int) (ha : InInt64 a) (hb : InInt64 b) (h1 : a ≤ b → b ≠ 2^63 - 1)
    (h2 : a > b → b ≠ -2^63 ∧ b ≠ -2^63 + 1) :
    ∃ n r, (∀ fuel, n ≤ fuel → rangeVals fuel a b = some r) ∧ FromTo a b r := by
  obtain ⟨ha1, ha2⟩ := ha
  obtain ⟨hb1, hb2⟩ := hb
  by_cases hab : a ≤ b
  · have := h1 hab
    refine ⟨(b - a + 1).toNat + 1, steps 1 (b - a + 1).toNat a, ?_, ?_⟩
    · intro fuel hf
      rw [rangeVals, if_neg (by omega)]
      exact rangeLoop_up b (by omega) (by omega) _ _ _ (by omega) (by omega) (by omega)
    · rw [FromTo, if_pos hab, steps_length]
      refine ⟨by omega, ?_⟩
      intro i x hx
      rw [steps_get] at hx
      split at hx <;> simp_all
  · have := h2 (by omega)
    refine ⟨(a - b + 1).toNat + 1, steps (-1) (a - b + 1).toNat a, ?_, ?_⟩
    · intro fuel hf
      rw [rangeVals, if_pos (by omega)]
      exact rangeLoop_down b (by omega) _ _ _ (by omega) (by omega) (by omega)
    · rw [FromTo, if_neg hab, steps_length]
      refine ⟨by omega, ?_⟩
      intro i x hx
      rw [steps_get] at hx
      split at hx
      · simp only [Option.some.injEq] at hx; omega
      · cases hx

/-- The stated exception: counting up to the largest or down to the second smallest integer never ends. -/
theorem range_diverges (a : Int) (fuel : Nat) :
    (a ≤ 2^63 - 1 → rangeVals fuel a (2^63 - 1) = none) ∧ (a > -2^63 + 1 → rangeVals fuel a (-2^63 + 1) = none) := by
  have key : ∀ (stop delta : Int), wrap64 (stop * delta) = 2^63 - 1 → ∀ fuel i, rangeLoop stop delta fuel i = none := by
    intro stop delta h fuel
    induction fuel with
    | zero => intro i; rfl
    | succ f ih =>
      intro i
      unfold rangeLoop
      have := (wrap64_in (i * delta)).2
      rw [h, if_pos (by omega), ih]
      rfl
  constructor
  · intro h
    rw [rangeVals, if_neg (by omega)]
    exact key _ _ (by decide +kernel) _ _
  · intro h
    rw [rangeVals, if_pos (by omega)]
    exact key _ _ (by decide +kernel) _ _

/-- The stated exception: counting down to the smallest integer yields the empty list. -/
theorem range_min_empty (a : Int) (h : a > -2^63) (ha : a < 2^63) (fuel : Nat) : rangeVals (fuel + 1) a (-2^63) = some [] := by
  rw [rangeVals, if_pos (by omega)]
  unfold rangeLoop
  rw [wrap64_id (a * -1) (by omega) (by omega), show wrap64 (-2^63 * -1) = -2^63 by decide +kernel, if_neg (by omega)]

example : rangeVals 10 3 1 = some [3, 2, 1] ∧ rangeVals 10 (-1) 1 = some [-1, 0, 1] := by
  constructor <;> decide +kernel

end Spiff
