import Verif.Spec.Slice
/-
C59: lists as values; sharing of slices.
-/
namespace Spiff
variable {α : Type}

/-- the slice fits to the arrays -/
def Slice.OK (h : Arrays α) (s : Slice) : Prop := s.arr < h.length ∧ s.len ≤ s.cap ∧ s.cap ≤ (h.getD s.arr []).length

theorem length_overwrite (a : List α) (i : Nat) (xs : List α) (h : i + xs.length ≤ a.length) : (overwrite a i xs).length = a.length := by
  simp [overwrite]; omega

theorem take_overwrite (a : List α) (i : Nat) (xs : List α) (h : i + xs.length ≤ a.length) :
    (overwrite a i xs).take (i + xs.length) = a.take i ++ xs := by
  have : (a.take i ++ xs).length = i + xs.length := by simp; omega
  rw [overwrite, List.take_left' this]

theorem take_overwrite_le (a : List α) (i n : Nat) (xs : List α) (h : i + xs.length ≤ a.length) (hn : n ≤ i) :
    (overwrite a i xs).take n = a.take n := by
  rw [overwrite, List.append_assoc, List.take_append_of_le_length (by simp; omega), List.take_take]
  congr 1; omega

theorem getD_modify_self (h : Arrays α) (n : Nat) (f : List α → List α) (hn : n < h.length) : (h.modify n f).getD n [] = f (h.getD n []) := by
  simp [List.getD_eq_getElem?_getD, List.getElem?_modify, List.getElem?_eq_getElem hn]

theorem getD_modify_ne (h : Arrays α) (n m : Nat) (f : List α → List α) (hn : n ≠ m) : (h.modify n f).getD m [] = h.getD m [] := by
  simp [List.getD_eq_getElem?_getD, List.getElem?_modify, hn]

theorem getD_append_left {h k : Arrays α} {n : Nat} (hn : n < h.length) : (h ++ k).getD n [] = h.getD n [] := by
  simp [List.getD_eq_getElem?_getD, List.getElem?_append_left hn]

theorem getD_append_new (h : Arrays α) (a : List α) : (h ++ [a]).getD h.length [] = a := by simp

section
variable [Inhabited α] (grow : Nat → Nat → Nat)

/-- C59: the result of a concatenation consists of the elements of the first list followed by the new elements. -/
theorem append_reads {h : Arrays α} {s : Slice} (hs : s.OK h) (xs : List α) :
    (s.append grow h xs).2.read (s.append grow h xs).1 = s.read h ++ xs := by
  obtain ⟨h1, h2, h3⟩ := hs
  unfold Slice.append
  split
  · next hc =>
    simp only [Slice.read, getD_modify_self _ _ _ h1]
    exact take_overwrite _ _ _ (by omega)
  · simp only [Slice.read, getD_append_new]
    rw [List.take_left']
    rw [List.length_append, List.length_take]; omega

theorem append_ok {h : Arrays α} {s : Slice} (hs : s.OK h) (xs : List α) : (s.append grow h xs).2.OK (s.append grow h xs).1 := by
  obtain ⟨h1, h2, h3⟩ := hs
  unfold Slice.append
  split
  · next hc =>
    refine ⟨by simpa using h1, hc, ?_⟩
    simp only [getD_modify_self _ _ _ h1]
    rw [length_overwrite _ _ _ (by omega)]; exact h3
  · refine ⟨by simp, by simp only; omega, ?_⟩
    simp only [getD_append_new, Slice.read]
    rw [List.length_append, List.length_append, List.length_take, List.length_replicate]; omega

/-- the arrays stay as long as they are -/
theorem append_ok_other {h : Arrays α} {s t : Slice} (hs : s.OK h) (ht : t.OK h) (xs : List α) : t.OK (s.append grow h xs).1 := by
  obtain ⟨h1, h2, h3⟩ := hs
  obtain ⟨g1, g2, g3⟩ := ht
  unfold Slice.append
  split
  · next hc =>
    refine ⟨by simpa using g1, g2, ?_⟩
    by_cases he : s.arr = t.arr
    · rw [← he] at g3 ⊢
      simp only [getD_modify_self _ _ _ h1]
      rw [length_overwrite _ _ _ (by omega)]; exact g3
    · simp only [getD_modify_ne _ _ _ _ he]; exact g3
  · refine ⟨by simp; omega, g2, ?_⟩
    simp only [getD_append_left g1]; exact g3

/-- C59: a concatenation leaves all lists unchanged that do not share the array of the first operand beyond the end of
the first operand. -/
theorem append_preserves {h : Arrays α} {s t : Slice} (hs : s.OK h) (ht : t.OK h) (xs : List α)
    (hd : t.arr = s.arr → t.len ≤ s.len) : t.read (s.append grow h xs).1 = t.read h := by
  obtain ⟨h1, h2, h3⟩ := hs
  obtain ⟨g1, g2, g3⟩ := ht
  unfold Slice.append
  split
  · next hc =>
    by_cases he : s.arr = t.arr
    · simp only [Slice.read, ← he, getD_modify_self _ _ _ h1]
      exact take_overwrite_le _ _ _ _ (by omega) (hd he.symm)
    · simp only [Slice.read, getD_modify_ne _ _ _ _ he]
  · simp only [Slice.read, getD_append_left g1]

/-- C59: without spare capacity a concatenation leaves all lists unchanged. -/
theorem append_full_preserves {h : Arrays α} {s t : Slice} (ht : t.OK h) (xs : List α) (hf : s.cap < s.len + xs.length) :
    t.read (s.append grow h xs).1 = t.read h := by
  unfold Slice.append
  rw [if_neg (by omega)]
  simp only [Slice.read, getD_append_left ht.1]

/-- C59: the two operands of a concatenation are unchanged -/
theorem append_operand {h : Arrays α} {s : Slice} (hs : s.OK h) (xs : List α) : s.read (s.append grow h xs).1 = s.read h :=
  append_preserves grow hs hs xs (fun _ => Nat.le_refl _)

/-! ### histories -/

/-- The invariant: the lists have their values; `used` are the lists already extended; of the lists sharing an array, an unused one is
the longest, and there is only one of those. -/
structure Unshared (w : Lists α) (vs : List (List α)) (used : List Nat) : Prop where
  len : w.lists.length = vs.length
  ok : ∀ (k : Nat) (s : Slice), w.lists[k]? = some s → s.OK w.heap
  val : ∀ (k : Nat) (s : Slice), w.lists[k]? = some s → vs[k]? = some (s.read w.heap)
  tip : ∀ (k l : Nat) (s t : Slice), w.lists[k]? = some s → w.lists[l]? = some t → k ∉ used → t.arr = s.arr → t.len ≤ s.len
  one : ∀ (k l : Nat) (s t : Slice), w.lists[k]? = some s → w.lists[l]? = some t → k ∉ used → l ∉ used → t.arr = s.arr → k = l

theorem getElem?_snoc {β : Type} {l : List β} {x y : β} {k : Nat} (h : (l ++ [x])[k]? = some y) :
    (l[k]? = some y ∧ k < l.length) ∨ (k = l.length ∧ y = x) := by
  by_cases hk : k < l.length
  · rw [List.getElem?_append_left hk] at h; exact .inl ⟨h, hk⟩
  · by_cases hk' : k = l.length
    · subst hk'; simp at h; exact .inr ⟨rfl, h.symm⟩
    · rw [List.getElem?_eq_none (by simp; omega)] at h; cases h

theorem unshared_create {w : Lists α} {vs : List (List α)} {used : List Nat} (I : Unshared w vs used) (_hu : ∀ k ∈ used, k < w.lists.length)
    (xs : List α) (spare : Nat) : Unshared (w.step grow (.create xs spare)) (vs ++ [xs]) used := by
  have hok : ∀ s : Slice, s.OK w.heap → s.OK (w.heap ++ [xs ++ List.replicate spare default]) ∧
      s.read (w.heap ++ [xs ++ List.replicate spare default]) = s.read w.heap := by
    intro s hs
    exact ⟨⟨by simp; have := hs.1; omega, hs.2.1, by rw [getD_append_left hs.1]; exact hs.2.2⟩, by simp only [Slice.read, getD_append_left hs.1]⟩
  constructor
  · simp [Lists.step, I.len]
  · intro k s h
    rcases getElem?_snoc h with ⟨h, _⟩ | ⟨_, rfl⟩
    · exact (hok s (I.ok k s h)).1
    · refine ⟨by simp [Lists.step], by simp, ?_⟩
      simp [Lists.step]
  · intro k s h
    rcases getElem?_snoc h with ⟨h, hk⟩ | ⟨rfl, rfl⟩
    · have := I.len
      rw [List.getElem?_append_left (by omega), I.val k s h]
      show _ = some (s.read (w.heap ++ [xs ++ List.replicate spare default]))
      rw [(hok s (I.ok k s h)).2]
    · rw [I.len]; simp [Slice.read, Lists.step]
  · intro k l s t h h' hk he
    rcases getElem?_snoc h with ⟨h, _⟩ | ⟨_, rfl⟩ <;> rcases getElem?_snoc h' with ⟨h', _⟩ | ⟨_, rfl⟩
    · exact I.tip k l s t h h' hk he
    · have := (I.ok k s h).1; simp only at he; omega
    · have := (I.ok l t h').1; simp only at he; omega
    · exact Nat.le_refl _
  · intro k l s t h h' hk hl he
    rcases getElem?_snoc h with ⟨h, _⟩ | ⟨hk1, rfl⟩ <;> rcases getElem?_snoc h' with ⟨h', _⟩ | ⟨hl1, rfl⟩
    · exact I.one k l s t h h' hk hl he
    · have := (I.ok k s h).1; simp only at he; omega
    · have := (I.ok l t h').1; simp only at he; omega
    · omega

theorem append_same_or_new (h : Arrays α) (s : Slice) (xs : List α) :
    ((s.append grow h xs).2.arr = s.arr ∧ s.len ≤ (s.append grow h xs).2.len) ∨ (s.append grow h xs).2.arr = h.length := by
  unfold Slice.append
  split
  · exact .inl ⟨rfl, by simp⟩
  · exact .inr rfl

theorem unshared_append {w : Lists α} {vs : List (List α)} {used : List Nat} (I : Unshared w vs used) {i : Nat} {s : Slice} {v : List α}
    (hi : w.lists[i]? = some s) (hv : vs[i]? = some v) (hu : i ∉ used) (xs : List α) :
    Unshared { heap := (s.append grow w.heap xs).1, lists := w.lists ++ [(s.append grow w.heap xs).2] } (vs ++ [v ++ xs]) (i :: used) := by
  have hs := I.ok i s hi
  have hval : v = s.read w.heap := by
    have := I.val i s hi; rw [hv] at this; exact Option.some.inj this
  constructor
  · simp [I.len]
  · intro k t h
    rcases getElem?_snoc h with ⟨h, _⟩ | ⟨_, rfl⟩
    · exact append_ok_other grow hs (I.ok k t h) xs
    · exact append_ok grow hs xs
  · intro k t h
    rcases getElem?_snoc h with ⟨h, hk⟩ | ⟨rfl, rfl⟩
    · have := I.len
      rw [List.getElem?_append_left (by omega), I.val k t h]
      simp only
      rw [append_preserves grow hs (I.ok k t h) xs (fun he => I.tip i k s t hi h hu he)]
    · rw [I.len]; simp only [append_reads grow hs, List.getElem?_concat_length, hval]
  · intro k l t u h h' hk he
    simp only [List.mem_cons, not_or] at hk
    rcases getElem?_snoc h with ⟨h, _⟩ | ⟨_, rfl⟩ <;> rcases getElem?_snoc h' with ⟨h', _⟩ | ⟨_, rfl⟩
    · exact I.tip k l t u h h' hk.2 he
    · rcases append_same_or_new grow w.heap s xs with ⟨e1, _⟩ | e1
      · exact absurd (I.one k i t s h hi hk.2 hu (by rw [← he, e1])) hk.1
      · have := (I.ok k t h).1; omega
    · rcases append_same_or_new grow w.heap s xs with ⟨e1, e2⟩ | e1
      · exact Nat.le_trans (I.tip i l s u hi h' hu (by rw [he, e1])) e2
      · have := (I.ok l u h').1; omega
    · exact Nat.le_refl _
  · intro k l t u h h' hk hl he
    simp only [List.mem_cons, not_or] at hk hl
    rcases getElem?_snoc h with ⟨h, _⟩ | ⟨hk1, rfl⟩ <;> rcases getElem?_snoc h' with ⟨h', _⟩ | ⟨hl1, rfl⟩
    · exact I.one k l t u h h' hk.2 hl.2 he
    · rcases append_same_or_new grow w.heap s xs with ⟨e1, _⟩ | e1
      · exact absurd (I.one k i t s h hi hk.2 hu (by rw [← he, e1])) hk.1
      · have := (I.ok k t h).1; omega
    · rcases append_same_or_new grow w.heap s xs with ⟨e1, _⟩ | e1
      · exact absurd (I.one l i u s h' hi hl.2 hu (by rw [he, e1])) hl.1
      · have := (I.ok l u h').1; omega
    · omega

theorem unshared_weaken {w : Lists α} {vs : List (List α)} {used : List Nat} (I : Unshared w vs used) (i : Nat) : Unshared w vs (i :: used) :=
  ⟨I.len, I.ok, I.val, fun k l s t h h' hk => I.tip k l s t h h' (fun hm => hk (List.mem_cons_of_mem _ hm)),
    fun k l s t h h' hk hl => I.one k l s t h h' (fun hm => hk (List.mem_cons_of_mem _ hm)) (fun hm => hl (List.mem_cons_of_mem _ hm))⟩

theorem unshared_value_none {w : Lists α} {vs : List (List α)} {used : List Nat} (I : Unshared w vs used) {i : Nat} (h : w.lists[i]? = none) :
    vs[i]? = none := by
  have := I.len
  rw [List.getElem?_eq_none_iff] at h ⊢; omega

theorem unshared_run (ops : List (ListOp α)) : ∀ (w : Lists α) (vs : List (List α)) (used : List Nat), Unshared w vs used →
    (∀ k ∈ used, k < w.lists.length) → (∀ k ∈ used, k ∉ ops.filterMap ListOp.base) → (ops.filterMap ListOp.base).Nodup →
    ∃ used', Unshared (w.run grow ops) (valueRun vs ops) used' := by
  induction ops with
  | nil => intro w vs used I _ _ _; exact ⟨used, I⟩
  | cons op r ih =>
    intro w vs used I hb hd hn
    rw [Lists.run, valueRun, List.foldl_cons, List.foldl_cons]
    cases op with
    | create xs spare =>
      exact ih _ _ used (unshared_create grow I hb xs spare) (fun k hk => by have := hb k hk; simp [Lists.step]; omega) hd hn
    | concat i j =>
      simp only [List.filterMap_cons, ListOp.base, List.nodup_cons] at hd hn
      have hd' : ∀ k ∈ used, k ∉ r.filterMap ListOp.base := fun k hk hm => hd k hk (List.mem_cons_of_mem _ hm)
      cases hi : w.lists[i]? with
      | none =>
        simp only [Lists.step, valueStep, hi, unshared_value_none I hi]
        exact ih _ _ used I hb hd' hn.2
      | some s =>
        cases hj : w.lists[j]? with
        | none =>
          have e : valueStep vs (.concat i j) = vs := by
            simp only [valueStep, unshared_value_none I hj]; split <;> simp_all
          rw [e]
          simp only [Lists.step, hi, hj]
          exact ih _ _ used I hb hd' hn.2
        | some t =>
          simp only [Lists.step, valueStep, hi, hj, I.val i s hi, I.val j t hj]
          have hu : i ∉ used := fun hm => hd i hm (List.mem_cons_self ..)
          refine ih _ _ (i :: used) (unshared_append grow I hi (I.val i s hi) hu (t.read w.heap)) ?_ ?_ hn.2
          · intro k hk
            rcases List.mem_cons.1 hk with rfl | hk
            · have := (List.getElem?_eq_some_iff.1 hi).1; simp; omega
            · have := hb k hk; simp; omega
          · intro k hk
            rcases List.mem_cons.1 hk with rfl | hk
            · exact hn.1
            · exact hd' k hk
    | add i x =>
      simp only [List.filterMap_cons, ListOp.base, List.nodup_cons] at hd hn
      have hd' : ∀ k ∈ used, k ∉ r.filterMap ListOp.base := fun k hk hm => hd k hk (List.mem_cons_of_mem _ hm)
      cases hi : w.lists[i]? with
      | none =>
        simp only [Lists.step, valueStep, hi, unshared_value_none I hi]
        exact ih _ _ used I hb hd' hn.2
      | some s =>
        simp only [Lists.step, valueStep, hi, I.val i s hi]
        have hu : i ∉ used := fun hm => hd i hm (List.mem_cons_self ..)
        refine ih _ _ (i :: used) (unshared_append grow I hi (I.val i s hi) hu [x]) ?_ ?_ hn.2
        · intro k hk
          rcases List.mem_cons.1 hk with rfl | hk
          · have := (List.getElem?_eq_some_iff.1 hi).1; simp; omega
          · have := hb k hk; simp; omega
        · intro k hk
          rcases List.mem_cons.1 hk with rfl | hk
          · exact hn.1
          · exact hd' k hk

/-- C59: in every history in which no list is the first operand of more than one concatenation, all lists have
exactly the values given by the value semantics, whatever the capacities are. -/
theorem lists_are_values (ops : List (ListOp α)) (hn : (ops.filterMap ListOp.base).Nodup) (k : Nat) :
    (Lists.run grow {} ops).get k = (valueRun [] ops)[k]? := by
  obtain ⟨used, I⟩ := unshared_run grow ops {} [] [] ⟨rfl, by simp, by simp, by simp, by simp⟩ (by simp) (by simp) hn
  unfold Lists.get
  cases h : (Lists.run grow {} ops).lists[k]? with
  | none => rw [unshared_value_none I h]; rfl
  | some s => rw [I.val k s h]; rfl

end

/-! ### functions working in place -/

/-- C59: `sort` and `reverse` deliver the rearranged elements -/
theorem inPlace_reads {h : Arrays α} {s : Slice} (hs : s.OK h) (f : List α → List α) (hf : ∀ l, (f l).length = l.length) :
    s.read (s.inPlace f h) = f (s.read h) := by
  obtain ⟨h1, h2, h3⟩ := hs
  simp only [Slice.read, Slice.inPlace, getD_modify_self _ _ _ h1]
  rw [List.take_left']
  rw [hf, List.length_take]; omega

/-- C59: … and leave the lists in other arrays alone. -/
theorem inPlace_other {h : Arrays α} {s t : Slice} (f : List α → List α) (hd : t.arr ≠ s.arr) : t.read (s.inPlace f h) = t.read h := by
  simp only [Slice.read, Slice.inPlace, getD_modify_ne _ _ _ _ (Ne.symm hd)]

/-- C59 (defect): every list sharing the elements, in particular the argument, is rearranged, too. -/
theorem inPlace_changes_argument_defect {h : Arrays α} {s t : Slice} (hs : s.OK h) (f : List α → List α) (hf : ∀ l, (f l).length = l.length)
    (ha : t.arr = s.arr) (hl : t.len = s.len) : t.read (s.inPlace f h) = f (t.read h) := by
  have : t.read (s.inPlace f h) = s.read (s.inPlace f h) := by simp only [Slice.read, ha, hl]
  rw [this, inPlace_reads hs f hf]
  simp only [Slice.read, ha, hl]

/-! ### the capacities of lists of documents -/

section
variable [Inhabited α] (grow : Nat → Nat → Nat)

theorem build_fold (xs : List α) : ∀ (h : Arrays α) (s : Slice), s.OK h →
    (xs.foldl (fun r x => r.2.append grow r.1 [x]) (h, s)).2.OK (xs.foldl (fun r x => r.2.append grow r.1 [x]) (h, s)).1 ∧
    (xs.foldl (fun r x => r.2.append grow r.1 [x]) (h, s)).2.read (xs.foldl (fun r x => r.2.append grow r.1 [x]) (h, s)).1 = s.read h ++ xs := by
  induction xs with
  | nil => intro h s hs; exact ⟨hs, by simp⟩
  | cons x r ih =>
    intro h s hs
    rw [List.foldl_cons]
    obtain ⟨h1, h2⟩ := ih (s.append grow h [x]).1 (s.append grow h [x]).2 (append_ok grow hs [x])
    refine ⟨h1, ?_⟩
    rw [h2, append_reads grow hs]; simp

/-- C59: a list built element by element consists of these elements. -/
theorem build_reads (h : Arrays α) (xs : List α) : (buildSlice grow h xs).2.OK (buildSlice grow h xs).1 ∧
    (buildSlice grow h xs).2.read (buildSlice grow h xs).1 = xs := by
  have := build_fold grow xs (h ++ [[]]) ⟨h.length, 0, 0⟩ ⟨by simp, by simp, by simp⟩
  refine ⟨this.1, ?_⟩
  have h2 := this.2
  simp only [buildSlice, emptySlice]
  rw [h2]; simp [Slice.read]
end

/-- The list `l: [10,20,30]` of a document, and the results of `(( l [1] ))` and `(( l [2] ))`, evaluated in this order (the
second operands are the lists `[1]` and `[2]`). -/
def exDoc : Arrays Nat × Slice := buildSlice goGrow [] [10, 20, 30]
def exOne : Arrays Nat × Slice := exDoc.2.append goGrow exDoc.1 [1]
def exTwo : Arrays Nat × Slice := exDoc.2.append goGrow exOne.1 [2]

/-- C59 (defect): a list of three entries has the capacity 4, so both concatenations write the same array element: after the
evaluation of the second one, both results are `[10,20,30,2]`. -/
theorem concat_shared_defect :
    exOne.2.read exOne.1 = [10, 20, 30, 1] ∧ exTwo.2.read exTwo.1 = [10, 20, 30, 2] ∧ exOne.2.read exTwo.1 = [10, 20, 30, 2] := by
  decide +kernel

/-- C59 (defect): … also as a history: the value semantics is violated if a list is extended twice. -/
theorem lists_not_values_defect :
    (Lists.run goGrow {} [.create [10, 20, 30] 1, .add 0 1, .add 0 2]).get 1 = some [10, 20, 30, 2] ∧
    (valueRun [] [ListOp.create [10, 20, 30] 1, .add 0 1, .add 0 2])[1]? = some [10, 20, 30, 1] := by
  decide +kernel

/-- the hypothesis of `lists_are_values` is met by a history with shared arrays -/
example : (([.create [10, 20, 30] 5, .add 0 1, .add 1 2, .concat 2 0] : List (ListOp Nat)).filterMap ListOp.base).Nodup := by decide
example : (Lists.run goGrow {} [.create [10, 20, 30] 5, .add 0 1, .add 1 2, .concat 2 0]).get 3 = some [10, 20, 30, 1, 2, 10, 20, 30] := by
  decide +kernel
example : exDoc.2.OK exDoc.1 := (build_reads goGrow [] [10, 20, 30]).1
example : exDoc.2.cap = 4 := by decide +kernel
/-- `sort(l)` for a shared list -/
example : exDoc.2.read (exDoc.2.inPlace List.reverse exDoc.1) = [30, 20, 10] := by decide +kernel

end Spiff
