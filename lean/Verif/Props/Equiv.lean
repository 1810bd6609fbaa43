import Verif.Model.Equiv
import Verif.Lemmas.Agree
import Verif.Lemmas.NodeSimp
import Verif.Lemmas.Plain
/-
C16: equivalence of nodes; `reflect.DeepEqual` on nodes (used by C07).
-/
namespace Spiff
open Spec
variable {E : Type}

theorem child_scalar {H : Node E → Node E → Prop} {v v' : Val E} (h : ∀ i, child v i = none) (h' : ∀ i, child v' i = none) :
    ∀ i, Both H (child v i) (child v' i) := by
  intro i; rw [h, h']; trivial

theorem both_list_iff {H : Node E → Node E → Prop} {l l' : List (Node E)} :
    (∀ i, Both H (child (.list l) i) (child (.list l') i)) ↔ l.length = l'.length ∧ ∀ x ∈ l.zip l', H x.1 x.2 := by
  rw [← Both_list]
  constructor
  · intro h i; exact h (.idx i)
  · intro h i
    cases i with
    | idx i => exact h i
    | _ => trivial

theorem both_map_iff {H : Node E → Node E → Prop} {m m' : List (String × Node E)} (hm : MapOK m) (hm' : MapOK m') :
    (∀ i, Both H (child (.map m) i) (child (.map m') i)) ↔
      m.length = m'.length ∧ ∀ e ∈ m, ∃ b, mget m' e.1 = some b ∧ H e.2 b := by
  rw [← Both_map hm hm']
  constructor
  · intro h i; exact h (.key i)
  · intro h i
    cases i with
    | key i => exact h i
    | _ => trivial

/-- The generic argument for both comparisons: `f` decides `AgreeBy H`, if it compares the
local contents `h`, the entries of lists and maps, and template bodies. -/
theorem agree_decides [DecidableEq E] (H : Node E → Node E → Prop) (h : Node E → Node E → Bool)
    (f : Node E → Node E → Bool)
    (hH : ∀ a b, H a b ↔ h a b = true ∧ SameKind a.val b.val)
    (hf : ∀ a b : Node E, f a b = (h a b && match a.val, b.val with
      | .nil, .nil => true
      | .bool a, .bool b => decide (a = b)
      | .int a, .int b => decide (a = b)
      | .float a, .float b => floatEq a b
      | .str a, .str b => decide (a = b)
      | .list a, .list b => decide (a.length = b.length) && (a.zip b).all (fun x => f x.1 x.2)
      | .map a, .map b => decide (a.length = b.length) &&
          a.all (fun e => match mget b e.1 with | some y => f e.2 y | none => false)
      | .expr a, .expr b => decide (a = b)
      | .templ a, .templ b => f a b
      | .lambda a, .lambda b => decide (a = b)
      | _, _ => false)) (a : Node E) :
    ∀ b, GoMaps a → GoMaps b → (f a b = true ↔ AgreeBy H a b) := by
  have leaf : ∀ (v v' : Val E) s a s' a', (∀ i, child v i = none) → (∀ i, child v' i = none) →
      (f (.mk v s a) (.mk v' s' a') = true ↔ H (.mk v s a) (.mk v' s' a')) →
      (f (.mk v s a) (.mk v' s' a') = true ↔ AgreeBy H (.mk v s a) (.mk v' s' a')) := by
    intro v v' s a s' a' h1 h2 h3
    rw [h3, agree_step]
    exact ⟨fun h => ⟨h, child_scalar h1 h2⟩, fun h => h.1⟩
  -- different kinds
  have kind : ∀ (v v' : Val E) s a s' a', (f (.mk v s a) (.mk v' s' a') = false) → (¬ SameKind v v') →
      (f (.mk v s a) (.mk v' s' a') = true ↔ AgreeBy H (.mk v s a) (.mk v' s' a')) := by
    intro v v' s a s' a' h1 h2
    rw [h1, agree_step]
    constructor
    · intro h; simp at h
    · intro h; exact (h2 ((hH _ _).1 h.1).2).elim
  refine Node.rec
    (motive_1 := fun v => ∀ s a b, GoMapsV v → GoMaps b → (f (.mk v s a) b = true ↔ AgreeBy H (.mk v s a) b))
    (motive_2 := fun n => ∀ b, GoMaps n → GoMaps b → (f n b = true ↔ AgreeBy H n b))
    (motive_3 := fun l => ∀ n ∈ l, ∀ b, GoMaps n → GoMaps b → (f n b = true ↔ AgreeBy H n b))
    (motive_4 := fun m => ∀ e ∈ m, ∀ b, GoMaps e.2 → GoMaps b → (f e.2 b = true ↔ AgreeBy H e.2 b))
    (motive_5 := fun e => ∀ b, GoMaps e.2 → GoMaps b → (f e.2 b = true ↔ AgreeBy H e.2 b))
    ?_ ?_ ?_ ?_ ?_ ?_ ?_ ?_ ?_ ?_ ?_ ?_ ?_ ?_ ?_ ?_ a
  case refine_1 =>
    intro s a b _ _
    obtain ⟨v', s', a'⟩ := b
    cases v' with
    | nil => exact leaf _ _ _ _ _ _ (by intro i; cases i <;> rfl) (by intro i; cases i <;> rfl) (by rw [hH, hf]; simp [SameKind])
    | _ => exact kind _ _ _ _ _ _ (by rw [hf]; simp) (by simp [SameKind])
  case refine_2 =>
    intro x s a b _ _
    obtain ⟨v', s', a'⟩ := b
    cases v' with
    | bool y => exact leaf _ _ _ _ _ _ (by intro i; cases i <;> rfl) (by intro i; cases i <;> rfl) (by rw [hH, hf]; simp [SameKind])
    | _ => exact kind _ _ _ _ _ _ (by rw [hf]; simp) (by simp [SameKind])
  case refine_3 =>
    intro x s a b _ _
    obtain ⟨v', s', a'⟩ := b
    cases v' with
    | int y => exact leaf _ _ _ _ _ _ (by intro i; cases i <;> rfl) (by intro i; cases i <;> rfl) (by rw [hH, hf]; simp [SameKind])
    | _ => exact kind _ _ _ _ _ _ (by rw [hf]; simp) (by simp [SameKind])
  case refine_4 =>
    intro x s a b _ _
    obtain ⟨v', s', a'⟩ := b
    cases v' with
    | float y => exact leaf _ _ _ _ _ _ (by intro i; cases i <;> rfl) (by intro i; cases i <;> rfl) (by rw [hH, hf]; simp [SameKind])
    | _ => exact kind _ _ _ _ _ _ (by rw [hf]; simp) (by simp [SameKind])
  case refine_5 =>
    intro x s a b _ _
    obtain ⟨v', s', a'⟩ := b
    cases v' with
    | str y => exact leaf _ _ _ _ _ _ (by intro i; cases i <;> rfl) (by intro i; cases i <;> rfl) (by rw [hH, hf]; simp [SameKind])
    | _ => exact kind _ _ _ _ _ _ (by rw [hf]; simp) (by simp [SameKind])
  case refine_6 =>
    intro l ih s a b hg hg'
    obtain ⟨v', s', a'⟩ := b
    cases v' with
    | list l' =>
      have hl := GoMapsL_iff.1 hg
      have hl' := GoMapsL_iff.1 hg'
      rw [agree_step, hH, hf]
      simp only [Node.val_mk, both_list_iff, Bool.and_eq_true, decide_eq_true_eq, List.all_eq_true, SameKind, and_true]
      refine and_congr_right (fun _ => and_congr_right (fun _ => ?_))
      constructor
      · intro hx x hm
        exact (ih x.1 (List.of_mem_zip hm).1 x.2 (hl _ (List.of_mem_zip hm).1) (hl' _ (List.of_mem_zip hm).2)).1 (hx x hm)
      · intro hx x hm
        exact (ih x.1 (List.of_mem_zip hm).1 x.2 (hl _ (List.of_mem_zip hm).1) (hl' _ (List.of_mem_zip hm).2)).2 (hx x hm)
    | _ => exact kind _ _ _ _ _ _ (by rw [hf]; simp) (by simp [SameKind])
  case refine_7 =>
    intro m ih s a b hg hg'
    obtain ⟨v', s', a'⟩ := b
    cases v' with
    | map m' =>
      simp only [GoMapsV] at hg
      have hg'' : MapOK m' ∧ GoMapsM m' := hg'
      have hl := GoMapsM_iff.1 hg.2
      have hl' := GoMapsM_iff.1 hg''.2
      rw [agree_step, hH, hf]
      simp only [Node.val_mk, both_map_iff hg.1 hg''.1, Bool.and_eq_true, decide_eq_true_eq, List.all_eq_true, SameKind,
        and_true]
      refine and_congr_right (fun _ => and_congr_right (fun _ => ?_))
      constructor
      · intro hx e he
        have := hx e he
        cases hb : mget m' e.1 with
        | none => simp [hb] at this
        | some y =>
          simp only [hb] at this
          exact ⟨y, rfl, (ih e he y (hl e he) (hl' _ (mget_some_mem hb))).1 this⟩
      · intro hx e he
        obtain ⟨y, hy, hay⟩ := hx e he
        simp only [hy]
        exact (ih e he y (hl e he) (hl' _ (mget_some_mem hy))).2 hay
    | _ => exact kind _ _ _ _ _ _ (by rw [hf]; simp) (by simp [SameKind])
  case refine_8 =>
    intro x s a b _ _
    obtain ⟨v', s', a'⟩ := b
    cases v' with
    | expr y => exact leaf _ _ _ _ _ _ (by intro i; cases i <;> rfl) (by intro i; cases i <;> rfl) (by rw [hH, hf]; simp [SameKind])
    | _ => exact kind _ _ _ _ _ _ (by rw [hf]; simp) (by simp [SameKind])
  case refine_9 =>
    intro n ih s a b hg hg'
    obtain ⟨v', s', a'⟩ := b
    cases v' with
    | templ n' =>
      rw [agree_step, hH, hf]
      simp only [Node.val_mk, Bool.and_eq_true, SameKind, and_true]
      refine and_congr_right (fun _ => ?_)
      rw [ih n' hg hg']
      constructor
      · intro hx i; cases i <;> first | exact hx | trivial
      · intro hx; exact hx .body
    | _ => exact kind _ _ _ _ _ _ (by rw [hf]; simp) (by simp [SameKind])
  case refine_10 =>
    intro x s a b _ _
    obtain ⟨v', s', a'⟩ := b
    cases v' with
    | lambda y => exact leaf _ _ _ _ _ _ (by intro i; cases i <;> rfl) (by intro i; cases i <;> rfl) (by rw [hH, hf]; simp [SameKind])
    | _ => exact kind _ _ _ _ _ _ (by rw [hf]; simp) (by simp [SameKind])
  case refine_11 => intro v s a ih b h1 h2; exact ih s a b h1 h2
  case refine_12 => intro n hn; simp at hn
  case refine_13 =>
    intro n l ih1 ih2 x hx
    rcases List.mem_cons.1 hx with rfl | hx
    · exact ih1
    · exact ih2 x hx
  case refine_14 => intro n hn; simp at hn
  case refine_15 =>
    intro n l ih1 ih2 x hx
    rcases List.mem_cons.1 hx with rfl | hx
    · exact ih1
    · exact ih2 x hx
  case refine_16 => intro k n ih; exact ih

variable [DecidableEq E]

theorem equivL_zip (l l' : List (Node E)) : equivL l l' = (l.zip l').all (fun x => equivN x.1 x.2) := by
  induction l generalizing l' with
  | nil => simp [equivL]
  | cons a r ih => cases l' with
    | nil => simp [equivL]
    | cons b r' => simp [equivL, ih]

theorem equivM_all (m m' : List (String × Node E)) :
    equivM m m' = m.all (fun e => match mget m' e.1 with | some y => equivN e.2 y | none => false) := by
  induction m with
  | nil => simp [equivM]
  | cons a r ih => obtain ⟨k, n⟩ := a; simp only [equivM, ih, List.all_cons]; rfl

theorem deepEqL_zip (l l' : List (Node E)) :
    deepEqL l l' = (decide (l.length = l'.length) && (l.zip l').all (fun x => deepEq x.1 x.2)) := by
  induction l generalizing l' with
  | nil => cases l' <;> simp [deepEqL]
  | cons a r ih => cases l' with
    | nil => simp [deepEqL]
    | cons b r' =>
      simp only [deepEqL, ih, List.length_cons, List.zip_cons_cons, List.all_cons]
      rw [Bool.eq_iff_iff]
      simp only [Bool.and_eq_true, decide_eq_true_eq]
      constructor
      · rintro ⟨h1, h2, h3⟩; exact ⟨by omega, h1, h3⟩
      · rintro ⟨h1, h2, h3⟩; exact ⟨h2, by omega, h3⟩

theorem deepEqM_all (m m' : List (String × Node E)) :
    deepEqM m m' = m.all (fun e => match mget m' e.1 with | some y => deepEq e.2 y | none => false) := by
  induction m with
  | nil => simp [deepEqM]
  | cons a r ih => obtain ⟨k, n⟩ := a; simp only [deepEqM, ih, List.all_cons]; rfl

/-- C16: two nodes are equivalent iff they have the same positions and at every position the
same content, whatever their annotations, sources and map orders are. -/
theorem equiv_iff_same_content (a b : Node E) (ha : GoMaps a) (hb : GoMaps b) :
    equivN a b = true ↔ SameContent a b := by
  refine agree_decides (fun x y => SameKind x.val y.val) (fun _ _ => true) equivN (by simp) ?_ a b ha hb
  intro a b
  obtain ⟨v, s, a⟩ := a
  obtain ⟨v', s', a'⟩ := b
  simp only [Bool.true_and, equivN, Node.val_mk]
  cases v <;> cases v' <;> simp only [equivV, equivL_zip, equivM_all]

/-- `reflect.DeepEqual` on nodes: same content, sources and annotations at all positions. -/
theorem deepEq_iff_identical (a b : Node E) (ha : GoMaps a) (hb : GoMaps b) :
    deepEq a b = true ↔ Identical a b := by
  refine agree_decides (fun x y => SameKind x.val y.val ∧ x.src = y.src ∧ x.ann = y.ann)
    (fun x y => decide (x.src = y.src) && decide (x.ann = y.ann)) deepEq
    (by intro x y; simp only [Bool.and_eq_true, decide_eq_true_eq]; exact and_comm) ?_ a b ha hb
  intro a b
  obtain ⟨v, s, a⟩ := a
  obtain ⟨v', s', a'⟩ := b
  simp only [deepEq, Node.val_mk, Node.src_mk, Node.ann_mk]
  congr 1
  cases v <;> cases v' <;> simp only [deepEqV, deepEqL_zip, deepEqM_all]

/-- no NaN in a document -/
def NoNaN (n : Node E) : Prop := ∀ p x b, locate n p = some x → x.val = .float b → isNaN b = false

omit [DecidableEq E] in
theorem SameKind_refl (v : Val E) (h : ∀ b, v = .float b → isNaN b = false) : SameKind v v := by
  cases v <;> simp [SameKind]
  next b => exact floatEq_refl (h b rfl)

theorem floatEq_comm (a b : Nat) : floatEq a b = floatEq b a := by
  unfold floatEq
  rw [Bool.eq_iff_iff]
  simp only [Bool.and_eq_true, Bool.or_eq_true, beq_iff_eq]
  constructor
  · rintro ⟨⟨h1, h2⟩, h3⟩
    exact ⟨⟨h2, h1⟩, h3.elim (fun h => Or.inl h.symm) (fun h => Or.inr ⟨h.2, h.1⟩)⟩
  · rintro ⟨⟨h1, h2⟩, h3⟩
    exact ⟨⟨h2, h1⟩, h3.elim (fun h => Or.inl h.symm) (fun h => Or.inr ⟨h.2, h.1⟩)⟩

theorem floatEq_trans {a b c : Nat} (h : floatEq a b = true) (h' : floatEq b c = true) : floatEq a c = true := by
  unfold floatEq at *
  simp only [Bool.and_eq_true, Bool.or_eq_true, beq_iff_eq] at *
  refine ⟨⟨h.1.1, h'.1.2⟩, ?_⟩
  rcases h.2 with rfl | h1
  · exact h'.2
  · rcases h'.2 with rfl | h2
    · exact Or.inr h1
    · exact Or.inr ⟨h1.1, h2.2⟩

omit [DecidableEq E] in
theorem SameKind_symm {v v' : Val E} (h : SameKind v v') : SameKind v' v := by
  cases v <;> cases v' <;> simp_all [SameKind]
  rwa [floatEq_comm]

omit [DecidableEq E] in
theorem SameKind_trans {v v' v'' : Val E} (h : SameKind v v') (h' : SameKind v' v'') : SameKind v v'' := by
  cases v <;> cases v' <;> simp [SameKind] at h <;> cases v'' <;> simp_all [SameKind]
  exact floatEq_trans h h'

/-- C16: reflexive (for documents without NaN; see `nan_not_equivalent`). -/
theorem equiv_refl (a : Node E) (ha : GoMaps a) (hn : NoNaN a) : equivN a a = true := by
  rw [equiv_iff_same_content a a ha ha]
  intro p
  cases h : locate a p with
  | none => trivial
  | some x => exact SameKind_refl _ (fun b hb => hn p x b h hb)

/-- C16: symmetric. -/
theorem equiv_symm (a b : Node E) (ha : GoMaps a) (hb : GoMaps b) : equivN a b = equivN b a := by
  rw [Bool.eq_iff_iff, equiv_iff_same_content a b ha hb, equiv_iff_same_content b a hb ha]
  have : ∀ a b : Node E, SameContent a b → SameContent b a := by
    intro a b h p
    have := h p
    cases ha : locate a p <;> cases hb : locate b p <;> simp_all [Both]
    exact SameKind_symm this
  exact ⟨this a b, this b a⟩

/-- C16: transitive. -/
theorem equiv_trans (a b c : Node E) (ha : GoMaps a) (hb : GoMaps b) (hc : GoMaps c)
    (h1 : equivN a b = true) (h2 : equivN b c = true) : equivN a c = true := by
  rw [equiv_iff_same_content _ _ ha hb] at h1
  rw [equiv_iff_same_content _ _ hb hc] at h2
  rw [equiv_iff_same_content _ _ ha hc]
  intro p
  have h1 := h1 p
  have h2 := h2 p
  cases ha : locate a p <;> cases hb : locate b p <;> cases hc : locate c p <;> simp_all [Both]
  exact SameKind_trans h1 h2

/-- C16: annotations, sources and the order of map fields are irrelevant; types are not. -/
example : equivN (E := Empty) (.mk (.map [("a", .mk (.int 1) "f" {}), ("b", .mk (.str "x") "f" {})]) "f" {})
    (.mk (.map [("b", .mk (.str "x") "g" { tag := "t" }), ("a", .mk (.int 1) "g" {})]) "g" { merged := true }) = true := by decide
example : equivN (E := Empty) (.mk (.list [.mk (.int 1) "f" {}]) "f" {}) (.mk (.list [.mk (.bool true) "f" {}]) "f" {}) = false := by
  decide

/-- A NaN is not equivalent to itself. -/
theorem nan_not_equivalent : ∃ n : Node Empty, equivN n n = false :=
  ⟨.mk (.float (2047 * 2^52 + 1)) "f" {}, by decide⟩

end Spiff
