import Verif.Spec.Loose
import Verif.Props.Equiv
/-
C28: comparison operators.
-/
namespace Spiff
open Spec
variable {E : Type} [DecidableEq E]

theorem eqList_zip (l l' : List (Node E)) (h : l.length = l'.length) :
    eqList l l' = (l.zip l').all (fun x => eqVals x.1.val x.2.val) := by
  induction l' generalizing l with
  | nil => cases l <;> simp [eqList]
  | cons b r ih => cases l with
    | nil => simp at h
    | cons a l => obtain ⟨v, s, an⟩ := b; simp [eqList, ih l (by simpa using h)]

theorem eqMap_all (m m' : List (String × Node E)) :
    eqMap m m' = m'.all (fun e => match mget m e.1 with | some x => eqVals x.val e.2.val | none => false) := by
  induction m' with
  | nil => simp [eqMap]
  | cons a r ih => obtain ⟨k, n⟩ := a; obtain ⟨v, s, an⟩ := n; simp only [eqMap, ih, List.all_cons]; rfl

theorem list_loose (l l' : List (Node E)) : (decide (l.length = l'.length) && eqList l l') = true ↔
    l.length = l'.length ∧ ∀ (i : Nat) (x y : Node E), l[i]? = some x → l'[i]? = some y → eqVals x.val y.val = true := by
  rw [Bool.and_eq_true, decide_eq_true_eq]
  refine and_congr_right fun hl => ?_
  rw [eqList_zip l l' hl, List.all_eq_true]
  constructor
  · intro h i x y hx hy
    refine h (x, y) ?_
    rw [List.mem_iff_getElem?]
    refine ⟨i, ?_⟩
    rw [List.getElem?_zip_eq_some]
    exact ⟨hx, hy⟩
  · intro h x hx
    rw [List.mem_iff_getElem?] at hx
    obtain ⟨i, hi⟩ := hx
    rw [List.getElem?_zip_eq_some] at hi
    exact h i _ _ hi.1 hi.2

theorem map_loose (m m' : List (String × Node E)) (hm : MapOK m) (hm' : MapOK m') :
    (decide (m.length = m'.length) && eqMap m m') = true ↔
    (∀ k, k ∈ mkeys m ↔ k ∈ mkeys m') ∧
      ∀ (k : String) (x y : Node E), mget m k = some x → mget m' k = some y → eqVals x.val y.val = true := by
  have hb := Both_map (H := fun x y : Node E => eqVals y.val x.val = true) hm' hm
  rw [Bool.and_eq_true, decide_eq_true_eq, eqMap_all, List.all_eq_true]
  have e1 : (m.length = m'.length ∧ ∀ e ∈ m', (match mget m e.1 with | some x => eqVals x.val e.2.val | none => false) = true) ↔
      (m'.length = m.length ∧ ∀ e ∈ m', ∃ b, mget m e.1 = some b ∧ eqVals b.val e.2.val = true) := by
    refine and_congr (by omega) (forall_congr' fun e => forall_congr' fun _ => ?_)
    cases mget m e.1 <;> simp
  rw [e1, ← hb]
  constructor
  · intro h
    refine ⟨fun k => ?_, fun k x y hx hy => ?_⟩
    · have := h k
      rw [← not_iff_not, ← mget_none_iff, ← mget_none_iff]
      cases h1 : mget m k <;> cases h2 : mget m' k <;> simp [h1, h2, Both] at this ⊢
    · have := h k
      rw [hx, hy] at this
      exact this
  · rintro ⟨h1, h2⟩ k
    have hk := h1 k
    rw [← not_iff_not, ← mget_none_iff, ← mget_none_iff] at hk
    cases h3 : mget m k <;> cases h4 : mget m' k <;> simp [h3, h4, Both] at hk ⊢
    exact h2 k _ _ h3 h4

theorem eqScalar_loose (a b : Val E) (ha : GoMapsV a) (hb : GoMapsV b) (h0 : b ≠ .nil) (h1 : ∀ l, b ≠ .list l) (h2 : ∀ m, b ≠ .map m) :
    eqScalar a b = true ↔ Loose a b := by
  constructor
  · intro h
    cases a <;> simp only [eqScalar] at h
    case bool x =>
      cases b <;> simp only [eqBool] at h
      case bool y => rw [beq_iff_eq] at h; subst h; exact .bool _
      case str s =>
        split at h
        · rename_i b hb; rw [beq_iff_eq] at h; subst h; exact .bool_str _ _ hb
        · cases h
      all_goals cases h
    case int x =>
      cases b <;> simp only [eqInt] at h
      case int y => rw [decide_eq_true_eq] at h; subst h; exact .int _
      case bool y => rw [decide_eq_true_eq] at h; subst h; exact .int_bool _
      case str s =>
        split at h
        · rename_i b hb; rw [decide_eq_true_eq] at h; subst h; exact .int_str _ _ hb
        · cases h
      all_goals cases h
    case str x =>
      cases b <;> simp only [eqStr, Option.getD_some, Option.getD_none, decide_eq_true_eq] at h
      case int i => subst h; exact .str_int _
      case str => subst h; exact .str _
      case bool y => subst h; exact .str_bool _
      case lambda => subst h; exact .str_lambda _
      all_goals cases h
    case templ x =>
      cases b <;> simp only [eqTempl] at h
      case templ y => exact .templ _ _ ((equiv_iff_same_content x y ha hb).1 h)
      all_goals cases h
    case lambda x =>
      cases b <;> simp only [eqLambda, decide_eq_true_eq] at h
      case lambda => subst h; exact .lambda _
      all_goals cases h
    all_goals cases h
  · intro h
    cases h <;> simp_all [eqScalar, eqStr, eqInt, eqBool, eqTempl, eqLambda, showBool]
    case templ a b h => exact (equiv_iff_same_content a b ha hb).2 h

/-- C28: `a == b` holds exactly for (loosely) equal values, for any nesting of lists and maps. -/
theorem eq_iff (b : Node E) : ∀ a : Val E, GoMapsV a → GoMaps b → (eqVals a b.val = true ↔ Loose a b.val) := by
  refine Node.rec (motive_1 := fun b => ∀ a : Val E, GoMapsV a → GoMapsV b → (eqVals a b = true ↔ Loose a b))
    (motive_2 := fun b => ∀ a : Val E, GoMapsV a → GoMaps b → (eqVals a b.val = true ↔ Loose a b.val))
    (motive_3 := fun l => ∀ b ∈ l, ∀ a : Val E, GoMapsV a → GoMaps b → (eqVals a b.val = true ↔ Loose a b.val))
    (motive_4 := fun m => ∀ e ∈ m, ∀ a : Val E, GoMapsV a → GoMaps e.2 → (eqVals a e.2.val = true ↔ Loose a e.2.val))
    (motive_5 := fun e => ∀ a : Val E, GoMapsV a → GoMaps e.2 → (eqVals a e.2.val = true ↔ Loose a e.2.val))
    ?_ ?_ ?_ ?_ ?_ ?_ ?_ ?_ ?_ ?_ ?_ ?_ ?_ ?_ ?_ ?_ b
  · intro a _ _
    cases a <;> simp only [eqVals, true_iff, Bool.false_eq_true, false_iff]
    case nil => exact .nil
    all_goals intro h; cases h
  · intro x a ha hb; exact eqScalar_loose a _ ha hb (by simp) (by simp) (by simp)
  · intro x a ha hb; exact eqScalar_loose a _ ha hb (by simp) (by simp) (by simp)
  · intro x a ha hb; exact eqScalar_loose a _ ha hb (by simp) (by simp) (by simp)
  · intro x a ha hb; exact eqScalar_loose a _ ha hb (by simp) (by simp) (by simp)
  · intro l ih a ha hb
    cases a with
    | list l' =>
      simp only [eqVals]
      rw [list_loose]
      simp only [GoMapsV] at ha hb
      rw [GoMapsL_iff] at ha hb
      have hstep : ∀ (i : Nat) (x y : Node E), l'[i]? = some x → l[i]? = some y → (eqVals x.val y.val = true ↔ Loose x.val y.val) := by
        intro i x y hx hy
        have hxm := List.mem_of_getElem? hx
        have hym := List.mem_of_getElem? hy
        refine ih y hym x.val ?_ (hb y hym)
        have := ha x hxm
        cases x; simpa [GoMaps] using this
      constructor
      · rintro ⟨h1, h2⟩
        exact .list _ _ h1 (fun i x y hx hy => (hstep i x y hx hy).1 (h2 i x y hx hy))
      · intro h
        cases h with
        | list _ _ h1 h2 => exact ⟨h1, fun i x y hx hy => (hstep i x y hx hy).2 (h2 i x y hx hy)⟩
    | _ => simp only [eqVals, Bool.false_eq_true, false_iff]; intro h; cases h
  · intro m ih a ha hb
    cases a with
    | map m' =>
      simp only [eqVals]
      simp only [GoMapsV] at ha hb
      rw [map_loose _ _ ha.1 hb.1]
      have ha2 := GoMapsM_iff.1 ha.2
      have hb2 := GoMapsM_iff.1 hb.2
      have hstep : ∀ (k : String) (x y : Node E), mget m' k = some x → mget m k = some y → (eqVals x.val y.val = true ↔ Loose x.val y.val) := by
        intro i x y hx hy
        have hxm := mget_some_mem hx
        have hym := mget_some_mem hy
        refine ih _ hym x.val ?_ (hb2 _ hym)
        have := ha2 _ hxm
        cases x; simpa [GoMaps] using this
      constructor
      · rintro ⟨h1, h2⟩
        exact .map _ _ h1 (fun i x y hx hy => (hstep i x y hx hy).1 (h2 i x y hx hy))
      · intro h
        cases h with
        | map _ _ h1 h2 => exact ⟨h1, fun i x y hx hy => (hstep i x y hx hy).2 (h2 i x y hx hy)⟩
    | _ => simp only [eqVals, Bool.false_eq_true, false_iff]; intro h; cases h
  · intro x a ha hb; exact eqScalar_loose a _ ha hb (by simp) (by simp) (by simp)
  · intro x _ a ha hb; exact eqScalar_loose a _ ha hb (by simp) (by simp) (by simp)
  · intro x a ha hb; exact eqScalar_loose a _ ha hb (by simp) (by simp) (by simp)
  · intro v s an ih a ha hb; exact ih a ha (by simpa [GoMaps] using hb)
  · intro b hb; cases hb
  · intro x r h1 h2 b hb
    rcases List.mem_cons.1 hb with rfl | h
    · exact h1
    · exact h2 b h
  · intro b hb; cases hb
  · intro x r h1 h2 b hb
    rcases List.mem_cons.1 hb with rfl | h
    · exact h1
    · exact h2 b h
  · intro k n ih; exact ih

/-- C28: the comparison of two values by `==` and `!=`: undetermined if nil is compared with another value, or a
string with a list, map, float or template; otherwise `==` tells whether they are equal and `!=` is its negation. -/
theorem eq_ne_result (a b : Val E) (ha : GoMapsV a) (hb : GoMapsV b) :
    (eqComparable a b = false → compareVals .eq a b = .undet ∧ compareVals .ne a b = .undet) ∧
    (eqComparable a b = true → ∃ r, compareVals .eq a b = .ok (.bool r) ∧ compareVals .ne a b = .ok (.bool (!r)) ∧
      (r = true ↔ Loose a b)) := by
  refine ⟨fun h => by simp [compareVals, h], fun h => ⟨eqVals a b, by simp [compareVals, h], by simp [compareVals, h], ?_⟩⟩
  exact eq_iff (.mk b "" {}) a ha (by simpa [GoMaps] using hb)

/-- which operands are not comparable -/
theorem comparable_iff (a b : Val E) : eqComparable a b = false ↔
    ((a = .nil ∧ b ≠ .nil) ∨ (a ≠ .nil ∧ b = .nil) ∨
      (∃ s, a = .str s) ∧ ((∃ f, b = .float f) ∨ (∃ l, b = .list l) ∨ (∃ m, b = .map m) ∨ (∃ n, b = .templ n) ∨ ∃ e, b = .expr e)) := by
  cases a <;> cases b <;> simp [eqComparable, eqStr]

mutual
/-- no float and no expression (lambdas and templates are values) -/
def NoFloat : Node E → Prop
  | .mk v _ _ => NoFloatV v
termination_by structural n => n
def NoFloatV : Val E → Prop
  | .float _ => False
  | .expr _ => False
  | .list l => NoFloatL l
  | .map m => NoFloatM m
  | _ => True
termination_by structural n => n
def NoFloatL : List (Node E) → Prop
  | [] => True
  | n :: r => NoFloat n ∧ NoFloatL r
termination_by structural n => n
def NoFloatM : List (String × Node E) → Prop
  | [] => True
  | (_, n) :: r => NoFloat n ∧ NoFloatM r
termination_by structural n => n
end

omit [DecidableEq E] in
theorem NoFloatL_iff {l : List (Node E)} : NoFloatL l ↔ ∀ n ∈ l, NoFloat n := by
  induction l with
  | nil => simp [NoFloatL]
  | cons a r ih => simp [NoFloatL, ih]

omit [DecidableEq E] in
theorem NoFloatM_iff {m : List (String × Node E)} : NoFloatM m ↔ ∀ e ∈ m, NoFloat e.2 := by
  induction m with
  | nil => simp [NoFloatM]
  | cons a r ih => obtain ⟨k, n⟩ := a; simp [NoFloatM, ih]

omit [DecidableEq E] in
theorem agree_list {H : Node E → Node E → Prop} {l l' : List (Node E)} {s s' a a'}
    (h : AgreeBy H (.mk (.list l) s a) (.mk (.list l') s' a')) :
    l.length = l'.length ∧ ∀ (i : Nat) (x y : Node E), l[i]? = some x → l'[i]? = some y → AgreeBy H x y := by
  have hc := (agree_step.1 h).2
  constructor
  · have := (both_list_iff.1 hc).1; exact this
  · intro i x y hx hy
    have := hc (.idx i)
    simpa [child, hx, hy, Both] using this

omit [DecidableEq E] in
theorem agree_map {H : Node E → Node E → Prop} {l l' : List (String × Node E)} {s s' a a'}
    (h : AgreeBy H (.mk (.map l) s a) (.mk (.map l') s' a')) :
    (∀ k, k ∈ mkeys l ↔ k ∈ mkeys l') ∧ ∀ (k : String) (x y : Node E), mget l k = some x → mget l' k = some y → AgreeBy H x y := by
  have hc := (agree_step.1 h).2
  constructor
  · intro k
    have := hc (.key k)
    simp only [child, Node.val_mk] at this
    rw [← not_iff_not, ← mget_none_iff, ← mget_none_iff]
    cases h1 : mget l k <;> cases h2 : mget l' k <;> simp [h1, h2, Both] at this ⊢
  · intro i x y hx hy
    have := hc (.key i)
    simpa [child, hx, hy, Both] using this

omit [DecidableEq E] in
/-- C28: values with the same content (see C16) without floats are equal. -/
theorem same_content_loose (a : Node E) : ∀ b, SameContent a b → NoFloat a → Loose a.val b.val := by
  refine Node.rec (motive_1 := fun v => ∀ (s : String) (an : Ann) b, SameContent (.mk v s an) b → NoFloatV v → Loose v b.val)
    (motive_2 := fun a => ∀ b, SameContent a b → NoFloat a → Loose a.val b.val)
    (motive_3 := fun l => ∀ a ∈ l, ∀ b, SameContent a b → NoFloat a → Loose a.val b.val)
    (motive_4 := fun m => ∀ e ∈ m, ∀ b, SameContent e.2 b → NoFloat e.2 → Loose e.2.val b.val)
    (motive_5 := fun e => ∀ b, SameContent e.2 b → NoFloat e.2 → Loose e.2.val b.val)
    ?_ ?_ ?_ ?_ ?_ ?_ ?_ ?_ ?_ ?_ ?_ ?_ ?_ ?_ ?_ ?_ a
  case refine_6 =>
    intro l ih s an b h hn
    have hk := (agree_step.1 h).1
    obtain ⟨v, s', an'⟩ := b
    cases v <;> simp only [SameKind, Node.val_mk] at hk
    rename_i l'
    obtain ⟨h1, h2⟩ := agree_list h
    simp only [NoFloatV, NoFloatL_iff] at hn
    refine .list _ _ h1 (fun i x y hx hy => ?_)
    have hm := List.mem_of_getElem? hx
    exact ih x hm y (h2 i x y hx hy) (hn x hm)
  case refine_7 =>
    intro l ih s an b h hn
    have hk := (agree_step.1 h).1
    obtain ⟨v, s', an'⟩ := b
    cases v <;> simp only [SameKind, Node.val_mk] at hk
    rename_i l'
    obtain ⟨h1, h2⟩ := agree_map h
    simp only [NoFloatV, NoFloatM_iff] at hn
    refine .map _ _ h1 (fun i x y hx hy => ?_)
    have hm := mget_some_mem hx
    exact ih _ hm y (h2 i x y hx hy) (hn _ hm)
  case refine_9 =>
    intro n ih s an b h hn
    have hk := (agree_step.1 h)
    obtain ⟨v, s', an'⟩ := b
    cases v <;> simp only [SameKind, Node.val_mk] at hk
    all_goals try exact absurd hk.1 id
    exact .templ _ _ (hk.2 .body)
  case refine_11 => intro v s an ih b h hn; exact ih s an b h (by simpa [NoFloat] using hn)
  case refine_12 => intro b hb; cases hb
  case refine_14 => intro b hb; cases hb
  case refine_13 =>
    intro x r h1 h2 b hb
    rcases List.mem_cons.1 hb with rfl | h
    · exact h1
    · exact h2 b h
  case refine_15 =>
    intro x r h1 h2 b hb
    rcases List.mem_cons.1 hb with rfl | h
    · exact h1
    · exact h2 b h
  case refine_16 => intro k n ih; exact ih
  all_goals
    intros
    rename_i h hn
    have hk := (agree_step.1 h).1
    rename_i b
    obtain ⟨v, s', an'⟩ := b
    cases v <;> simp only [SameKind, Node.val_mk] at hk
    try subst hk
    first
      | exact .nil
      | exact .bool _
      | exact .int _
      | exact .str _
      | exact .lambda _
      | exact absurd hn (by simp [NoFloatV])

/-- C28: a value without floats equals itself, and any value with the same content, whatever the order of
map fields. -/
theorem eq_same_content (a b : Node E) (ha : GoMaps a) (hb : GoMaps b) (hn : NoFloat a) (h : SameContent a b) :
    compareVals .eq a.val b.val = .ok (.bool true) ∧ compareVals .ne a.val b.val = .ok (.bool false) := by
  have hl := same_content_loose a b h hn
  have ha' : GoMapsV a.val := by cases a; simpa [GoMaps] using ha
  have hb' : GoMapsV b.val := by cases b; simpa [GoMaps] using hb
  have hc : eqComparable a.val b.val = true := by
    have hk := (agree_step.1 h).1
    cases hva : a.val <;> cases hvb : b.val <;> simp [hva, hvb, SameKind] at hk <;> simp [eqComparable, eqStr]
  obtain ⟨r, h1, h2, h3⟩ := (eq_ne_result a.val b.val ha' hb').2 hc
  have : r = true := h3.2 hl
  subst this
  exact ⟨h1, h2⟩


theorem eq_self (a : Node E) (ha : GoMaps a) (hn : NoFloat a) (hnan : NoNaN a) : compareVals .eq a.val a.val = .ok (.bool true) :=
  (eq_same_content a a ha ha hn ((equiv_iff_same_content a a ha ha).1 (equiv_refl a ha hnan))).1

/-- C28, defect: a float does not equal itself. -/
theorem float_never_equal (f : Nat) (b : Val E) (h : b ≠ .nil) : compareVals .eq (.float f) b = .ok (.bool false) := by
  cases b <;> simp [compareVals, eqComparable, eqVals, eqScalar] at h ⊢

/-- C28, limit: equality is not symmetric for operands of different types. -/
theorem eq_asymmetric :
    compareVals .eq (.int 1) (.str "01") = (.ok (.bool true) : Out (Val E)) ∧
    compareVals .eq (.str "01") (.int 1) = (.ok (.bool false) : Out (Val E)) ∧
    compareVals .eq (.int 1) (.bool true) = (.ok (.bool true) : Out (Val E)) ∧
    compareVals .eq (.bool true) (.int 1) = (.ok (.bool false) : Out (Val E)) := ⟨rfl, rfl, rfl, rfl⟩

/-! ### order -/

omit [DecidableEq E] in
/-- C28: `<`, `<=`, `>`, `>=` compare integers by value and strings lexicographically; comparing an
integer or a string with anything else is an error. -/
theorem order_spec [DecidableEq E] (a b : Val E) :
    (∀ x y : Int, a = .int x → b = .int y →
      compareVals .lt a b = .ok (.bool (decide (x < y))) ∧ compareVals .le a b = .ok (.bool (decide (x ≤ y))) ∧
      compareVals .gt a b = .ok (.bool (decide (y < x))) ∧ compareVals .ge a b = .ok (.bool (decide (y ≤ x)))) ∧
    (∀ x y : String, a = .str x → b = .str y →
      compareVals .lt a b = .ok (.bool (decide (x < y))) ∧ compareVals .le a b = .ok (.bool (decide (x ≤ y))) ∧
      compareVals .gt a b = .ok (.bool (decide (y < x))) ∧ compareVals .ge a b = .ok (.bool (decide (y ≤ x)))) ∧
    (∀ op, op ≠ .eq → op ≠ .ne →
      (compareVals op a b = .err ↔ ((∃ x, a = .int x) ∧ ¬∃ y, b = .int y) ∨ ((∃ x, a = .str x) ∧ ¬∃ y, b = .str y))) := by
  refine ⟨?_, ?_, ?_⟩
  · rintro x y rfl rfl; exact ⟨rfl, rfl, rfl, rfl⟩
  · rintro x y rfl rfl; exact ⟨rfl, rfl, rfl, rfl⟩
  · intro op h1 h2
    cases op <;> simp at h1 h2 <;> cases a <;> cases b <;> simp [compareVals, ordVals]

/-- C28, limit: for other first operands all four order comparisons are false. -/
theorem order_other (a b : Val E) (h1 : ∀ i, a ≠ .int i) (h2 : ∀ s, a ≠ .str s) (op : CmpOp) (h3 : op ≠ .eq) (h4 : op ≠ .ne) :
    compareVals op a b = .ok (.bool false) := by
  cases op <;> simp at h3 h4 <;> cases a <;> simp [compareVals, ordVals] <;> first | exact absurd rfl (h1 _) | exact absurd rfl (h2 _)

/-! ### non-triviality -/
example : compareVals .eq (.map [("a", .mk (.int 1) "" {}), ("b", .mk (.list [.mk .nil "" {}]) "" {})])
    (.map [("b", .mk (.list [.mk .nil "x" {}]) "" {}), ("a", .mk (.int 1) "" {})]) = (.ok (.bool true) : Out (Val Empty)) := by rfl
example : compareVals .ne (.list [.mk (.int 1) "" {}]) (.list [.mk (.int 2) "" {}]) = (.ok (.bool true) : Out (Val Empty)) := by rfl

end Spiff
