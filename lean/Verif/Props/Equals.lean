import Verif.Model.Equals
import Verif.Spec.Equals
import Verif.Props.Equiv
/-
C109: equality of nodes with annotations.
-/
namespace Spiff
open Spec
variable {E : Type} [DecidableEq E]

/-! ### a variant which compares the bodies of templates in the same way -/

mutual
/-- the variant for nodes (helper of the proof) -/
def equalsRN : Node E → Node E → Bool
  | .mk v _ a, .mk v' _ a' => (v.isNil || decide (a = a')) && equalsRV v v'
termination_by structural n => n
/-- the variant for values -/
def equalsRV : Val E → Val E → Bool
  | .nil, .nil => true
  | .bool a, .bool b => decide (a = b)
  | .int a, .int b => decide (a = b)
  | .float a, .float b => floatEq a b
  | .str a, .str b => decide (a = b)
  | .list a, .list b => decide (a.length = b.length) && equalsRL a b
  | .map a, .map b => decide (a.length = b.length) && equalsRM a b
  | .expr a, .expr b => decide (a = b)
  | .templ a, .templ b => equalsRN a b
  | .lambda a, .lambda b => decide (a = b)
  | _, _ => false
termination_by structural n => n
/-- the variant for lists -/
def equalsRL : List (Node E) → List (Node E) → Bool
  | a :: r, b :: r' => equalsRN a b && equalsRL r r'
  | _, _ => true
termination_by structural n => n
/-- the variant for maps -/
def equalsRM : List (String × Node E) → List (String × Node E) → Bool
  | [], _ => true
  | (k, a) :: r, m => (match mget m k with | some b => equalsRN a b | none => false) && equalsRM r m
termination_by structural n => n
end

theorem equalsRL_zip (l l' : List (Node E)) : equalsRL l l' = (l.zip l').all (fun x => equalsRN x.1 x.2) := by
  induction l generalizing l' with
  | nil => simp [equalsRL]
  | cons a r ih => cases l' with
    | nil => simp [equalsRL]
    | cons b r' => simp [equalsRL, ih]

theorem equalsRM_all (m m' : List (String × Node E)) :
    equalsRM m m' = m.all (fun e => match mget m' e.1 with | some y => equalsRN e.2 y | none => false) := by
  induction m with
  | nil => simp [equalsRM]
  | cons a r ih => obtain ⟨k, n⟩ := a; simp only [equalsRM, ih, List.all_cons]

theorem equalsL_zip (l l' : List (Node E)) : equalsL l l' = (l.zip l').all (fun x => equalsN x.1 x.2) := by
  induction l generalizing l' with
  | nil => simp [equalsL]
  | cons a r ih => cases l' with
    | nil => simp [equalsL]
    | cons b r' => simp [equalsL, ih]

theorem equalsM_all (m m' : List (String × Node E)) :
    equalsM m m' = m.all (fun e => match mget m' e.1 with | some y => equalsN e.2 y | none => false) := by
  induction m with
  | nil => simp [equalsM]
  | cons a r ih => obtain ⟨k, n⟩ := a; simp only [equalsM, ih, List.all_cons]; rfl

theorem equalsR_iff (a b : Node E) (ha : GoMaps a) (hb : GoMaps b) : equalsRN a b = true ↔ EqualNodes a b := by
  refine agree_decides SameNode (fun x y => x.val.isNil || decide (x.ann = y.ann)) equalsRN ?_ ?_ a b ha hb
  · intro x y
    unfold SameNode
    have : x.val.isNil = true ↔ x.val = .nil := by cases x.val <;> simp [Val.isNil]
    simp only [Bool.or_eq_true, decide_eq_true_eq, this]
    exact and_comm
  · intro a b
    obtain ⟨v, s, a⟩ := a
    obtain ⟨v', s', a'⟩ := b
    simp only [equalsRN, Node.val_mk, Node.ann_mk]
    congr 1
    cases v <;> cases v' <;> simp only [equalsRV, equalsRL_zip, equalsRM_all]
    rfl

omit [DecidableEq E] in
theorem noTemplates_child {n c : Node E} {i : Ix} (h : NoTemplates n) (hc : child n.val i = some c) : NoTemplates c := by
  intro p x hx
  refine h (i :: p) x ?_
  simp only [locate, hc, hx]

omit [DecidableEq E] in
/-- maps with the same keys have the same length -/
theorem same_length {m m' : List (String × Node E)} (hm : MapOK m) (hm' : MapOK m') (h : ∀ e ∈ m, ∃ y, mget m' e.1 = some y) :
    m.length = m'.length ↔ ∀ e ∈ m', (mget m e.1).isSome = true := by
  have hk : ∀ {m : List (String × Node E)} {k : String}, (mget m k).isSome = true ↔ k ∈ mkeys m := by
    intro m k
    rw [← not_iff_not, ← mget_none_iff]
    simp
  have hs : (mkeys m) ⊆ (mkeys m') := by
    intro k hk'
    obtain ⟨e, he, rfl⟩ := List.mem_map.1 hk'
    obtain ⟨y, hy⟩ := h e he
    exact hk.1 (by rw [hy]; rfl)
  have hp : (mkeys m).Subperm (mkeys m') := hm.subperm hs
  have hl : ∀ {m : List (String × Node E)}, (mkeys m).length = m.length := by intro m; simp [mkeys]
  constructor
  · intro hlen e he
    rw [hk]
    have := hp.perm_of_length_le (by rw [hl, hl]; omega)
    exact this.mem_iff.2 (List.mem_map_of_mem he)
  · intro hall
    have hs' : (mkeys m') ⊆ (mkeys m) := by
      intro k hk'
      obtain ⟨e, he, rfl⟩ := List.mem_map.1 hk'
      exact hk.1 (hall e he)
    have := (hm'.subperm hs').length_le
    have := hp.length_le
    simp only [hl] at *
    omega

theorem equals_variant (a : Node E) : ∀ b, NoTemplates a → GoMaps a → GoMaps b → equalsN a b = equalsRN a b := by
  have leaf : ∀ (v : Val E) (s : String) (x : Ann) (b : Node E), (∀ l, v ≠ .list l) → (∀ m, v ≠ .map m) → (∀ t, v ≠ .templ t) →
      equalsN (.mk v s x) b = equalsRN (.mk v s x) b := by
    intro v s x b h1 h2 h3
    obtain ⟨v', s', x'⟩ := b
    simp only [equalsN, equalsRN]
    cases v <;> first | exact absurd rfl (h1 _) | exact absurd rfl (h2 _) | exact absurd rfl (h3 _) | skip
    all_goals (cases v' <;> simp [equalsV, equalsRV, Val.isNil])
  refine Node.rec
    (motive_1 := fun v => ∀ s x b, NoTemplates (.mk v s x) → GoMapsV v → GoMaps b → equalsN (.mk v s x) b = equalsRN (.mk v s x) b)
    (motive_2 := fun n => ∀ b, NoTemplates n → GoMaps n → GoMaps b → equalsN n b = equalsRN n b)
    (motive_3 := fun l => ∀ n ∈ l, ∀ b, NoTemplates n → GoMaps n → GoMaps b → equalsN n b = equalsRN n b)
    (motive_4 := fun m => ∀ e ∈ m, ∀ b, NoTemplates e.2 → GoMaps e.2 → GoMaps b → equalsN e.2 b = equalsRN e.2 b)
    (motive_5 := fun e => ∀ b, NoTemplates e.2 → GoMaps e.2 → GoMaps b → equalsN e.2 b = equalsRN e.2 b)
    ?_ ?_ ?_ ?_ ?_ ?_ ?_ ?_ ?_ ?_ ?_ ?_ ?_ ?_ ?_ ?_ a
  · intro s x b _ _ _; exact leaf _ _ _ _ (by simp) (by simp) (by simp)
  · intro y s x b _ _ _; exact leaf _ _ _ _ (by simp) (by simp) (by simp)
  · intro y s x b _ _ _; exact leaf _ _ _ _ (by simp) (by simp) (by simp)
  · intro y s x b _ _ _; exact leaf _ _ _ _ (by simp) (by simp) (by simp)
  · intro y s x b _ _ _; exact leaf _ _ _ _ (by simp) (by simp) (by simp)
  · intro l ih s x b ht hg hb
    obtain ⟨v', s', x'⟩ := b
    have hl := GoMapsL_iff.1 hg
    cases v' with
    | list l' =>
      have hl' := GoMapsL_iff.1 hb
      simp only [equalsN, equalsRN, equalsV, equalsRV, equalsL_zip, equalsRL_zip, Val.isNil, Bool.false_or, Bool.and_assoc]
      congr 2
      rw [Bool.eq_iff_iff]
      simp only [List.all_eq_true]
      refine forall_congr' fun e => imp_congr_right fun he => ?_
      have h1 := (List.of_mem_zip he).1
      obtain ⟨i, hi, hie⟩ := List.getElem_of_mem h1
      rw [ih e.1 h1 e.2 (noTemplates_child (i := .idx i) ht (by simp only [Node.val_mk, child, List.getElem?_eq_getElem hi, hie])) (hl _ h1) (hl' _ (List.of_mem_zip he).2)]
    | _ => simp [equalsN, equalsRN, equalsV, equalsRV]
  · intro m ih s x b ht hg hb
    obtain ⟨v', s', x'⟩ := b
    simp only [GoMapsV] at hg
    have hl := GoMapsM_iff.1 hg.2
    cases v' with
    | map m' =>
      have hb' : MapOK m' ∧ GoMapsM m' := hb
      have hl' := GoMapsM_iff.1 hb'.2
      simp only [equalsN, equalsRN, equalsV, equalsRV, equalsM_all, equalsRM_all, Val.isNil, Bool.false_or, Bool.and_assoc]
      congr 1
      have hm : (m.all (fun e => match mget m' e.1 with | some y => equalsN e.2 y | none => false)) =
          m.all (fun e => match mget m' e.1 with | some y => equalsRN e.2 y | none => false) := by
        rw [Bool.eq_iff_iff]
        simp only [List.all_eq_true]
        refine forall_congr' fun e => imp_congr_right fun he => ?_
        cases hy : mget m' e.1 with
        | none => rfl
        | some y =>
          simp only
          rw [ih e he y (noTemplates_child (i := .key e.1) ht (by simp only [Node.val_mk, child]; exact mget_of_mem hg.1 he)) (hl e he) (hl' _ (mget_some_mem hy))]
      rw [hm, Bool.eq_iff_iff]
      simp only [Bool.and_eq_true, decide_eq_true_eq]
      rw [and_comm (a := m.length = m'.length)]
      refine and_congr_right fun hall => ?_
      rw [List.all_eq_true, same_length hg.1 hb'.1]
      intro e he
      have := List.all_eq_true.1 hall e he
      cases hy : mget m' e.1 with
      | none => simp [hy] at this
      | some y => exact ⟨y, rfl⟩
    | _ => simp [equalsN, equalsRN, equalsV, equalsRV]
  · intro y s x b _ _ _; exact leaf _ _ _ _ (by simp) (by simp) (by simp)
  · intro n ih s x b ht _ _; exact absurd rfl (ht [] _ rfl n)
  · intro y s x b _ _ _; exact leaf _ _ _ _ (by simp) (by simp) (by simp)
  · intro v s x ih b h1 h2 h3; exact ih s x b h1 h2 h3
  · intro n hn; simp at hn
  · intro n l ih1 ih2 x hx
    rcases List.mem_cons.1 hx with rfl | hx
    · exact ih1
    · exact ih2 x hx
  · intro n hn; simp at hn
  · intro n l ih1 ih2 x hx
    rcases List.mem_cons.1 hx with rfl | hx
    · exact ih1
    · exact ih2 x hx
  · intro k n ih; exact ih

/-- **C109**: nodes without templates are equal exactly if they have the same positions and at every position the same content and, but for nil, the same annotations. -/
theorem equals_iff (a b : Node E) (ht : NoTemplates a) (ha : GoMaps a) (hb : GoMaps b) : equalsN a b = true ↔ EqualNodes a b := by
  rw [equals_variant a b ht ha hb, equalsR_iff a b ha hb]

/-- **C109**: equal nodes are equivalent. -/
theorem equals_equivalent (a b : Node E) (ht : NoTemplates a) (ha : GoMaps a) (hb : GoMaps b) (h : equalsN a b = true) : equivN a b = true := by
  rw [equiv_iff_same_content a b ha hb]
  intro p
  exact Both_mono (fun _ _ h => h.1) ((equals_iff a b ht ha hb).1 h p)

/-- **C109**: equality is symmetric. -/
theorem equals_symm (a b : Node E) (ht : NoTemplates a) (ht' : NoTemplates b) (ha : GoMaps a) (hb : GoMaps b) : equalsN a b = equalsN b a := by
  rw [Bool.eq_iff_iff, equals_iff a b ht ha hb, equals_iff b a ht' hb ha]
  have : ∀ a b : Node E, EqualNodes a b → EqualNodes b a := by
    intro a b h p
    have := h p
    cases ha : locate a p <;> cases hb : locate b p <;> simp_all [Both, SameNode]
    rename_i x y
    refine ⟨SameKind_symm this.1, ?_⟩
    rcases this.2 with h | h
    · left
      have h1 := this.1
      rw [h] at h1
      cases hy : y.val <;> rw [hy] at h1 <;> first | rfl | cases h1
    · exact .inr h.symm
  exact ⟨this a b, this b a⟩

/-- **C109**: nil nodes are equal whatever their annotations are. -/
theorem equals_nil (s s' : String) (x x' : Ann) : equalsN (.mk (.nil : Val E) s x) (.mk .nil s' x') = true := rfl

/-- maps in another order and from other sources are equal, with another annotation or an additional field they are not -/
theorem toy_equals : let n : Node Empty := .mk (.map [("a", .mk (.int 1) "f" {}), ("b", .mk .nil "f" {})]) "f" {}
    NoTemplates n ∧ GoMaps n ∧ equalsN n (.mk (.map [("b", .mk .nil "g" { tag := "t" }), ("a", .mk (.int 1) "g" {})]) "g" {}) = true ∧
    equalsN n (.mk (.map [("b", .mk .nil "g" {}), ("a", .mk (.int 1) "g" { tag := "t" })]) "g" {}) = false ∧
    equalsN n (.mk (.map [("b", .mk .nil "g" {}), ("a", .mk (.int 1) "g" {}), ("c", .mk .nil "g" {})]) "g" {}) = false := by
  refine ⟨?_, ?_, by decide, by decide, by decide⟩
  · intro p x hx t ht
    match p with
    | [] => cases hx; cases ht
    | i :: p =>
      simp only [locate, Node.val_mk] at hx
      cases i with
      | key k =>
        simp only [child, mget] at hx
        split at hx
        · rename_i heq
          split at heq
          · cases heq
            cases p with
            | nil => cases hx; cases ht
            | cons j p => cases j <;> cases hx
          · split at heq
            · cases heq
              cases p with
              | nil => cases hx; cases ht
              | cons j p => cases j <;> cases hx
            · cases heq
        · cases hx
      | _ => cases hx
  · simp [GoMaps, GoMapsV, GoMapsM, MapOK, mkeys]

end Spiff
