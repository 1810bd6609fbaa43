import Verif.Model.Find
namespace Spiff

theorem isDigits_toDigits (n : Nat) : isDigits (Nat.toDigits 10 n) = true := by
  simp only [isDigits, Bool.and_eq_true, Bool.not_eq_true', List.isEmpty_eq_false_iff, List.all_eq_true]
  refine ⟨Nat.toDigits_ne_nil, fun c hc => ?_⟩
  have := Nat.isDigit_of_mem_toDigits (by decide) (by decide) hc
  simp only [Char.isDigit, Bool.and_eq_true, decide_eq_true_eq] at this
  simp only [decide_eq_true_eq]
  exact ⟨this.1, this.2⟩

theorem digitsVal_toDigits (n : Nat) : digitsVal (Nat.toDigits 10 n) = n := by
  have h := @Nat.ofDigitChars_toDigits 10 n (by decide) (by decide)
  rw [Nat.ofDigitChars_eq_foldl] at h
  unfold digitsVal
  simp only [Nat.mul_comm] at h ⊢
  exact h

theorem toDigits_no_minus (n : Nat) (r : List Char) : Nat.toDigits 10 n ≠ '-' :: r := by
  intro h
  have := Nat.isDigit_of_mem_toDigits (b := 10) (n := n) (c := '-') (by decide) (by decide) (by rw [h]; simp)
  revert this; decide

theorem idx_toList (i : Nat) : ("[" ++ toString i ++ "]").toList = '[' :: (Nat.toDigits 10 i ++ [']']) := by
  simp only [String.toList_append]
  have h1 : "[".toList = ['['] := rfl
  have h2 : "]".toList = [']'] := rfl
  have h3 : (toString i).toList = Nat.toDigits 10 i := Nat.toList_repr
  rw [h1, h2, h3]; rfl

theorem listIndex_idx (i : Nat) : listIndex ("[" ++ toString i ++ "]").toList = some (i : Int) := by
  rw [idx_toList]
  unfold listIndex
  simp only [List.getLast?_concat, if_true, List.dropLast_concat]
  split
  · next h => exact absurd h (toDigits_no_minus i _)
  · simp [isDigits_toDigits, digitsVal_toDigits]

theorem listIndex_name (s : String) (h : s.toList.head? ≠ some '[') : listIndex s.toList = none := by
  unfold listIndex
  split
  · next he => rw [he] at h; simp at h
  · rfl

theorem name_toList (s : String) : ("name:" ++ s).toList = 'n' :: 'a' :: 'm' :: 'e' :: ':' :: s.toList := by
  simp only [String.toList_append]; rfl

theorem listIndex_named (s : String) : listIndex ("name:" ++ s).toList = none := by
  rw [name_toList]; rfl

theorem splitColon_named (s : String) : splitColon ("name:" ++ s).toList = some ("name".toList, s.toList) := by
  rw [name_toList]
  simp [splitColon, List.span, List.span.loop]

end Spiff
