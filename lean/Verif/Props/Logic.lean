import Verif.Model.Ops
/-
C29: boolean operators.
-/
namespace Spiff
variable {E : Type}

/-- the values counted as false -/
inductive Falsy : Val E → Prop where
  | nil : Falsy .nil
  | false : Falsy (.bool false)
  | zero : Falsy (.int 0)
  | emptyStr : Falsy (.str "")
  | emptyList : Falsy (.list [])
  | emptyMap : Falsy (.map [])

/-- C29: exactly nil, false, 0, the empty string, list and map count as false. -/
theorem toBool_iff (v : Val E) : toBool v = false ↔ Falsy v := by
  constructor
  · intro h
    cases v <;> simp [toBool] at h
    · exact .nil
    · subst h; exact .false
    · subst h; exact .zero
    · subst h; exact .emptyStr
    · subst h; exact .emptyList
    · subst h; exact .emptyMap
  · intro h; cases h <;> simp [toBool]

theorem toBool_true (v : Val E) : toBool v = true ↔ ¬ Falsy v := by
  rw [← toBool_iff]; cases toBool v <;> simp

/-- not both operands are integers -/
def NotInts (a b : Val E) : Prop := ∀ x y, ¬(a = .int x ∧ b = .int y)

theorem logAnd_notInts (a b : Val E) (h : NotInts a b) : logAnd a (some b) = .ok (.bool (toBool a && toBool b)) := by
  cases a <;> cases b <;> first | rfl | exact absurd ⟨rfl, rfl⟩ (h _ _)
theorem logOr_notInts (a b : Val E) (h : NotInts a b) : logOr a (some b) = .ok (.bool (toBool a || toBool b)) := by
  cases a <;> cases b <;> first | rfl | exact absurd ⟨rfl, rfl⟩ (h _ _)

/-- C29: truth tables of `-and`, `-or` (unless both operands are integers) and `!`. -/
theorem truth_tables (a b : Val E) (h : NotInts a b) :
    (∃ r, logAnd a (some b) = .ok (.bool r) ∧ (r = true ↔ ¬Falsy a ∧ ¬Falsy b)) ∧
    (∃ r, logOr a (some b) = .ok (.bool r) ∧ (r = true ↔ ¬Falsy a ∨ ¬Falsy b)) ∧
    (∃ r, logNot a = .ok (.bool r) ∧ (r = true ↔ Falsy a)) := by
  refine ⟨⟨_, logAnd_notInts a b h, ?_⟩, ⟨_, logOr_notInts a b h, ?_⟩, ⟨_, rfl, ?_⟩⟩
  · rw [Bool.and_eq_true, toBool_true, toBool_true]
  · rw [Bool.or_eq_true, toBool_true, toBool_true]
  · rw [Bool.not_eq_true', toBool_iff]

/-- C29: two integers are combined bit by bit. -/
theorem bitwise (x y : Int) :
    (∃ r : Int, logAnd (.int x) (some (.int y)) = .ok (.int r : Val E) ∧ InInt64 r ∧
      ∀ i < 64, (bits64 r).getLsbD i = ((bits64 x).getLsbD i && (bits64 y).getLsbD i)) ∧
    (∃ r : Int, logOr (.int x) (some (.int y)) = .ok (.int r : Val E) ∧ InInt64 r ∧
      ∀ i < 64, (bits64 r).getLsbD i = ((bits64 x).getLsbD i || (bits64 y).getLsbD i)) := by
  have hin : ∀ v : BitVec 64, InInt64 v.toInt := by
    intro v
    have h1 := BitVec.le_toInt v
    have h2 := BitVec.toInt_lt (x := v)
    unfold InInt64
    exact ⟨h1, h2⟩
  refine ⟨⟨_, rfl, hin _, ?_⟩, ⟨_, rfl, hin _, ?_⟩⟩
  · intro i _
    simp only [bits64, BitVec.ofInt_toInt, BitVec.getLsbD_and]
  · intro i _
    simp only [bits64, BitVec.ofInt_toInt, BitVec.getLsbD_or]

/-- C29: if the first operand decides, a failing second operand is irrelevant (unless the first
one is an integer). -/
theorem short_circuit (a : Val E) (hi : ∀ i, a ≠ .int i) :
    (Falsy a → logAnd a none = .ok (.bool false)) ∧ (¬Falsy a → logOr a none = .ok (.bool true)) ∧
    (¬Falsy a → logAnd a none = .undet) ∧ (Falsy a → logOr a none = .undet) := by
  have h1 : logAnd a none = if toBool a then .undet else .ok (.bool false) := by
    cases a <;> first | rfl | exact absurd rfl (hi _)
  have h2 : logOr a none = if toBool a then .ok (.bool true) else .undet := by
    cases a <;> first | rfl | exact absurd rfl (hi _)
  refine ⟨?_, ?_, ?_, ?_⟩ <;> intro h
  · rw [h1, (toBool_iff a).2 h]; rfl
  · rw [h2, (toBool_true a).2 h]; rfl
  · rw [h1, (toBool_true a).2 h]; rfl
  · rw [h2, (toBool_iff a).2 h]; rfl

/-- C29: the result of an undecided first operand equals the one for any value of the second, where
both are defined: short circuit and full evaluation agree. -/
theorem short_circuit_agrees (a b : Val E) (hi : ∀ i, a ≠ .int i) (r : Val E) :
    (logAnd a none = .ok r → logAnd a (some b) = .ok r) ∧ (logOr a none = .ok r → logOr a (some b) = .ok r) := by
  have hn : NotInts a b := by rintro x y ⟨h, _⟩; exact hi x h
  obtain ⟨s1, s2, s3, s4⟩ := short_circuit a hi
  rw [logAnd_notInts a b hn, logOr_notInts a b hn]
  by_cases h : Falsy a
  · rw [s1 h, s4 h, (toBool_iff a).2 h]; simp
  · rw [s2 h, s3 h, (toBool_true a).2 h]; simp

/-- C29, limit: an integer first operand makes a failing second one matter, e.g. for `0 -and <failing>`. -/
theorem no_short_circuit_int (x : Int) : logAnd (.int x) none = (.undet : Out (Val E)) ∧ logOr (.int x) none = (.undet : Out (Val E)) :=
  ⟨rfl, rfl⟩

example : logAnd (.str "a") (some (.list [])) = (.ok (.bool false) : Out (Val Empty)) := rfl
example : logAnd (.int 6) (some (.int 3)) = (.ok (.int 2) : Out (Val Empty)) := rfl
example : logOr (.int (-2)) (some (.int 1)) = (.ok (.int (-1)) : Out (Val Empty)) := rfl

end Spiff
