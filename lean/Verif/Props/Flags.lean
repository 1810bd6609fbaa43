import Verif.Model.Mask
/-
C53: the flag algebra of nodes, on the bit masks of the Go code, and its relation to
the record used by the other models.
C52: combination of evaluation infos.
-/
namespace Spiff
namespace Mask

theorem and_bit (f : Mask) (i : Nat) : ((f &&& BitVec.twoPow 64 i) != 0) = (f.getLsbD i && decide (i < 64)) := by
  rw [BitVec.and_twoPow]
  by_cases hi : i < 64
  · split
    · rename_i h
      have : BitVec.twoPow 64 i ≠ 0 := by
        intro he
        have := congrArg (fun x => BitVec.getLsbD x i) he
        simp [BitVec.getLsbD_twoPow, hi] at this
      rw [h]
      simpa [hi] using this
    · rename_i h
      have h' : f.getLsbD i = false := by simpa using h
      rw [h']; rfl
  · have hf : f.getLsbD i = false := BitVec.getLsbD_of_ge _ _ (by omega)
    simp [hf, hi]

theorem temporary_bit (f : Mask) : f.temporary = f.getLsbD 0 := by
  have := and_bit f 0
  simpa [temporary, TEMPORARY, show BitVec.twoPow 64 0 = (1#64) by decide] using this
theorem isLocal_bit (f : Mask) : f.isLocal = f.getLsbD 1 := by
  have := and_bit f 1
  simpa [isLocal, LOCAL, show BitVec.twoPow 64 1 = (2#64) by decide] using this
theorem state_bit (f : Mask) : f.state = f.getLsbD 3 := by
  have := and_bit f 3
  simpa [state, STATE, show BitVec.twoPow 64 3 = (8#64) by decide] using this
theorem dynamic_bit (f : Mask) : f.dynamic = f.getLsbD 5 := by
  have := and_bit f 5
  simpa [dynamic, DYNAMIC, show BitVec.twoPow 64 5 = (0x20#64) by decide] using this
theorem injected_bit (f : Mask) : f.injected = f.getLsbD 6 := by
  have := and_bit f 6
  simpa [injected, INJECTED, show BitVec.twoPow 64 6 = (0x40#64) by decide] using this
theorem isNoMerge_bit (f : Mask) : f.isNoMerge = f.getLsbD 8 := by
  have := and_bit f 8
  simpa [isNoMerge, NOMERGE, show BitVec.twoPow 64 8 = (0x100#64) by decide] using this

theorem and_two (f : Mask) (i j : Nat) :
    f &&& (BitVec.twoPow 64 i ||| BitVec.twoPow 64 j) =
      (if f.getLsbD i then BitVec.twoPow 64 i else 0) ||| (if f.getLsbD j then BitVec.twoPow 64 j else 0) := by
  have h1 := BitVec.and_twoPow f i
  have h2 := BitVec.and_twoPow f j
  have h3 : f &&& (BitVec.twoPow 64 i ||| BitVec.twoPow 64 j) =
      (f &&& BitVec.twoPow 64 i) ||| (f &&& BitVec.twoPow 64 j) := by
    ext k hk
    simp [Bool.and_or_distrib_left]
  rw [h3, h1, h2]; rfl

theorem inject_bits (f : Mask) : f.inject = (f.getLsbD 2 || f.getLsbD 4) := by
  have h := and_two f 2 4
  simp only [show BitVec.twoPow 64 2 = INJECT by decide, show BitVec.twoPow 64 4 = DEFAULT by decide] at h
  rw [inject, h]
  cases f.getLsbD 2 <;> cases f.getLsbD 4 <;> decide
theorem default_bits (f : Mask) : f.default = (f.getLsbD 4 && !f.getLsbD 2) := by
  have h := and_two f 4 2
  simp only [show BitVec.twoPow 64 2 = INJECT by decide, show BitVec.twoPow 64 4 = DEFAULT by decide] at h
  rw [default, h]
  cases f.getLsbD 2 <;> cases f.getLsbD 4 <;> decide
theorem implied_bits (f : Mask) : f.implied = (f.getLsbD 7 && !f.getLsbD 4) := by
  have h := and_two f 7 4
  simp only [show BitVec.twoPow 64 7 = IMPLIED by decide, show BitVec.twoPow 64 4 = DEFAULT by decide] at h
  rw [implied, h]
  cases f.getLsbD 7 <;> cases f.getLsbD 4 <;> decide
theorem propagateImplied_bits (f : Mask) : f.propagateImplied = (f.getLsbD 7 || f.getLsbD 4) := by
  have h := and_two f 7 4
  simp only [show BitVec.twoPow 64 7 = IMPLIED by decide, show BitVec.twoPow 64 4 = DEFAULT by decide] at h
  rw [propagateImplied, h]
  cases f.getLsbD 7 <;> cases f.getLsbD 4 <;> decide

theorem getLsbD_overridden (f : Mask) (i : Nat) :
    f.overridden.getLsbD i = if f.default then (i = 2 || (f.getLsbD i && i != 4) : Bool) else f.getLsbD i := by
  rw [overridden]
  split
  · rename_i h
    rw [show INJECT = BitVec.twoPow 64 2 by decide, show DEFAULT = BitVec.twoPow 64 4 by decide]
    by_cases hi : i < 64
    · simp [BitVec.getLsbD_twoPow, hi]
      by_cases h2 : i = 2
      · subst h2; simp
      · by_cases h4 : i = 4
        · subst h4; simp
        · simp [h2, h4, Ne.symm h2, Ne.symm h4]
    · have hf : f.getLsbD i = false := BitVec.getLsbD_of_ge _ _ (by omega)
      have : i ≠ 2 := by omega
      simp [hf, hi, this]
  · rfl

/-- **C53** (the record model is faithful): every observer of the bit mask gives the same
answer as on the record, and adding and overriding masks are adding and overriding records. -/
theorem toFlags_faithful (f g : Mask) :
    f.temporary = f.toFlags.temporary ∧ f.isLocal = f.toFlags.loc ∧ f.inject = f.toFlags.isInject ∧
    f.default = f.toFlags.isDefault ∧ f.implied = f.toFlags.isImplied ∧
    f.propagateImplied = f.toFlags.propagateImplied ∧ f.state = f.toFlags.state ∧
    f.dynamic = f.toFlags.dynamic ∧ f.injected = f.toFlags.injected ∧ f.isNoMerge = f.toFlags.nomerge ∧
    (f.addFlags g).toFlags = f.toFlags.add g.toFlags ∧ f.overridden.toFlags = f.toFlags.overridden := by
  refine ⟨temporary_bit f, isLocal_bit f, inject_bits f, default_bits f, implied_bits f,
    propagateImplied_bits f, state_bit f, dynamic_bit f, injected_bit f, isNoMerge_bit f, ?_, ?_⟩
  · simp [addFlags, toFlags, Flags.add]
  · have h := default_bits f
    simp only [toFlags, getLsbD_overridden, Flags.overridden, Flags.isDefault]
    cases hd : f.default
    · rw [hd] at h
      simp only [← h]
      rfl
    · rw [hd] at h
      simp only [← h]
      simp [-BitVec.getLsbD_eq_getElem]

/-- **C53**: the record determines the mask: two masks using only the nine defined bits and
having the same record are equal, and every record is the record of such a mask. -/
theorem toFlags_injective {f g : Mask} (hf : f.toNat < 512) (hg : g.toNat < 512) (h : f.toFlags = g.toFlags) :
    f = g := by
  have hz : ∀ (x : Mask), x.toNat < 512 → ∀ i, 9 ≤ i → x.getLsbD i = false := by
    intro x hx i hi
    rw [← BitVec.testBit_toNat]
    apply Nat.testBit_lt_two_pow
    calc x.toNat < 512 := hx
      _ = 2 ^ 9 := rfl
      _ ≤ 2 ^ i := Nat.pow_le_pow_right (by decide) hi
  apply BitVec.eq_of_getLsbD_eq
  intro i hi
  simp only [toFlags, Flags.mk.injEq] at h
  obtain ⟨h0, h1, h2, h3, h4, h5, h6, h7, h8⟩ := h
  by_cases h9 : 9 ≤ i
  · rw [hz f hf i h9, hz g hg i h9]
  · have : i = 0 ∨ i = 1 ∨ i = 2 ∨ i = 3 ∨ i = 4 ∨ i = 5 ∨ i = 6 ∨ i = 7 ∨ i = 8 := by omega
    rcases this with rfl | rfl | rfl | rfl | rfl | rfl | rfl | rfl | rfl <;> assumption

/-- **C53** (adding flags): idempotent, commutative, associative, and monotone: no flag is
lost, exactly those of the operands are set. -/
theorem addFlags_algebra (f g h : Mask) :
    f.addFlags f = f ∧ f.addFlags g = g.addFlags f ∧
    (f.addFlags g).addFlags h = f.addFlags (g.addFlags h) ∧ f.addFlags 0 = f ∧
    (f.addFlags g).addFlags g = f.addFlags g ∧
    ∀ i, (f.addFlags g).getLsbD i = true ↔ f.getLsbD i = true ∨ g.getLsbD i = true := by
  refine ⟨BitVec.or_self, BitVec.or_comm _ _, BitVec.or_assoc _ _ _, BitVec.or_zero, ?_, ?_⟩
  · simp [addFlags, BitVec.or_assoc]
  · intro i; simp [addFlags]

/-- **C53** (observers): a default field is an inject field; it stops being a default field
as soon as the inject flag is added; adding flags never makes an inject field lose this
property; a field is not default and plainly injected at once. -/
theorem default_inject (f g : Mask) :
    (f.default = true → f.inject = true) ∧ (f.addFlags INJECT).default = false ∧
    (f.inject = true → (f.addFlags g).inject = true) ∧
    (f.default = true ↔ f.inject = true ∧ f.getLsbD 2 = false) ∧
    (f.implied = true → f.propagateImplied = true ∧ f.default = false) := by
  simp only [default_bits, inject_bits, implied_bits, propagateImplied_bits, addFlags,
    show INJECT = BitVec.twoPow 64 2 by decide]
  have h2 : (BitVec.twoPow 64 2).getLsbD 2 = true := by decide
  have h4 : (BitVec.twoPow 64 2).getLsbD 4 = false := by decide
  simp only [BitVec.getLsbD_or, h2, h4]
  generalize f.getLsbD 2 = a
  generalize f.getLsbD 4 = b
  generalize f.getLsbD 7 = c
  cases a <;> cases b <;> cases c <;> simp

/-- **C53** (overriding): a default field that is overridden becomes an inject field and is no
default field any more, all its other flags are kept; any other field is unchanged.
Overriding twice is overriding once. -/
theorem overridden_spec (f : Mask) :
    (f.default = true → f.overridden.inject = true ∧ f.overridden.default = false ∧
      f.overridden.getLsbD 2 = true ∧ f.overridden.getLsbD 4 = false ∧
      ∀ i, i ≠ 2 → i ≠ 4 → f.overridden.getLsbD i = f.getLsbD i) ∧
    (f.default = false → f.overridden = f) ∧
    f.overridden.overridden = f.overridden ∧ f.overridden.default = false := by
  have hnd : f.overridden.default = false := by
    rw [default_bits, getLsbD_overridden, getLsbD_overridden]
    cases h : f.default
    · simp; rw [default_bits] at h; simpa using h
    · simp
  refine ⟨fun h => ⟨?_, hnd, ?_, ?_, ?_⟩, fun h => by simp [overridden, h], ?_, hnd⟩
  · rw [inject_bits, getLsbD_overridden]; simp [h]
  · rw [getLsbD_overridden]; simp [h]
  · rw [getLsbD_overridden]; simp [h]
  · intro i h2 h4
    rw [getLsbD_overridden]; simp [h, h2, h4]
  · rw [overridden]; simp [hnd]

example : (0x11 : Mask).default = true ∧ (0x11 : Mask).overridden = 0x05 := by decide
end Mask

/-! ### C52 -/

/-- Specification: the last element of `xs` satisfying `p`, else `d`. -/
def lastOr {α : Type} (p : α → Bool) (d : α) (xs : List α) : α := (xs.reverse.find? p).getD d

theorem lastOr_cons {α : Type} (p : α → Bool) (d a : α) (xs : List α) :
    lastOr p d (a :: xs) = lastOr p (if p a then a else d) xs := by
  simp only [lastOr, List.reverse_cons, List.find?_append]
  cases xs.reverse.find? p with
  | some v => simp
  | none =>
    cases h : p a <;> simp [h]

variable {C : Type}

/-- **C52** (accumulation): the information combined from any sequence of operands: error,
failure, undefined, merged, preferred marks and flags are those set by any of them, redirect
path, key name and issue are those of the last operand having one, the replace mark is that of
the last operand only, source name and raw mark are those of the first one, and all clean-up
handlers are kept in order. -/
theorem join_all (i : EvalInfo C) (os : List (EvalInfo C)) :
    let r := os.foldl EvalInfo.join i
    r.info.localError = (i :: os).any (·.info.localError) ∧
    r.info.failed = (i :: os).any (·.info.failed) ∧
    r.info.undefined = (i :: os).any (·.info.undefined) ∧
    r.info.merged = (i :: os).any (·.info.merged) ∧
    r.info.preferred = (i :: os).any (·.info.preferred) ∧
    r.info.flags = os.foldl (fun f o => f.add o.info.flags) i.info.flags ∧
    r.info.redirectPath = lastOr Option.isSome i.info.redirectPath (os.map (·.info.redirectPath)) ∧
    r.info.keyName = lastOr (· ≠ "") i.info.keyName (os.map (·.info.keyName)) ∧
    r.info.issue = lastOr (· ≠ "") i.info.issue (os.map (·.info.issue)) ∧
    r.info.replace = (os.getLast?.getD i).info.replace ∧
    r.info.source = i.info.source ∧ r.info.raw = i.info.raw ∧
    r.cleanups = (i :: os).flatMap (·.cleanups) := by
  induction os generalizing i with
  | nil => simp [lastOr]
  | cons o os ih =>
    have := ih (i.join o)
    simp only [List.foldl_cons]
    refine ⟨?_, ?_, ?_, ?_, ?_, ?_, ?_, ?_, ?_, ?_, ?_, ?_, ?_⟩
    · rw [this.1]; simp [EvalInfo.join, Info.join, Bool.or_assoc]
    · rw [this.2.1]; simp [EvalInfo.join, Info.join, Bool.or_assoc]
    · rw [this.2.2.1]; simp [EvalInfo.join, Info.join, Bool.or_assoc]
    · rw [this.2.2.2.1]; simp [EvalInfo.join, Info.join, Bool.or_assoc]
    · rw [this.2.2.2.2.1]; simp [EvalInfo.join, Info.join, Bool.or_assoc]
    · rw [this.2.2.2.2.2.1]; rfl
    · rw [this.2.2.2.2.2.2.1, List.map_cons, lastOr_cons]; rfl
    · rw [this.2.2.2.2.2.2.2.1, List.map_cons, lastOr_cons]; simp [EvalInfo.join, Info.join]
    · rw [this.2.2.2.2.2.2.2.2.1, List.map_cons, lastOr_cons]; simp [EvalInfo.join, Info.join]
    · rw [this.2.2.2.2.2.2.2.2.2.1]
      cases h : os.getLast? with
      | none => simp [List.getLast?_eq_none_iff] at h; subst h; rfl
      | some l => simp [List.getLast?_cons, h]
    · rw [this.2.2.2.2.2.2.2.2.2.2.1]; rfl
    · rw [this.2.2.2.2.2.2.2.2.2.2.2.1]; rfl
    · rw [this.2.2.2.2.2.2.2.2.2.2.2.2]
      simp [EvalInfo.join]

theorem Flags.add_assoc' (a b c : Flags) : (a.add b).add c = a.add (b.add c) := by
  simp [Flags.add, Bool.or_assoc]

/-- **C52** (grouping): the result does not depend on how the operands are grouped. -/
theorem join_assoc (a b c : EvalInfo C) : (a.join b).join c = a.join (b.join c) := by
  simp only [EvalInfo.join, Info.join, List.append_assoc, Bool.or_assoc, Flags.add_assoc',
    EvalInfo.mk.injEq, Info.mk.injEq, and_true, true_and]
  refine ⟨?_, ?_, ?_⟩
  · by_cases h : c.info.redirectPath.isSome = true <;> simp [h]
  · by_cases h : c.info.keyName = "" <;> simp [h]
  · by_cases h : c.info.issue = "" <;> simp [h]

/-- **C52** (unit): combining with the default information changes nothing, except that on the
right it clears the replace mark, and on the left the source name and raw mark are lost. -/
theorem join_default (i : EvalInfo C) :
    i.join {} = { i with info := { i.info with replace := false } } ∧
    EvalInfo.join {} i = { i with info := { i.info with source := "", raw := false } } := by
  obtain ⟨i, c⟩ := i
  constructor
  · simp [EvalInfo.join, Info.join, Flags.add]
  · simp only [EvalInfo.join, Info.join, Flags.add, List.nil_append, EvalInfo.mk.injEq, Info.mk.injEq, Bool.false_or,
      true_and, and_true]
    refine ⟨?_, ?_, ?_⟩
    · cases i.redirectPath <;> simp
    · by_cases h : i.keyName = "" <;> simp [h]
    · by_cases h : i.issue = "" <;> simp [h]

/-- **C52** (clean-up): all handlers are called, exactly once and in order; an error is
reported iff some handler failed, namely the one of the last failing handler; afterwards no
handler is left. -/
theorem cleanup_all {Err : Type} (call : C → Option Err) (i : EvalInfo C) :
    (i.cleanup call).1 = i.cleanups ∧
    (i.cleanup call).2.1 = (i.cleanups.filterMap call).getLast? ∧
    (i.cleanup call).2.2.cleanups = [] ∧ ((i.cleanup call).2.2.cleanup call).1 = [] := by
  refine ⟨rfl, ?_, rfl, rfl⟩
  have : ∀ (cs : List C) (e : Option Err),
      cs.foldl (lastError call) e =
        ((cs.filterMap call).getLast?.or e) := by
    intro cs
    induction cs with
    | nil => intro e; simp
    | cons c cs ih =>
      intro e
      rw [List.foldl_cons, ih, lastError]
      cases h : call c with
      | none => simp only [List.filterMap_cons, h]
      | some x =>
        simp only [List.filterMap_cons, h]
        cases h2 : (List.filterMap call cs).getLast? with
        | none => simp only [List.getLast?_eq_none_iff] at h2; rw [h2]; rfl
        | some y => simp only [List.getLast?_cons, h2]; rfl
  simp only [EvalInfo.cleanup, this, Option.or_none]

example : (EvalInfo.join (C := Nat) { info := { keyName := "a", localError := true }, cleanups := [1] }
    { info := { keyName := "b", replace := true }, cleanups := [2] }).info =
    { keyName := "b", localError := true, replace := true } := by decide

end Spiff
