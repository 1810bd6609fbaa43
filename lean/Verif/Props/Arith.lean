import Verif.Model.Ops
import Verif.Props.Cidr
/-
C27: integer arithmetic; CIDR multiplication and division.
-/
namespace Spiff
open Spec
variable {E : Type}

/-- C27: `+`, `-` and `*` of integers yield the 64 bit integer congruent to the mathematical result
modulo 2^64. -/
theorem int_ops_mod (lib : Lib) (a b : Int) :
    (∃ r, addVals lib (.int a) (.int b) = .ok (.int r : Val E) ∧ InInt64 r ∧ r % 2^64 = (a + b) % 2^64) ∧
    (∃ r, subVals lib (.int a) (.int b) = .ok (.int r : Val E) ∧ InInt64 r ∧ r % 2^64 = (a - b) % 2^64) ∧
    (∃ r, mulVals lib (.int a) (.int b) = .ok (.int r : Val E) ∧ InInt64 r ∧ r % 2^64 = (a * b) % 2^64) :=
  ⟨⟨_, rfl, wrap64_in _, wrap64_mod _⟩, ⟨_, rfl, wrap64_in _, wrap64_mod _⟩, ⟨_, rfl, wrap64_in _, wrap64_mod _⟩⟩

/-- C27: without overflow the results are exact. -/
theorem int_ops_exact (lib : Lib) (a b : Int) :
    (InInt64 (a + b) → addVals lib (.int a) (.int b) = .ok (.int (a + b) : Val E)) ∧
    (InInt64 (a - b) → subVals lib (.int a) (.int b) = .ok (.int (a - b) : Val E)) ∧
    (InInt64 (a * b) → mulVals lib (.int a) (.int b) = .ok (.int (a * b) : Val E)) := by
  refine ⟨?_, ?_, ?_⟩ <;> intro h
  · simp [addVals, numberOperands, wrap64_of_in h]
  · simp [subVals, numberOperands, wrap64_of_in h]
  · simp [mulVals, numberOperands, wrap64_of_in h]

theorem tdiv_bounds (a b : Int) (ha : InInt64 a) (hb : b ≠ 0) : InInt64 (a.tdiv b) ∨ (a = -(2^63) ∧ b = -1) := by
  unfold InInt64 at *
  have h2 : (a.tdiv b).natAbs ≤ a.natAbs := by
    rw [Int.natAbs_tdiv]; exact Nat.div_le_self _ _
  by_cases h : a.tdiv b = 2^63
  · right
    have h3 : a = -(2^63) := by omega
    refine ⟨h3, ?_⟩
    have h4 : a.natAbs / b.natAbs = 2^63 := by
      have := Int.natAbs_tdiv a b
      rw [h] at this
      exact this.symm
    have h5 : a.natAbs = 2^63 := by omega
    rw [h5] at h4
    have hb' : b.natAbs = 1 := by
      by_contra hne
      have h2 : 2 ≤ b.natAbs := by omega
      have : 2^63 / b.natAbs ≤ 2^63 / 2 := Nat.div_le_div_left h2 (by norm_num)
      norm_num at this h4
      omega
    rcases Int.natAbs_eq b with h6 | h6
    · rw [hb'] at h6
      rw [h3, h6] at h
      norm_num at h
      exact absurd h (by decide)
    · rw [hb'] at h6; exact h6
  · left
    omega

/-- C27: for a non-zero divisor `/` and `%` are integer division truncated towards zero and its
remainder: the quotient times the divisor plus the remainder is the dividend (modulo 2^64; exactly,
except for the one overflow -2^63 / -1, which yields -2^63), the remainder is smaller than the
divisor and has the sign of the dividend. -/
theorem int_div_mod (lib : Lib) (a b : Int) (ha : InInt64 a) (hb : b ≠ 0) :
    ∃ q r : Int, divVals lib (.int a) (.int b) = .ok (.int q : Val E) ∧ modVals (.int a) (.int b) = .ok (.int r : Val E) ∧
      InInt64 q ∧ r.natAbs < b.natAbs ∧ (0 ≤ a → 0 ≤ r) ∧ (a ≤ 0 → r ≤ 0) ∧
      (q * b + r) % 2^64 = a % 2^64 ∧ (¬(a = -(2^63) ∧ b = -1) → q * b + r = a) := by
  have hr : (a.tmod b).natAbs < b.natAbs := by
    rw [Int.natAbs_tmod]; exact Nat.mod_lt _ (by omega)
  have hr' : (a.tmod b).natAbs ≤ a.natAbs := by
    rw [Int.natAbs_tmod]; exact Nat.mod_le _ _
  have hpos : 0 ≤ a → 0 ≤ a.tmod b := fun h => Int.tmod_nonneg _ h
  have hneg : a ≤ 0 → a.tmod b ≤ 0 := fun h => by
    have := Int.tmod_nonneg b (a := -a) (by omega)
    rw [Int.neg_tmod] at this
    omega
  have hsum : a.tdiv b * b + a.tmod b = a := by rw [Int.mul_comm]; exact Int.mul_tdiv_add_tmod a b
  have hrin : InInt64 (a.tmod b) := by
    unfold InInt64 at *
    omega
  refine ⟨wrap64 (a.tdiv b), a.tmod b, ?_, ?_, wrap64_in _, hr, hpos, hneg, ?_, ?_⟩
  · simp [divVals, numberOperands, hb]
  · simp [modVals, intOperand, hb, wrap64_of_in hrin]
  · rcases tdiv_bounds a b ha hb with h | ⟨h1, h2⟩
    · rw [wrap64_of_in h, hsum]
    · subst h1 h2; decide +kernel
  · intro hne
    rcases tdiv_bounds a b ha hb with h | h
    · rw [wrap64_of_in h, hsum]
    · exact absurd h hne

/-- C27: division by zero is an error (integers and floats, and both zeros of the latter). -/
theorem div_zero (lib : Lib) (a : Int) (f : Nat) :
    divVals lib (.int a) (.int 0) = (.err : Out (Val E)) ∧ modVals (.int a) (.int 0) = (.err : Out (Val E)) ∧
    divVals lib (.float f) (.float 0) = (.err : Out (Val E)) ∧ divVals lib (.float f) (.float (2^63)) = (.err : Out (Val E)) := by
  refine ⟨rfl, rfl, ?_, ?_⟩ <;> simp [divVals, numberOperands, floatEq, isNaN]

/-- C27: no operand makes an arithmetic operator crash. -/
theorem arith_no_panic (lib : Lib) (a b : Val E) :
    addVals lib a b ≠ .panic ∧ subVals lib a b ≠ .panic ∧ mulVals lib a b ≠ .panic ∧ divVals lib a b ≠ .panic ∧
    modVals a b ≠ .panic := by
  refine ⟨?_, ?_, ?_, ?_, ?_⟩
  · unfold addVals moveAddr; repeat' split
    all_goals simp
  · unfold subVals moveAddr; repeat' split
    all_goals simp
  · unfold mulVals; repeat' split
    all_goals simp
  · unfold divVals; repeat' split
    all_goals simp
  · unfold modVals; repeat' split
    all_goals simp

/-- a number -/
def IsNumber : Val E → Prop
  | .int _ => True
  | .float _ => True
  | _ => False

/-- C27: for a first operand that is not a string, the operators succeed iff both operands
are numbers (and the divisor is not zero). -/
theorem number_operands (lib : Lib) (a b : Val E) (ha : ∀ s, a ≠ .str s) :
    ((∃ r, addVals lib a b = .ok r) ↔ IsNumber a ∧ IsNumber b) ∧
    ((∃ r, subVals lib a b = .ok r) ↔ IsNumber a ∧ IsNumber b) ∧
    ((∃ r, mulVals lib a b = .ok r) ↔ IsNumber a ∧ IsNumber b) := by
  cases a <;> cases b <;> simp [addVals, subVals, mulVals, numberOperands, IsNumber] <;> exact absurd rfl (ha _)

/-! ### CIDR multiplication and division -/

/-- the float a number is converted to, if the other operand is a float -/
def asFloat (lib : Lib) : Val E → Option Nat
  | .float f => some f
  | .int i => some (lib.ofInt i)
  | _ => none

/-- C27: as soon as one operand is a float, the operation is that of floats, with an integer operand converted, in the given order of the
operands; division by zero (positive or negative) is an error. -/
theorem float_ops (lib : Lib) (a b : Val E) (x y : Nat) (ha : asFloat lib a = some x) (hb : asFloat lib b = some y)
    (hf : (∃ f, a = .float f) ∨ ∃ f, b = .float f) :
    addVals lib a b = .ok (.float (lib.fadd x y)) ∧ subVals lib a b = .ok (.float (lib.fsub x y)) ∧
    mulVals lib a b = .ok (.float (lib.fmul x y)) ∧ divVals lib a b = if floatEq y 0 then .err else .ok (.float (lib.fdiv x y)) := by
  cases a <;> simp only [asFloat, Option.some.injEq, reduceCtorEq] at ha <;> cases b <;>
    simp only [asFloat, Option.some.injEq, reduceCtorEq] at hb <;> subst ha <;> subst hb <;>
    first
    | exact ⟨rfl, rfl, rfl, rfl⟩
    | simp at hf

example (lib : Lib) : subVals (E := Unit) lib (.int 1) (.float 5) = .ok (.float (lib.fsub (lib.ofInt 1) 5)) :=
  (float_ops lib (.int 1) (.float 5) _ _ rfl rfl (.inr ⟨5, rfl⟩)).2.1

theorem maskByte_inj {a b : Nat} (ha : a ≤ 8) (hb : b ≤ 8) (h : maskByte a = maskByte b) : a = b := by
  have : ∀ a b : Fin 9, maskByte a.val = maskByte b.val → a = b := by decide
  have := this ⟨a, by omega⟩ ⟨b, by omega⟩ h
  simpa using this

theorem maskByte_min (n : Nat) : maskByte n = maskByte (min n 8) := by
  by_cases h : 8 ≤ n
  · rw [maskByte_ge n h, Nat.min_eq_right h]
  · rw [Nat.min_eq_left (by omega)]

theorem cidrMask_inj (len : Nat) : ∀ a b, a ≤ 8 * len → b ≤ 8 * len → cidrMask a len = cidrMask b len → a = b := by
  induction len with
  | zero => intro a b ha hb _; omega
  | succ n ih =>
    intro a b ha hb h
    simp only [cidrMask, List.cons.injEq] at h
    have h1 := h.1
    rw [maskByte_min a, maskByte_min b] at h1
    have h1 := maskByte_inj (Nat.min_le_right _ _) (Nat.min_le_right _ _) h1
    have h2 := ih (a - 8) (b - 8) (by omega) (by omega) h.2
    omega

theorem maskOnes_cidrMask (ones len : Nat) (h : ones ≤ 8 * len) : maskOnes (cidrMask ones len) = ones := by
  unfold maskOnes
  rw [cidrMask_length]
  cases hf : (List.range (8 * len + 1)).find? (fun o => decide (cidrMask o len = cidrMask ones len)) with
  | none =>
    have := List.find?_eq_none.1 hf ones (List.mem_range.2 (by omega))
    simp at this
  | some o =>
    have h1 := List.find?_some hf
    have h2 := List.mem_of_find?_eq_some hf
    simp only [decide_eq_true_eq] at h1
    exact cidrMask_inj len o ones (by have := List.mem_range.1 h2; omega) h h1

theorem halvings_spec (fuel : Nat) : ∀ (n : Nat) (round : Bool), 1 ≤ n → n ≤ fuel →
    2^(halvings fuel n round).1 ≤ n ∧ n < 2^((halvings fuel n round).1 + 1) ∧
    (halvings fuel n round).2 = (round || decide (n ≠ 2^(halvings fuel n round).1)) := by
  induction fuel with
  | zero => intro n r h1 h2; omega
  | succ f ih =>
    intro n r h1 h2
    unfold halvings
    by_cases h : n ≤ 1
    · have : n = 1 := by omega
      subst this
      simp
    · simp only [if_neg h]
      obtain ⟨i1, i2, i3⟩ := ih (n / 2) (r || n % 2 == 1) (by omega) (by omega)
      generalize halvings f (n / 2) (r || n % 2 == 1) = x at *
      refine ⟨?_, ?_, ?_⟩
      · rw [Nat.pow_succ]; omega
      · rw [Nat.pow_succ]; omega
      · rw [i3, Bool.or_assoc]
        congr 1
        rw [Bool.eq_iff_iff]
        simp only [Bool.or_eq_true, beq_iff_eq, decide_eq_true_eq]
        rw [Nat.pow_succ]
        omega

/-- C27: the number of additional network bits for a divisor `n` is the least `p` with `n ≤ 2^p`. -/
theorem extraBits_least (n : Nat) (h : 1 ≤ n) : n ≤ 2^(extraBits n) ∧ ∀ p, n ≤ 2^p → extraBits n ≤ p := by
  obtain ⟨h1, h2, h3⟩ := halvings_spec n n false h (Nat.le_refl _)
  simp only [Bool.false_or] at h3
  unfold extraBits
  generalize halvings n n false = x at *
  simp only [h3]
  by_cases he : n = 2^x.1
  · simp only [he, ne_eq, not_true_eq_false, decide_false, Bool.false_eq_true, if_false]
    refine ⟨Nat.le_refl _, fun p hp => ?_⟩
    exact (Nat.pow_le_pow_iff_right (by omega)).1 hp
  · simp only [ne_eq, he, not_false_eq_true, decide_true, if_true]
    refine ⟨by omega, fun p hp => ?_⟩
    have : 2^x.1 < 2^p := by omega
    have := (Nat.pow_lt_pow_iff_right (by omega)).1 this
    omega

/-- C27: dividing an IPv4 network by `n` yields the first of the (at least `n`) equally sized
networks it is split into by the least possible number of additional network bits, or an error if
there are too few host bits or `n < 1`. -/
theorem cidr_division (lib : Lib) (s : String) (ip net : List Nat) (ones n : Nat) (ho : ones ≤ 32) (hn : 1 ≤ n)
    (hp : lib.parseCIDR s = some (ip, net, cidrMask ones 4)) :
    ∃ p, (n ≤ 2^p ∧ ∀ q, n ≤ 2^q → p ≤ q) ∧
      divVals lib (.str s) (.int n) =
        if ones + p ≤ 32 then .ok (.str (lib.showNet net (cidrMask (ones + p) 4)) : Val E) else .err := by
  refine ⟨extraBits n, extraBits_least n hn, ?_⟩
  simp only [divVals, hp, maskOnes_cidrMask ones 4 (by omega), cidrMask_length, Int.toNat_natCast]
  rw [if_neg (by omega)]
  by_cases h : ones + extraBits n ≤ 32
  · rw [if_neg (by omega), if_pos h]
  · rw [if_pos (by omega), if_neg h]

theorem cidr_division_nonpositive (lib : Lib) (s : String) (k : Int) (hk : k < 1) :
    divVals lib (.str s) (.int k) = (.err : Out (Val E)) := by
  simp only [divVals]
  split
  · rfl
  · simp [hk]

/-- C27: multiplying an IPv4 network by `n ≥ 0` yields the network `n` places further (of the same
size), modulo the address space. -/
theorem cidr_multiplication (lib : Lib) (s : String) (ip net : List Nat) (ones n : Nat) (ho : ones ≤ 32)
    (hb : Bytes net) (hl : net.length = 4) (hn : n * 2^(32 - ones) + 255 < 2^63)
    (hp : lib.parseCIDR s = some (ip, net, cidrMask ones 4)) :
    ∃ r : List Nat, mulVals lib (.str s) (.int n) = .ok (.str (lib.showNet r (cidrMask ones 4)) : Val E) ∧
      r.length = 4 ∧ (ipNum r : Int) = (ipNum net + n * 2^(32 - ones)) % 2^32 := by
  refine ⟨ipAdd net (n * 2^(32 - ones) : Nat), ?_, by rw [ipAdd_length, hl], ?_⟩
  · simp only [mulVals, hp, maskOnes_cidrMask ones 4 (by omega)]
    have : wrap64 (numIP ones * (n : Int)) = ((n * 2^(32 - ones) : Nat) : Int) := by
      rw [numIP, if_pos ho]
      have e : (2^(32 - ones) * (n : Int) : Int) = ((n * 2^(32 - ones) : Nat) : Int) := by push_cast; ring
      rw [e, wrap64_of_in]
      unfold InInt64
      omega
    rw [this]
  · rw [ip_add_nonneg net _ hb (by omega) (by omega), hl]
    push_cast
    norm_num

/-- C27, defect: the network before 10.1.0.0/16 is 10.0.0.0/16, but the product with -1 is
computed as 9.255.255.0/16 (see `ip_sub_wrong`). -/
theorem cidr_multiplication_negative_wrong (lib : Lib) (s : String) (ip : List Nat)
    (hp : lib.parseCIDR s = some (ip, [10, 1, 0, 0], cidrMask 16 4)) :
    mulVals lib (.str s) (.int (-1)) = .ok (.str (lib.showNet [9, 255, 255, 0] (cidrMask 16 4)) : Val E) := by
  simp only [mulVals, hp, maskOnes_cidrMask 16 4 (by omega)]
  rfl

/-! ### IP address operands -/

/-- C27/C26: a string operand is an address: adding an integer moves it, subtracting an address
gives the difference; the result of moving an address of a network must stay in the network. -/
theorem ip_plus (lib : Lib) (s : String) (n k : Nat) (hs : lib.parseIP s = some (v4 n)) (h : n + k < 2^32) :
    addVals lib (.str s) (.int k) = (.ok (.str (lib.showIP (v4 (n + k)))) : Out (Val E)) := by
  simp only [addVals, parseAddr, hs, moveAddr, ip4_add n k h]

theorem ip_minus_ip (lib : Lib) (s t : String) (n m : Nat) (hs : lib.parseIP s = some (v4 n)) (ht : lib.parseIP t = some (v4 m))
    (hn : n < 2^32) (hm : m < 2^32) : subVals lib (.str s) (.str t) = (.ok (.int ((n : Int) - m)) : Out (Val E)) := by
  simp only [subVals, parseAddr, hs, ht, v4_length, ne_eq, not_true_eq_false, if_false, ip4_diff n m hn hm]

/-- an address with network moves only within the network -/
theorem cidr_plus (lib : Lib) (s : String) (net : List Nat) (n k ones : Nat) (h : n + k < 2^32) (ho : ones ≤ 32)
    (hb : Bytes net) (hl : net.length = 4) (hs : lib.parseIP s = none)
    (hp : lib.parseCIDR s = some (v4 n, net, cidrMask ones 4)) :
    addVals lib (.str s) (.int k) = if ipNum (minIP net (cidrMask ones 4)) ≤ n + k ∧ n + k ≤ ipNum (maxIP net (cidrMask ones 4))
      then (.ok (.str (lib.showNet (v4 (n + k)) (cidrMask ones 4))) : Out (Val E)) else .err := by
  have hc := contains_ip_v4 net (n + k) ones hb hl h ho
  simp only [addVals, parseAddr, hs, hp, Option.map_some, moveAddr, ip4_add n k h]
  by_cases hh : ipNum (minIP net (cidrMask ones 4)) ≤ n + k ∧ n + k ≤ ipNum (maxIP net (cidrMask ones 4))
  · rw [if_pos hh, if_pos (hc.2 hh)]
  · rw [if_neg hh, if_neg (fun x => hh (hc.1 x))]

/-! ### non-triviality -/
example (lib : Lib) : addVals lib (.int (2^63 - 1)) (.int 1) = (.ok (.int (-(2^63))) : Out (Val Empty)) := by
  simp [addVals, numberOperands, wrap64]
example (lib : Lib) : divVals lib (.int (-7)) (.int 2) = (.ok (.int (-3)) : Out (Val Empty)) := by rfl
example : modVals (.int (-7)) (.int 2) = (.ok (.int (-1)) : Out (Val Empty)) := by rfl
example : extraBits 5 = 3 := by decide

end Spiff
